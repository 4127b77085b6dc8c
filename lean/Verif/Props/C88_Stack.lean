import Verif.Spec.Samples
import Verif.Model.Stack
import Verif.Proofs.TriePartial
import Verif.Proofs.SuffixTableAnswer
/-! C88: how deep the matchers and the calls made for a message become. -/
namespace Verif
open Spec

/-! ### What is measured -/

/-- The length of a list of tokens: the bytes of its literals, and one for each token. -/
def Spec.tokensLength (toks : List Token) : Nat :=
  (toks.map fun | .literal l => l.length + 1 | .parser _ => 1).sum

mutual
/-- The length of the longest path in a trie: the bytes of the labels (one for an empty label), and one for each parser. -/
def SuffixTree.height : SuffixTree → Nat
  | ⟨ls, ps⟩ => max (litsHeight ls) (parsHeight ps)
def litsHeight : List LiteralNode → Nat
  | [] => 0
  | n :: ls => max n.height (litsHeight ls)
def parsHeight : List ParserNode → Nat
  | [] => 0
  | n :: ps => max n.height (parsHeight ps)
def LiteralNode.height : LiteralNode → Nat
  | ⟨l, _, _, n⟩ => max 1 l.length + optHeight n
def ParserNode.height : ParserNode → Nat
  | ⟨_, _, n⟩ => 1 + optHeight n
def optHeight : Option SuffixTree → Nat
  | none => 0
  | some t => t.height
end

mutual
/-- The number of entries on the longest path in a suffix array. -/
def SuffixTable.height : SuffixTable → Nat
  | ⟨ls, ps⟩ => max (slitsHeight ls) (sparsHeight ps)
def slitsHeight : List LiteralE → Nat
  | [] => 0
  | n :: ls => max n.height (slitsHeight ls)
def sparsHeight : List ParserE → Nat
  | [] => 0
  | n :: ps => max n.height (sparsHeight ps)
def LiteralE.height : LiteralE → Nat
  | ⟨_, _, n⟩ => 1 + soptHeight n
def ParserE.height : ParserE → Nat
  | ⟨_, _, n⟩ => 1 + soptHeight n
def soptHeight : Option SuffixTable → Nat
  | none => 0
  | some t => t.height
end

/-! ### The trie -/

theorem tree_height (t : SuffixTree) : t.height = max (litsHeight t.literalChildren) (parsHeight t.parserChildren) := by
  cases t; rw [SuffixTree.height]

theorem lit_height (n : LiteralNode) : n.height = max 1 n.literal.length + optHeight n.node := by cases n; rw [LiteralNode.height]

theorem par_height (n : ParserNode) : n.height = 1 + optHeight n.node := by cases n; rw [ParserNode.height]

theorem litsHeight_append (x y : List LiteralNode) : litsHeight (x ++ y) = max (litsHeight x) (litsHeight y) := by
  induction x with
  | nil => simp [litsHeight]
  | cons n x ih => simp only [List.cons_append, litsHeight, ih]; omega

theorem litsHeight_mem {n : LiteralNode} {ls : List LiteralNode} (h : n ∈ ls) : n.height ≤ litsHeight ls := by
  obtain ⟨a, b, rfl⟩ := List.append_of_mem h
  simp only [litsHeight_append, litsHeight]
  omega

theorem single_height (toks : List Token) (p : Pattern) : (single toks p).height ≤ Spec.tokensLength toks := by
  have opt : ∀ rest : List Token, optHeight (if rest.isEmpty then none else some (single rest p)) = (single rest p).height := by
    intro rest
    cases rest with
    | nil => simp [optHeight, single, SuffixTree.new, tree_height, litsHeight, parsHeight]
    | cons a b => simp [optHeight]
  induction toks with
  | nil => simp [single, SuffixTree.new, tree_height, litsHeight, parsHeight, Spec.tokensLength]
  | cons t rest ih =>
    cases t with
    | literal l =>
      simp only [single, tree_height, litsHeight, parsHeight, lit_height]
      rw [opt]; simp only [Spec.tokensLength, List.map_cons, List.sum_cons] at ih ⊢; omega
    | parser q =>
      simp only [single, tree_height, litsHeight, parsHeight, par_height]
      rw [opt]; simp only [Spec.tokensLength, List.map_cons, List.sum_cons] at ih ⊢; omega

theorem updLit_height (rest : List Token) (p : Pattern) (n : LiteralNode) :
    (updLit rest p n).height ≤ max n.height (max 1 n.literal.length + Spec.tokensLength rest) := by
  have := single_height rest p
  unfold updLit
  split
  · simp only [setPat, lit_height]; omega
  · simp only [setChild, lit_height, optHeight]; omega

theorem updPar_height (rest : List Token) (p : Pattern) (n : ParserNode) :
    (updPar rest p n).height ≤ max n.height (1 + Spec.tokensLength rest) := by
  have := single_height rest p
  unfold updPar
  split
  · simp only [par_height]; omega
  · simp only [par_height, optHeight]; omega

theorem ins_height {P : Bytes → Prop} {g : LiteralNode → LiteralNode} {k : Nat}
    (hg : ∀ n : LiteralNode, (g n).height ≤ max n.height (max 1 n.literal.length + k))
    {t t' : SuffixTree} {l : Bytes} (h : Ins g t l t') (hi : Inv P t) : t'.height ≤ max t.height (l.length + 1 + k) := by
  have hf : ∀ l, (freshLit l).height = max 1 l.length := fun l => by simp [lit_height, freshLit, optHeight]
  induction h with
  | miss t l A B ht hA hB =>
    have := hg (freshLit l)
    rw [hf] at this
    simp only [freshLit] at this
    simp only [tree_height, ht, litsHeight_append, litsHeight, freshLit]; omega
  | exact t l A B n ht hl hv =>
    have := hg n
    rw [hl] at this
    simp only [tree_height, ht, litsHeight_append, litsHeight]; omega
  | split t l A B n ht hr hs hpos hrk =>
    have h0 := hg (freshLit (l.drop (commonPrefixLen n.literal l)))
    rw [hf] at h0
    simp only [freshLit, List.length_drop] at h0
    have hle := cpl_le n.literal l
    have hb : commonPrefixLen n.literal l = n.literal.length → n.node = none := by
      intro e
      rcases hs with hs | hs
      · exfalso; apply hs
        have := cpl_take n.literal l
        rw [e, List.take_length] at this
        rw [this]; exact List.take_prefix _ _
      · exact hs.1
    have h2 : (splitNode g n l).height ≤ max n.height (l.length + 1 + k) := by
      have e1 : (l.take (commonPrefixLen n.literal l)).length = commonPrefixLen n.literal l := by simp; omega
      have hR : commonPrefixLen n.literal l + (max 1 (n.literal.length - commonPrefixLen n.literal l) + optHeight n.node) ≤
          max (max 1 n.literal.length + optHeight n.node) (l.length + 1) := by
        by_cases e : commonPrefixLen n.literal l = n.literal.length
        · rw [hb e, optHeight]; omega
        · omega
      simp only [splitNode, lit_height n, lit_height ({ literal := _, hasValue := _, pattern := _, node := some _ } : LiteralNode), optHeight, tree_height, parsHeight]
      unfold splitChildren
      simp only []
      split <;> simp only [litsHeight, lit_height ({ n with literal := _ } : LiteralNode), e1, List.length_drop, freshLit] <;>
        generalize max 1 (n.literal.length - commonPrefixLen n.literal l) + optHeight n.node = R at hR ⊢ <;> omega
    simp only [tree_height, ht, litsHeight_append, litsHeight] at h2 ⊢; omega
  | down t l A B n c c' ht hr hp hc hne _ ih =>
    have hm : n ∈ t.literalChildren := by rw [ht]; simp
    have h0 := ih (hi.child n hm c hc)
    have hl : n.literal ≠ [] := by
      intro e
      rw [e] at hr hp hne
      have hl : l = [] := by rw [← rk_eq_nil]; simpa [rk] using hr.symm
      cases hv : n.hasValue with
      | true => exact hne ⟨hv, hl.symm⟩
      | false => exact (hi.inner n hm hv).1 e
    have h3 : 0 < n.literal.length := List.length_pos_iff.mpr hl
    have h4 := hp.length_le
    simp only [List.length_drop] at h0
    simp only [tree_height t, tree_height ({ t with literalChildren := _ } : SuffixTree), ht, litsHeight_append, litsHeight, lit_height, hc, optHeight] at h0 ⊢
    omega

theorem insPar_height (sip : Bytes → UInt64) (ps : List ParserNode) (q : Parser) (rest : List Token) (p : Pattern) :
    parsHeight (insPar sip ps q rest p) ≤ max (parsHeight ps) (1 + Spec.tokensLength rest) := by
  induction ps with
  | nil =>
    have := updPar_height rest p (ParserNode.new q)
    have h1 : (ParserNode.new q).height = 1 := by simp [par_height, ParserNode.new, optHeight]
    simp only [insPar, parsHeight]; omega
  | cons n ns ih =>
    unfold insPar
    split
    · have := updPar_height rest p n
      simp only [parsHeight]; omega
    · simp only [parsHeight] at ih ⊢; omega

/-- C88: the path to a node of a trie is not longer than the longest of the patterns that were added, however many there are. -/
theorem C88_trie_height (sip : Bytes → UInt64) (ps : List Pattern) (hu : ∀ p ∈ ps, Utf8Lits p) (t : SuffixTree) (h : SuffixTree.build sip ps = .ok t)
    (k : Nat) (hk : ∀ p ∈ ps, Spec.tokensLength p.pattern ≤ k) : t.height ≤ k := by
  refine (build_induct (sip := sip) (fun ps t => (∀ p ∈ ps, Spec.tokensLength p.pattern ≤ k) → t.height ≤ k) ?_ ?_ hu h).2 hk
  · intro _
    simp [SuffixTree.new, tree_height, litsHeight, parsHeight]
  · intro ps t p t' hs hi _ ih hk
    have h0 := ih fun q hq => hk q (List.mem_append_left _ hq)
    have h1 := hk p (by simp)
    cases hs with
    | empty hp => exact h0
    | lit l rest hp _ h' =>
      have h2 := ins_height (updLit_height rest p.strip) h' hi
      have e : Spec.tokensLength p.pattern = l.length + 1 + Spec.tokensLength rest := by rw [hp]; simp [Spec.tokensLength]
      omega
    | par q rest hp =>
      have := insPar_height sip t.parserChildren q rest p.strip
      have e : Spec.tokensLength p.pattern = 1 + Spec.tokensLength rest := by rw [hp]; simp [Spec.tokensLength]
      rw [tree_height] at h0
      rw [tree_height]
      simp only []
      omega

theorem lookup_height {t : SuffixTree} {l : Bytes} {node : SuffixTree} {n : Nat} (h : t.lookupLiteral l = .ok (.err node n)) :
    node.height ≤ t.height := by
  fun_induction SuffixTree.lookupLiteral t l with
  | case1 => simp at h
  | case2 => simp at h
  | case3 t l hs =>
    simp at h
    rw [← h.1]; omega
  | case4 => simp at h
  | case5 => simp at h
  | case6 t l pos tr hs m hm c hc ih =>
    have h1 := ih h
    have h2 := litsHeight_mem (List.mem_of_getElem? hm)
    rw [lit_height, hc, optHeight] at h2
    rw [tree_height t]; omega

theorem lookup_frames {t : SuffixTree} {l : Bytes} {frames : Nat} (h : t.height < frames) : t.lookupLiteralS frames l = some (t.lookupLiteral l) := by
  fun_induction SuffixTree.lookupLiteral t l generalizing frames with
  | case6 t l pos tr hs m hm c hc ih =>
    have h2 := litsHeight_mem (List.mem_of_getElem? hm)
    rw [lit_height, hc, optHeight] at h2
    rw [tree_height t] at h
    obtain ⟨k, rfl⟩ : ∃ k, frames = k + 1 := ⟨frames - 1, by omega⟩
    have := @ih k (by omega)
    simp [SuffixTree.lookupLiteralS, *]
  | _ =>
    obtain ⟨k, rfl⟩ : ∃ k, frames = k + 1 := ⟨frames - 1, by omega⟩
    simp [SuffixTree.lookupLiteralS, *]

theorem parse_frames (frames : Nat) :
    (∀ t : SuffixTree, 4 * t.height + 2 ≤ frames → ∀ text, t.parseS frames text = some (t.parse text)) ∧
    (∀ ps : List ParserNode, 4 * parsHeight ps + 1 ≤ frames → ∀ text, parseWithParsersS frames ps text = some (parseWithParsers ps text)) ∧
    (∀ p : ParserNode, 4 * p.height ≤ frames → ∀ text, p.parseS frames text = some (p.parse text)) ∧
    (∀ t : SuffixTree, 4 * t.height + 3 ≤ frames → ∀ text parser value,
      parseThenPushKvpairS frames t text parser value = some (parseThenPushKvpair t text parser value)) := by
  induction frames with
  | zero =>
    refine ⟨fun _ h => absurd h (by omega), fun _ h => absurd h (by omega), fun p h => ?_, fun _ h => absurd h (by omega)⟩
    rw [par_height] at h; omega
  | succ frames ih =>
    obtain ⟨ih1, ih2, ih3, ih4⟩ := ih
    refine ⟨?_, ?_, ?_, ?_⟩
    · intro t ht text
      have hl := lookup_frames (t := t) (l := text) (frames := frames) (by omega)
      cases hr : t.lookupLiteral text with
      | error e =>
        have h2 : t.parse text = .error e := by unfold SuffixTree.parse; split <;> simp_all
        simp [SuffixTree.parseS, hl, hr, h2]
      | ok r =>
        cases r with
        | ok node pos =>
          cases hc : node.literalChildren[pos]? with
          | none =>
            have h2 : t.parse text = .error .unwrap := by unfold SuffixTree.parse; split <;> simp_all
            simp [SuffixTree.parseS, hl, hr, h2, hc]
          | some child =>
            have h2 : t.parse text = .ok (SuffixTree.createMatchResultIfChildIsLeaf child) := by unfold SuffixTree.parse; split <;> simp_all
            simp [SuffixTree.parseS, hl, hr, h2, hc]
        | err node rem =>
          have h2 : t.parse text = match checkedSub text.length rem with
              | .error e => .error e
              | .ok off => match ltrunc text off with
                | .error e => .error e
                | .ok text => parseWithParsers node.parserChildren text := by
            conv => lhs; unfold SuffixTree.parse
            split <;> simp_all <;> rfl
          have h3 := lookup_height hr
          rw [tree_height node] at h3
          have h4 := ih2 node.parserChildren (by omega)
          rw [h2]
          simp only [SuffixTree.parseS, hl, hr]
          cases checkedSub text.length rem with
          | error e => rfl
          | ok off =>
            cases hx : ltrunc text off with
            | error e => simp only [hx]
            | ok x => simp only [hx]; exact h4 x
    · intro ps hps text
      simp only [parseWithParsersS]
      induction ps with
      | nil => unfold parseWithParsers; simp [firstResult]
      | cons i rest ihr =>
        simp only [parsHeight] at hps
        have hi := ih3 i (by omega) text
        have hr := ihr (by omega)
        unfold parseWithParsers
        simp only [firstResult, hi, hr]
        match i.parse text with
        | .error e => rfl
        | .ok (some r) => rfl
        | .ok none => rfl
    · intro p hp text
      rw [par_height] at hp
      cases hv : p.parser.parse text with
      | error e => unfold ParserNode.parse; simp [ParserNode.parseS, hv]
      | ok r =>
        cases r with
        | none => unfold ParserNode.parse; simp [ParserNode.parseS, hv]
        | some value =>
          cases hx : ltrunc text value.length with
          | error e => unfold ParserNode.parse; simp [ParserNode.parseS, hv, hx]
          | ok x =>
            cases hn : p.node with
            | none =>
              have h2 : p.parse text = p.pushLastKvpair x value := by
                unfold ParserNode.parse; simp only [hv, hx]; split <;> simp_all
              simp [ParserNode.parseS, hv, hx, hn, h2]
            | some node =>
              have h2 : p.parse text = parseThenPushKvpair node x p.parser value := by
                unfold ParserNode.parse; simp only [hv, hx]; split <;> simp_all
              rw [hn, optHeight] at hp
              simp [ParserNode.parseS, hv, hx, hn, h2, ih4 node (by omega)]
    · intro t ht text parser value
      unfold parseThenPushKvpair
      simp only [parseThenPushKvpairS, ih1 t (by omega) text]
      match t.parse text with
      | .error e => rfl
      | .ok (some r) => rfl
      | .ok none => rfl

/-- C88: to parse a text, of whatever length, with a trie to which the patterns `ps` were added, a stack of four frames for each byte and token of the
longest pattern (and two more) is enough, however many patterns there are. -/
theorem C88_trie (sip : Bytes → UInt64) (ps : List Pattern) (hu : ∀ p ∈ ps, Utf8Lits p) (t : SuffixTree) (h : SuffixTree.build sip ps = .ok t)
    (frames : Nat) (h2 : 2 ≤ frames) (hk : ∀ p ∈ ps, 4 * Spec.tokensLength p.pattern + 2 ≤ frames) (text : Bytes) :
    t.parseS frames text = some (t.parse text) := by
  have := C88_trie_height sip ps hu t h ((frames - 2) / 4) fun p hp => by have := hk p hp; omega
  exact (parse_frames frames).1 t (by omega) text

/-! ### The suffix array -/

theorem stable_height (t : SuffixTable) : t.height = max (slitsHeight t.literalEntries) (sparsHeight t.parserEntries) := by
  cases t; rw [SuffixTable.height]

theorem slit_height (n : LiteralE) : n.height = 1 + soptHeight n.child := by cases n; rw [LiteralE.height]

theorem spar_height (n : ParserE) : n.height = 1 + soptHeight n.child := by cases n; rw [ParserE.height]

theorem slitsHeight_mem {n : LiteralE} {ls : List LiteralE} (h : n ∈ ls) : n.height ≤ slitsHeight ls := by
  induction ls with
  | nil => simp at h
  | cons m ls ih =>
    simp only [slitsHeight]
    rcases List.mem_cons.mp h with rfl | h
    · omega
    · have := ih h; omega

theorem ssingle_height (toks : List Token) (p : Pattern) : (ssingle toks p).height = toks.length := by
  have opt : ∀ rest : List Token, soptHeight (if rest.isEmpty then none else some (ssingle rest p)) = (ssingle rest p).height := by
    intro rest
    cases rest with
    | nil => simp [soptHeight, ssingle, SuffixTable.new, stable_height, slitsHeight, sparsHeight]
    | cons a b => simp [soptHeight]
  induction toks with
  | nil => simp [ssingle, SuffixTable.new, stable_height, slitsHeight, sparsHeight]
  | cons t rest ih =>
    cases t with
    | literal l =>
      simp only [ssingle, stable_height, slitsHeight, sparsHeight, slit_height]
      rw [opt, ih]; simp; omega
    | parser q =>
      simp only [ssingle, stable_height, slitsHeight, sparsHeight, spar_height]
      rw [opt, ih]; simp; omega

theorem supdL_height (rest : List Token) (p : Pattern) (n : LiteralE) : (supdL rest p n).height ≤ max n.height (1 + rest.length) := by
  unfold supdL
  split
  · simp only [slit_height]; omega
  · simp only [slit_height, soptHeight, ssingle_height]; omega

theorem supdP_height (rest : List Token) (p : Pattern) (n : ParserE) : (supdP rest p n).height ≤ max n.height (1 + rest.length) := by
  unfold supdP
  split
  · simp only [spar_height]; omega
  · simp only [spar_height, soptHeight, ssingle_height]; omega

theorem putLit_height (l : Bytes) (rest : List Token) (p : Pattern) (es : List LiteralE) :
    slitsHeight (putLit l (supdL rest p) es) ≤ max (slitsHeight es) (1 + rest.length) := by
  have h1 := supdL_height rest p (LiteralE.new l)
  have h2 : (LiteralE.new l).height = 1 := by simp [slit_height, LiteralE.new, soptHeight]
  rw [h2] at h1
  induction es with
  | nil => simp only [putLit, slitsHeight]; omega
  | cons e es ih =>
    have h3 := supdL_height rest p e
    unfold putLit
    split <;> simp only [slitsHeight] at ih ⊢ <;> omega

theorem putPar_height (sip : Bytes → UInt64) (q : Parser) (rest : List Token) (p : Pattern) (es : List ParserE) :
    sparsHeight (putPar sip q (supdP rest p) es) ≤ max (sparsHeight es) (1 + rest.length) := by
  have h1 := supdP_height rest p (ParserE.new q)
  have h2 : (ParserE.new q).height = 1 := by simp [spar_height, ParserE.new, soptHeight]
  rw [h2] at h1
  induction es with
  | nil => simp only [putPar, sparsHeight]; omega
  | cons e es ih =>
    have h3 := supdP_height rest p e
    unfold putPar
    split <;> simp only [sparsHeight] at ih ⊢ <;> omega

theorem sbuild_height {sip : Bytes → UInt64} {k : Nat} (qs : List Pattern) (hk : ∀ p ∈ qs, p.pattern.length ≤ k) {ps : List Pattern} {t t' : SuffixTable}
    (hr : Reach sip ps t) (ht : t.height ≤ k) (h : qs.foldlM (fun t p => t.addPattern sip p) t = .ok t') : t'.height ≤ k := by
  induction qs generalizing ps t with
  | nil =>
    simp [pure, Except.pure] at h
    rw [← h]; exact ht
  | cons p qs ih =>
    obtain ⟨t1, h1, h2⟩ := reach_step hr p
    simp only [List.foldlM_cons, SuffixTable.addPattern, h1, bind, Except.bind] at h
    have h0 := hk p (by simp)
    refine ih (fun q hq => hk q (List.mem_cons_of_mem _ hq)) h2 ?_ h
    cases hp : p.pattern with
    | nil => rw [sinsert_empty sip t p hp] at h1; simp at h1; rw [← h1]; exact ht
    | cons tok rest =>
      rw [hp] at h0
      simp at h0
      cases tok with
      | literal l =>
        rw [sinsert_lit sip t p l rest hp, sinsertLiteral_run hr.sorted] at h1
        simp at h1
        have := putLit_height l rest p.strip t.literalEntries
        rw [stable_height] at ht
        rw [← h1, stable_height]
        simp only []; omega
      | parser q =>
        rw [sinsert_par sip t p q rest hp, sinsertParser_run] at h1
        simp at h1
        have := putPar_height sip q rest p.strip t.parserEntries
        rw [stable_height] at ht
        rw [← h1, stable_height]
        simp only []; omega

/-- C88: the path to an entry of a suffix array has no more entries than the longest of the patterns has tokens. -/
theorem C88_suffix_array_height (sip : Bytes → UInt64) (ps : List Pattern) (t : SuffixTable) (h : SuffixTable.build sip ps = .ok t)
    (k : Nat) (hk : ∀ p ∈ ps, p.pattern.length ≤ k) : t.height ≤ k :=
  sbuild_height ps hk (reach_new sip) (by simp [SuffixTable.new, stable_height, slitsHeight, sparsHeight]) h

theorem sparse_frames (frames : Nat) :
    (∀ t : SuffixTable, 3 * t.height + 2 ≤ frames → ∀ text, t.parseS frames text = some (t.parse text)) ∧
    (∀ ps : List ParserE, 3 * sparsHeight ps + 1 ≤ frames → ∀ text, sparseWithParsersS frames ps text = some (sparseWithParsers ps text)) ∧
    (∀ p : ParserE, 3 * p.height ≤ frames → ∀ text, p.parseS frames text = some (p.parse text)) := by
  induction frames with
  | zero =>
    refine ⟨fun _ h => absurd h (by omega), fun _ h => absurd h (by omega), fun p h => ?_⟩
    rw [spar_height] at h; omega
  | succ frames ih =>
    obtain ⟨ih1, ih2, ih3⟩ := ih
    refine ⟨?_, ?_, ?_⟩
    · intro t ht text
      rw [stable_height] at ht
      cases hl : t.longestCommonPrefix text with
      | error e =>
        have h2 : t.parse text = .error e := by unfold SuffixTable.parse; split <;> simp_all
        simp [SuffixTable.parseS, hl, h2]
      | ok r =>
        cases r with
        | none =>
          have h2 : t.parse text = sparseWithParsers t.parserEntries text := by
            conv => lhs; unfold SuffixTable.parse
            split <;> simp_all
          simp only [SuffixTable.parseS, hl, h2]
          exact ih2 t.parserEntries (by omega) text
        | some child =>
          by_cases c1 : commonPrefixLen child.literal text = text.length
          · have h2 : t.parse text = .ok (child.pattern.map MatchResult.new) := by
              unfold SuffixTable.parse; split <;> simp_all
            simp [SuffixTable.parseS, hl, h2, c1]
          · by_cases c2 : commonPrefixLen child.literal text < text.length
            · cases hx : ltrunc text (commonPrefixLen child.literal text) with
              | error e =>
                have h2 : t.parse text = .error e := by unfold SuffixTable.parse; split <;> simp_all
                simp [SuffixTable.parseS, hl, h2, c1, c2, hx]
              | ok x =>
                cases hc : child.child with
                | none =>
                  have h2 : t.parse text = .ok none := by
                    unfold SuffixTable.parse; split <;> simp_all
                    split <;> simp_all
                  simp [SuffixTable.parseS, hl, h2, c1, c2, hx, hc]
                | some c =>
                  have h2 : t.parse text = c.parse x := by
                    conv => lhs; unfold SuffixTable.parse
                    split <;> simp_all
                    split <;> simp_all
                  have h3 := slitsHeight_mem (SuffixTable.lcp_mem hl)
                  rw [slit_height, hc, soptHeight] at h3
                  have h4 := ih1 c (by omega) x
                  simp [SuffixTable.parseS, hl, h2, c1, c2, hx, hc, h4]
            · have h2 : t.parse text = .ok none := by
                unfold SuffixTable.parse; split <;> simp_all
                intro h; omega
              simp [SuffixTable.parseS, hl, h2, c1, c2]
    · intro ps hps text
      simp only [sparseWithParsersS]
      induction ps with
      | nil => unfold sparseWithParsers; simp [firstResult]
      | cons i rest ihr =>
        simp only [sparsHeight] at hps
        have hi := ih3 i (by omega) text
        have hr := ihr (by omega)
        unfold sparseWithParsers
        simp only [firstResult, hi, hr]
        match i.parse text with
        | .error e => rfl
        | .ok (some r) => rfl
        | .ok none => rfl
    · intro p hp text
      rw [spar_height] at hp
      cases hv : p.parser.parse text with
      | error e => unfold ParserE.parse; simp [ParserE.parseS, hv]
      | ok r =>
        cases r with
        | none => unfold ParserE.parse; simp [ParserE.parseS, hv]
        | some value =>
          cases hx : ltrunc text value.length with
          | error e => unfold ParserE.parse; simp [ParserE.parseS, hv, hx]
          | ok x =>
            cases hn : p.child with
            | none =>
              have h2 : p.parse text = if x.isEmpty then .ok (p.createMatchResult value) else .ok none := by
                unfold ParserE.parse; simp only [hv, hx]; split <;> simp_all
              simp [ParserE.parseS, hv, hx, hn, h2]
            | some node =>
              have h2 : p.parse text = match node.parse x with
                  | .error e => .error e
                  | .ok (some result) => .ok (some (result.insert p.parser value))
                  | .ok none => .ok none := by
                conv => lhs; unfold ParserE.parse
                simp only [hv, hx]; split <;> simp_all <;> rfl
              rw [hn, soptHeight] at hp
              simp only [ParserE.parseS, hv, hx, hn, h2, ih1 node (by omega)]
              match node.parse x with
              | .error e => rfl
              | .ok (some r) => rfl
              | .ok none => rfl

/-- C88: for the suffix array three frames for each token of the longest pattern (and two more) are enough. -/
theorem C88_suffix_array (sip : Bytes → UInt64) (ps : List Pattern) (t : SuffixTable) (h : SuffixTable.build sip ps = .ok t)
    (frames : Nat) (h2 : 2 ≤ frames) (hk : ∀ p ∈ ps, 3 * p.pattern.length + 2 ≤ frames) (text : Bytes) :
    t.parseS frames text = some (t.parse text) := by
  have := C88_suffix_array_height sip ps t h ((frames - 2) / 3) fun p hp => by have := hk p hp; omega
  exact (sparse_frames frames).1 t (by omega) text

/-! ### Cases -/

def stackSample : List Pattern :=
  [Samples.pat 1 [.literal b!"alma", .parser (Samples.int b!"i"), .literal b!" x"], Samples.pat 2 [.literal b!"almoka"],
   Samples.pat 3 [.parser (Samples.int b!"i"), .literal b!" b"]]

theorem stackSample_utf8 : ∀ p ∈ stackSample, Utf8Lits p := by
  intro p hp
  simp [stackSample] at hp
  rcases hp with rfl | rfl | rfl <;> simp [Samples.pat, Utf8Lits]
  · exact ⟨ascii_utf8 (by decide), ascii_utf8 (by decide)⟩
  all_goals exact ascii_utf8 (by decide)

/-- The longest path, `alm`, `a`, the parser, ` x`, has length 7; the longest pattern 9. Six frames suffice for a message, four are too few. -/
example : (match SuffixTree.build Samples.sip stackSample with
    | .ok t => decide (t.height = 7 ∧ (stackSample.map fun p => Spec.tokensLength p.pattern) = [9, 7, 4] ∧
        (t.parseS 6 b!"alma12 x").isSome ∧ t.parseS 4 b!"alma12 x" = none)
    | .error _ => false) = true := by decide +kernel

example : (match SuffixTable.build Samples.sip stackSample with
    | .ok t => decide (t.height = 3 ∧ (t.parseS 11 b!"alma12 x").isSome ∧ t.parseS 4 b!"alma12 x" = none)
    | .error _ => false) = true := by decide +kernel

end Verif
