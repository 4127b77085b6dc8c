import Verif.Model.CostAdd
import Verif.Spec.Led
import Verif.Props.C95_Cost
import Verif.Props.C97_StackAdd
/-! C114: how much work it is to add a pattern. -/
namespace Verif
open Spec

/-- The counted run does what the uncounted one does, with work of at most `k`. -/
structure Costs {α : Type} (r : Work α) (m : M α) (k : Nat) : Prop where
  same : r.1 = m
  cost : r.2 ≤ k

theorem Costs.mono {α : Type} {r : Work α} {m : M α} {k k' : Nat} (h : Costs r m k) (hk : k ≤ k') : Costs r m k' := ⟨h.same, Nat.le_trans h.cost hk⟩

theorem costs_pure {α : Type} (m : M α) (c : Nat) : Costs (m, c) m c := ⟨rfl, Nat.le_refl _⟩

theorem costs_then {α β : Type} {x : Work α} {m : M α} {f : α → Work β} {g : α → M β} {a b : Nat} (hx : Costs x m a)
    (hf : ∀ v, m = .ok v → Costs (f v) (g v) b) : Costs (x.then f) (m >>= g) (a + b) := by
  rcases x with ⟨r, c⟩
  obtain ⟨h1, h2⟩ := hx
  simp at h1 h2
  subst h1
  cases r with
  | error e => exact ⟨rfl, by simp [Work.then]; omega⟩
  | ok v =>
    have h3 := hf v rfl
    exact ⟨h3.same, by have := h3.cost; simp [Work.then]; omega⟩

/-! ### The trie -/

theorem insertStable_length {α : Type} {cmp : α → α → M Ordering} {x : α} {l r : List α} (h : insertStable cmp x l = .ok r) :
    r.length = l.length + 1 := by
  induction l generalizing r with
  | nil => simp [insertStable] at h; rw [← h]; rfl
  | cons y l ih =>
    simp only [insertStable] at h
    split at h
    · simp at h
    · simp at h; rw [← h]; simp
    · split at h
      · simp at h
      · rename_i r' hr
        simp at h
        rw [← h]
        simp [ih hr]

theorem push_length {α : Type} {cmp : α → α → M Ordering} {v r : List α} {x : α} (h : SortedVec.push cmp v x = .ok r) : r.length = v.length + 1 := by
  have : ∀ (l acc r : List α), l.foldlM (fun acc x => insertStable cmp x acc) acc = .ok r → r.length = acc.length + l.length := by
    intro l
    induction l with
    | nil => intro acc r h; simp [pure, Except.pure] at h; simp [h]
    | cons y l ih =>
      intro acc r h
      simp only [List.foldlM_cons, bind, Except.bind] at h
      split at h
      · simp at h
      · rename_i acc' ha
        rw [ih acc' r h, insertStable_length ha]
        simp; omega
  simpa using this _ [] r h

theorem addLiteralNode_length {t t' : SuffixTree} {n : LiteralNode} (h : t.addLiteralNode n = .ok t') :
    t'.literalChildren.length = t.literalChildren.length + 1 := by
  unfold SuffixTree.addLiteralNode at h
  simp only [bind, Except.bind, pure, Except.pure] at h
  split at h
  · cases h
  · rename_i l hl
    cases h
    exact push_length hl

/-- A split node has two children. -/
theorem split_two {n m : LiteralNode} {l : Bytes} {cpl : Nat} (hm : n.split cpl l = .ok m) {c : SuffixTree} (hc : m.node = some c) :
    c.literalChildren.length = 2 := by
  unfold LiteralNode.split at hm
  simp only [bind, Except.bind, pure, Except.pure] at hm
  split at hm
  · cases hm
  split at hm
  · cases hm
  split at hm
  · cases hm
  split at hm
  · cases hm
  split at hm
  · cases hm
  split at hm
  · cases hm
  rename_i t1 h1 _ t2 h2
  cases hm
  cases hc
  rw [addLiteralNode_length h2, addLiteralNode_length h1]
  rfl

section
variable {fC : LiteralNode → Work LiteralNode} {f : LiteralNode → M LiteralNode} {k : Nat} (hf : ∀ n, Costs (fC n) (f n) k)
include hf

theorem updateLiteral_costs (t : SuffixTree) (pos : Nat) : Costs (t.updateLiteralC pos fC) (t.updateLiteral pos f) k := by
  have := costs_then (costs_pure (unwrap t.literalChildren[pos]?) 0) (fun n _ => costs_then (hf n)
    (fun n' _ => costs_pure (.ok { t with literalChildren := t.literalChildren.set pos n' }) 0))
  rw [Nat.zero_add, Nat.add_zero] at this
  exact this

theorem fresh_costs {t : SuffixTree} {l : Bytes} (hs : ∀ pos y, t.search l ≠ .ok (.goDown pos y)) (h2 : t.literalChildren.length < 2 ^ 2) :
    Costs (t.lookupFreshlyInsertedLiteralC l fC) (t.lookupFreshlyInsertedLiteral l f) (3 + k) := by
  have hfst := searchC_fst t l
  have hcost : (t.searchC l).2 ≤ 3 := by
    have h1 := probes_le (fun p : LiteralNode => p.cmpStr l) 0 t.literalChildren 2 h2
    unfold SuffixTree.searchC
    split <;> simp_all <;> omega
  unfold SuffixTree.lookupFreshlyInsertedLiteralC SuffixTree.lookupFreshlyInsertedLiteral SuffixTree.lookupLiteralMutC SuffixTree.lookupLiteralMut
  rcases hc : t.searchC l with ⟨r, c⟩
  rw [hc] at hfst hcost
  simp at hfst hcost
  rw [← hfst]
  cases r with
  | error e => exact ⟨rfl, by simp; omega⟩
  | ok r =>
    cases r with
    | found pos =>
      have := updateLiteral_costs hf t pos
      exact ⟨this.same, by have := this.cost; simp; omega⟩
    | notFound => exact ⟨rfl, by simp; omega⟩
    | goDown pos y => exact absurd hfst.symm (hs pos y)

theorem tail_costs {t : SuffixTree} (hi : Inv Utf8 t) {l : Bytes} (hl : Utf8 l) (hs : t.search l = .ok .notFound) :
    Costs (t.insertLiteralTailC l fC) (t.insertLiteralTail l f) (264 + k) := by
  have hfew := children_few hi.lits
  have hb : Costs (binarySearchLoopC (fun p : LiteralNode => p.cmpStr l) 0 t.literalChildren)
      (SortedVec.binarySearchBy (fun p => p.cmpStr l) t.literalChildren) 8 :=
    ⟨SuffixTable.binarySearchLoopC_fst _ _ _, probes_le _ _ _ 8 hfew⟩
  unfold SuffixTree.insertLiteralTailC SuffixTree.insertLiteralTail
  refine Costs.mono (costs_then hb (b := 256 + k) fun r hr => ?_) (by omega)
  cases r with
  | err pos =>
    exact Costs.mono (costs_then (costs_pure _ (t.literalChildren.length + 1)) (fun t' _ => updateLiteral_costs hf t' pos)) (by omega)
  | ok pos =>
    refine Costs.mono (costs_then (costs_pure (unwrap t.literalChildren[pos]?) 0) (b := 7 + k) fun hit hh => ?_) (by omega)
    have hg : t.literalChildren[pos]? = some hit := by
      cases hx : t.literalChildren[pos]? with
      | none => rw [hx] at hh; simp [unwrap] at hh
      | some n => rw [hx] at hh; simp [unwrap] at hh; rw [hh]
    have hmem := List.mem_of_getElem? hg
    have hne : hit.literal ≠ l := by
      intro e
      unfold SuffixTree.search SuffixTree.searchPrefixIsFound SuffixTree.searchLeaf SuffixTree.searchNotLeaf at hs
      simp only [hr, hg, unwrap, bind, Except.bind, pure, Except.pure, e, if_true] at hs
      split at hs
      · simp at hs
      · have hcl : commonPrefixLen l l = l.length := cpl_eq_length_left.mpr (List.prefix_rfl)
        simp only [hcl, Nat.lt_irrefl, if_false] at hs
        split at hs
        · simp at hs
        · split at hs
          · cases hx : ltrunc l l.length with
            | error e => rw [hx] at hs; simp at hs
            | ok y => rw [hx] at hs; simp at hs
          · simp at hs
    cases hcp : hasCommonPrefix hit.literal l with
    | none => exact (costs_pure _ 1).mono (by omega)
    | some cpl =>
      have hcpl : cpl = commonPrefixLen hit.literal l := by
        unfold hasCommonPrefix at hcp
        simp only at hcp
        split at hcp <;> simp at hcp
        exact hcp.symm
      subst hcpl
      simp only
      refine Costs.mono (costs_then (costs_pure (hit.split (commonPrefixLen hit.literal l) l) 3) (b := 4 + k) fun m hsp => ?_) (by omega)
      refine Costs.mono (costs_then (costs_pure (ltrunc l (commonPrefixLen hit.literal l)) 1) (b := 3 + k) fun suffix hx => ?_) (by omega)
      refine Costs.mono (costs_then (costs_pure (unwrap m.node) 0) (b := 3 + k) fun c hc => ?_) (by omega)
      have hc : m.node = some c := by
        cases hx : m.node with
        | none => rw [hx] at hc; simp [unwrap] at hc
        | some n => rw [hx] at hc; simp [unwrap] at hc; rw [hc]
      refine Costs.mono (costs_then (b := 0) (fresh_costs hf ?_ ?_) fun c' _ => costs_pure _ 0) (by omega)
      · have hn := hi.lits.label hit hmem
        obtain ⟨hsort, hleaf⟩ := split_shape hn hl hne hsp hc
        have hbr := cpl_boundary_right hn hl
        have hsuf : suffix = l.drop (commonPrefixLen hit.literal l) := by
          have : ltrunc l (commonPrefixLen hit.literal l) = .ok (l.drop (commonPrefixLen hit.literal l)) := sliceFrom_ok hbr
          rw [this] at hx; simpa using hx.symm
        have hsu : Utf8 suffix := by rw [hsuf]; exact (boundary_split hl hbr).2
        intro pos y hg
        rcases search_partial hsort hsu hg with ⟨A, n', B, h1, h2, h3⟩ | ⟨A, B, _, _, _, h3⟩
        · have := hleaf n' (by rw [h1]; simp) (by rw [h2, hsuf])
          rw [this] at h3
          simp at h3
          split at h3 <;> simp at h3
        · simp at h3
      · rw [split_two hsp hc]; decide

end

theorem lookupMut_costs {onOkC onErrC : SuffixTree → Nat → Work SuffixTree} {onOk onErr : SuffixTree → Nat → M SuffixTree} {K : Nat}
    (hok : ∀ node pos, Costs (onOkC node pos) (onOk node pos) K) {t : SuffixTree} {l : Bytes} (hi : Inv Utf8 t) (hl : Utf8 l)
    (herr : ∀ node y, Inv Utf8 node → Utf8 y → y <:+ l → node.search y = .ok .notFound → Costs (onErrC node y.length) (onErr node y.length) K) :
    Costs (t.lookupLiteralMutC l onOkC onErrC) (t.lookupLiteralMut l onOk onErr) (9 * (l.length + 1) + K) := by
  induction hn : l.length using Nat.strongRecOn generalizing t l with
  | _ n ih =>
    subst hn
    have hfst := searchC_fst t l
    have hcost := searchC_cost hi.lits l
    unfold SuffixTree.lookupLiteralMutC SuffixTree.lookupLiteralMut
    rcases hc : t.searchC l with ⟨r, c⟩
    rw [hc] at hfst hcost
    simp at hfst hcost
    rw [← hfst]
    cases r with
    | error e => exact ⟨rfl, by simp; omega⟩
    | ok r =>
      cases r with
      | found pos => exact ⟨(hok t pos).same, by have := (hok t pos).cost; simp; omega⟩
      | notFound =>
        have := herr t l hi hl List.suffix_rfl hfst.symm
        exact ⟨this.same, by have := this.cost; simp; omega⟩
      | goDown pos y =>
        obtain ⟨h1, h2, h3⟩ := goDown_shorter hi hl hfst.symm
        simp only
        cases hg : t.literalChildren[pos]? with
        | none => exact ⟨by simp, by simp; omega⟩
        | some n =>
          simp only
          cases hcn : n.node with
          | none => exact ⟨by simp, by simp; omega⟩
          | some c' =>
            simp only
            have h4 := ih y.length h1 (hi.child n (List.mem_of_getElem? hg) c' hcn) h2 (fun node z ha hb hcc => herr node z ha hb (hcc.trans h3)) rfl
            rcases hr : c'.lookupLiteralMutC y onOkC onErrC with ⟨r, k⟩
            rw [hr] at h4
            obtain ⟨h5, h6⟩ := h4
            simp at h5 h6
            rw [← h5]
            cases r with
            | error e => exact ⟨rfl, by simp; omega⟩
            | ok t'' => exact ⟨rfl, by simp; omega⟩

theorem insertLiteral_costs {fC : LiteralNode → Work LiteralNode} {f : LiteralNode → M LiteralNode} {k : Nat} (hf : ∀ n, Costs (fC n) (f n) k)
    {t : SuffixTree} (hi : Inv Utf8 t) {l : Bytes} (hl : Utf8 l) :
    Costs (t.insertLiteralC l fC) (t.insertLiteral l f) (9 * (l.length + 1) + (264 + k)) := by
  unfold SuffixTree.insertLiteralC SuffixTree.insertLiteral
  refine lookupMut_costs (fun node pos => (updateLiteral_costs hf node pos).mono (by omega)) hi hl ?_
  intro node y hn hy hs hr
  obtain ⟨a, rfl⟩ := hs
  refine Costs.mono (costs_then (costs_pure (checkedSub (a ++ y).length y.length) 0) (b := 264 + k) fun off ho => ?_) (by omega)
  refine Costs.mono (costs_then (costs_pure (ltrunc (a ++ y) off) 0) (b := 264 + k) fun tail hx => ?_) (by omega)
  have : tail = y := by
    simp [checkedSub] at ho
    subst ho
    unfold ltrunc sliceFrom at hx
    split at hx <;> simp at hx
    exact hx.symm
  subst this
  exact tail_costs hf hn hy hr

theorem searchLoopC_nil {α : Type} (f : α → M Ordering) (base : Nat) : binarySearchLoopC f base [] = (.ok (.err base), 0) := by
  unfold binarySearchLoopC; split <;> simp_all

/-- Adding a literal to an empty node. -/
theorem insertLiteral_new_costs {fC : LiteralNode → Work LiteralNode} {f : LiteralNode → M LiteralNode} {k : Nat} (hf : ∀ n, Costs (fC n) (f n) k)
    (l : Bytes) : Costs (SuffixTree.new.insertLiteralC l fC) (SuffixTree.new.insertLiteral l f) (1 + k) := by
  have h1 : SuffixTree.new.searchC l = (.ok .notFound, 0) := by
    unfold SuffixTree.searchC
    rw [show SuffixTree.new.literalChildren = [] from rfl, searchLoopC_nil]
  have h2 : SuffixTree.new.search l = .ok .notFound := by rw [← searchC_fst, h1]
  unfold SuffixTree.insertLiteralC SuffixTree.insertLiteral SuffixTree.lookupLiteralMutC SuffixTree.lookupLiteralMut
  rw [h1, h2]
  simp only [Nat.zero_add]
  refine Costs.mono (costs_then (costs_pure (checkedSub l.length l.length) 0) (b := 1 + k) fun off ho => ?_) (by omega)
  refine Costs.mono (costs_then (costs_pure (ltrunc l off) 0) (b := 1 + k) fun tail hx => ?_) (by omega)
  unfold SuffixTree.insertLiteralTailC SuffixTree.insertLiteralTail
  have hb : Costs (binarySearchLoopC (fun p : LiteralNode => p.cmpStr tail) 0 SuffixTree.new.literalChildren)
      (SortedVec.binarySearchBy (fun p => p.cmpStr tail) SuffixTree.new.literalChildren) 0 :=
    ⟨SuffixTable.binarySearchLoopC_fst _ _ _, probes_le _ _ _ 0 (by simp [SuffixTree.new])⟩
  refine Costs.mono (costs_then hb (b := 1 + k) fun r hr => ?_) (by omega)
  cases r with
  | ok pos =>
    have : SortedVec.binarySearchBy (fun p : LiteralNode => p.cmpStr tail) SuffixTree.new.literalChildren = .ok (.err 0) := by
      show binarySearchLoop _ 0 [] = _
      rw [← SuffixTable.binarySearchLoopC_fst, searchLoopC_nil]
    rw [this] at hr; simp at hr
  | err pos => exact Costs.mono (costs_then (costs_pure _ 1) (fun t' _ => updateLiteral_costs hf t' pos)) (by omega)

theorem insertParser_costs (sip : Bytes → UInt64) {fC : ParserNode → Work ParserNode} {f : ParserNode → M ParserNode} {k : Nat}
    (hf : ∀ n, Costs (fC n) (f n) k) (t : SuffixTree) (q : Parser) :
    Costs (t.insertParserC sip q fC) (t.insertParser sip q f) (t.parserChildren.length + k) := by
  unfold SuffixTree.insertParserC SuffixTree.insertParser SuffixTree.lookupParserC
  cases hlook : t.lookupParser sip q with
  | none =>
    simp only
    have := costs_then (costs_pure (.ok (ParserNode.new q)) t.parserChildren.length) (fun n _ => costs_then (hf n)
      (fun n' _ => costs_pure (.ok { t with parserChildren := t.parserChildren ++ [n'] }) 0))
    exact this
  | some item =>
    simp only
    have hlt : item + 1 ≤ t.parserChildren.length := by
      unfold SuffixTree.lookupParser at hlook
      have := (List.findIdx?_eq_some_iff_getElem.mp hlook).1
      omega
    have := costs_then (costs_pure (unwrap t.parserChildren[item]?) (item + 1)) (fun n _ => costs_then (hf n)
      (fun n' _ => costs_pure (.ok { t with parserChildren := t.parserChildren.set item n' }) 0))
    exact this.mono (by omega)

theorem popFirst_eq {p q : Pattern} {tok : Token} (hp : p.popFirstToken = some (tok, q)) : p.pattern = tok :: q.pattern := by
  unfold Pattern.popFirstToken at hp
  split at hp <;> simp at hp
  rename_i h
  rw [h, hp.1, ← hp.2]

/-- The update of an entry by `Entry::insert`. -/
def entryC {α β : Type} (x : Work α) (b : Bool) (u : β) (g : α → β) : Work β := if b then (.ok u, 0) else x.then fun a => (.ok (g a), 0)

def entryM {α β : Type} (m : M α) (b : Bool) (u : β) (g : α → β) : M β := if b then .ok u else match m with | .error e => .error e | .ok a => .ok (g a)

theorem entry_costs {α β : Type} {x : Work α} {m : M α} {k : Nat} (h : Costs x m k) (b : Bool) (u : β) (g : α → β) :
    Costs (entryC x b u g) (entryM m b u g) k := by
  unfold entryC entryM
  cases b with
  | true => exact ⟨rfl, by simp⟩
  | false =>
    have := costs_then h (fun a _ => costs_pure (.ok (g a)) 0)
    refine ⟨?_, this.cost⟩
    rw [if_neg (by simp), if_neg (by simp), this.same]
    cases m <;> rfl

section
variable {sip : Bytes → UInt64} {t : SuffixTree} {p q : Pattern}

theorem insertC_lit {l : Bytes} (hp : p.popFirstToken = some (.literal l, q)) : t.insertC sip p = t.insertLiteralC l fun entry =>
    entryC (SuffixTree.new.insertC sip q) q.pattern.isEmpty { entry with pattern := some q } (fun sa => { entry with node := some sa }) := by
  rw [SuffixTree.insertC]
  split <;> simp_all [entryC]

theorem insert_lit' {l : Bytes} (hp : p.popFirstToken = some (.literal l, q)) : t.insert sip p = t.insertLiteral l fun entry =>
    entryM (SuffixTree.new.insert sip q) q.pattern.isEmpty { entry with pattern := some q } (fun sa => { entry with node := some sa }) := by
  rw [SuffixTree.insert]
  split <;> simp_all
  congr 1
  funext entry
  unfold entryM
  by_cases h0 : q.pattern = []
  · simp [h0]
  · cases SuffixTree.new.insert sip q <;> simp [h0]

theorem insertC_par {a : Parser} (hp : p.popFirstToken = some (.parser a, q)) : t.insertC sip p = t.insertParserC sip a fun entry =>
    entryC (SuffixTree.new.insertC sip q) q.pattern.isEmpty { entry with pattern := some q } (fun sa => { entry with node := some sa }) := by
  rw [SuffixTree.insertC]
  split <;> simp_all [entryC]

theorem insert_par' {a : Parser} (hp : p.popFirstToken = some (.parser a, q)) : t.insert sip p = t.insertParser sip a fun entry =>
    entryM (SuffixTree.new.insert sip q) q.pattern.isEmpty { entry with pattern := some q } (fun sa => { entry with node := some sa }) := by
  rw [SuffixTree.insert]
  split <;> simp_all
  congr 1
  funext entry
  unfold entryM
  by_cases h0 : q.pattern = []
  · simp [h0]
  · cases SuffixTree.new.insert sip q <;> simp [h0]

theorem insert_none_costs (hp : p.popFirstToken = none) (k : Nat) : Costs (t.insertC sip p) (t.insert sip p) k := by
  rw [SuffixTree.insertC, SuffixTree.insert]
  split <;> simp_all
  split <;> simp_all
  exact ⟨rfl, by simp⟩

end

/-- Adding tokens to an empty node takes at most one step for each. -/
theorem insert_new_costs (sip : Bytes → UInt64) (n : Nat) : ∀ p : Pattern, p.pattern.length = n →
    Costs (SuffixTree.new.insertC sip p) (SuffixTree.new.insert sip p) n := by
  induction n with
  | zero =>
    intro p hn
    cases hp : p.popFirstToken with
    | none => exact insert_none_costs hp _
    | some tp => rw [popFirst_eq hp] at hn; simp at hn
  | succ n ih =>
    intro p hn
    cases hp : p.popFirstToken with
    | none => exact insert_none_costs hp _
    | some tp =>
      obtain ⟨tok, q⟩ := tp
      rw [popFirst_eq hp] at hn
      simp at hn
      have h1 := ih q hn
      cases tok with
      | literal l =>
        rw [insertC_lit hp, insert_lit' hp]
        refine Costs.mono (insertLiteral_new_costs (fun entry => entry_costs h1 _ _ _) l) ?_
        omega
      | parser a =>
        rw [insertC_par hp, insert_par' hp]
        refine Costs.mono (insertParser_costs sip (fun entry => entry_costs h1 _ _ _) SuffixTree.new a) ?_
        show 0 + n ≤ n + 1
        omega

/-- C114: to add a pattern that begins with the literal `l` to a trie, whatever was added to it before, takes work of at most 9 for each byte of `l` and one
for each of its tokens, plus a constant. -/
theorem C114_trie_literal (sip : Bytes → UInt64) (ps : List Pattern) (hu : ∀ p ∈ ps, Utf8Lits p) (t : SuffixTree) (h : SuffixTree.build sip ps = .ok t)
    (p : Pattern) (hp : Utf8Lits p) (l : Bytes) (rest : List Token) (hl : p.pattern = .literal l :: rest) :
    ∃ n, t.addPatternC sip p = (t.addPattern sip p, n) ∧ n ≤ 9 * l.length + p.pattern.length + 272 := by
  have hi := (build_induct (sip := sip) (fun _ _ => True) trivial (fun _ _ _ _ _ _ _ _ => trivial) hu h).1
  have key : Costs (t.insertC sip p) (t.insert sip p) (9 * l.length + p.pattern.length + 272) := by
    cases hq : p.popFirstToken with
    | none => exact insert_none_costs hq _
    | some tp =>
      obtain ⟨tok, q⟩ := tp
      have h1 := popFirst_eq hq
      have h2 := hl
      rw [h1] at h2
      simp at h2
      obtain ⟨rfl, h2⟩ := h2
      rw [insertC_lit hq, insert_lit' hq]
      refine Costs.mono (insertLiteral_costs (fun entry => entry_costs (insert_new_costs sip _ q rfl) _ _ _) hi (hp l (by rw [hl]; simp))) ?_
      rw [h1]
      simp
      omega
  exact ⟨_, Prod.ext key.same rfl, key.cost⟩

theorem insPar_length (sip : Bytes → UInt64) (ns : List ParserNode) (a : Parser) (rest : List Token) (q : Pattern) :
    (insPar sip ns a rest q).length ≤ ns.length + 1 := by
  induction ns with
  | nil => simp [insPar]
  | cons n ns ih => unfold insPar; split <;> simp; omega

/-- A trie has at its root at most as many parsers as patterns that begin with a parser were added to it. -/
theorem rootParsers_le {sip : Bytes → UInt64} {ps : List Pattern} {t : SuffixTree} (hu : ∀ p ∈ ps, Utf8Lits p) (h : SuffixTree.build sip ps = .ok t) :
    t.parserChildren.length ≤ ps.countP startsWithParser := by
  refine (build_induct (sip := sip) (fun ps t => t.parserChildren.length ≤ ps.countP startsWithParser) (by simp [SuffixTree.new]) ?_ hu h).2
  intro ps t p t' hs _ _ hm
  rw [List.countP_append]
  cases hs with
  | empty hp => omega
  | lit l rest hp t' h' => rw [ins_parsers h']; omega
  | par a rest hp =>
    have h1 := insPar_length sip t.parserChildren a rest p.strip
    have h2 : startsWithParser p = true := by unfold startsWithParser; rw [hp]
    simp [h2]
    omega

/-- C114: to add a pattern that begins with a parser to a trie takes work of at most one for each pattern added before that begins with a parser, and
one for each of its own tokens. -/
theorem C114_trie_parser (sip : Bytes → UInt64) (ps : List Pattern) (hu : ∀ p ∈ ps, Utf8Lits p) (t : SuffixTree) (h : SuffixTree.build sip ps = .ok t)
    (p : Pattern) (hp : startsWithParser p = true) :
    ∃ n, t.addPatternC sip p = (t.addPattern sip p, n) ∧ n ≤ ps.countP startsWithParser + p.pattern.length := by
  have key : Costs (t.insertC sip p) (t.insert sip p) (ps.countP startsWithParser + p.pattern.length) := by
    cases hq : p.popFirstToken with
    | none => exact insert_none_costs hq _
    | some tp =>
      obtain ⟨tok, q⟩ := tp
      have h1 := popFirst_eq hq
      cases tok with
      | literal l => unfold startsWithParser at hp; rw [h1] at hp; simp at hp
      | parser a =>
        rw [insertC_par hq, insert_par' hq]
        refine Costs.mono (insertParser_costs sip (fun entry => entry_costs (insert_new_costs sip _ q rfl) _ _ _) t a) ?_
        have := rootParsers_le hu h
        rw [h1]
        simp
        omega
  exact ⟨_, Prod.ext key.same rfl, key.cost⟩

/-! ### The suffix array -/

theorem sinsertLiteral_costs {fC : LiteralE → Work LiteralE} {f : LiteralE → M LiteralE} {k b : Nat} (hf : ∀ n, Costs (fC n) (f n) k) (t : SuffixTable)
    (l : Bytes) (hb : t.literalEntries.length < 2 ^ b) : Costs (t.insertLiteralC l fC) (t.insertLiteral l f) (b + k) := by
  unfold SuffixTable.insertLiteralC SuffixTable.insertLiteral
  refine costs_then ⟨?_, probes_le _ _ _ _ hb⟩ ?_
  · exact SuffixTable.binarySearchLoopC_fst _ _ _
  · intro r _
    cases r with
    | ok pos =>
      refine Costs.mono (costs_then (costs_pure _ 0) fun e _ => costs_then (hf e) fun e' _ => costs_pure _ 0) (by omega)
    | err pos =>
      refine Costs.mono (costs_then (costs_pure _ 0) fun l _ => costs_then (costs_pure _ 0) fun e _ => costs_then (hf e) fun e' _ => costs_pure _ 0) (by omega)

theorem sinsertParser_costs (sip : Bytes → UInt64) {fC : ParserE → Work ParserE} {f : ParserE → M ParserE} {k : Nat}
    (hf : ∀ n, Costs (fC n) (f n) k) (t : SuffixTable) (q : Parser) :
    Costs (t.insertParserC sip q fC) (t.insertParser sip q f) (t.parserEntries.length + k) := by
  unfold SuffixTable.insertParserC SuffixTable.insertParser
  cases hlook : t.parserEntries.findIdx? (fun x => x.parser.hashOs sip == q.hashOs sip) with
  | none =>
    simp only
    have := costs_then (costs_pure (.ok (ParserE.new q)) t.parserEntries.length) (fun n _ => costs_then (hf n)
      (fun n' _ => costs_pure (.ok { t with parserEntries := t.parserEntries ++ [n'] }) 0))
    exact this
  | some item =>
    simp only
    have hlt : item + 1 ≤ t.parserEntries.length := by
      have := (List.findIdx?_eq_some_iff_getElem.mp hlook).1
      omega
    have := costs_then (costs_pure (unwrap t.parserEntries[item]?) (item + 1)) (fun n _ => costs_then (hf n)
      (fun n' _ => costs_pure (.ok { t with parserEntries := t.parserEntries.set item n' }) 0))
    exact this.mono (by omega)

section
variable {sip : Bytes → UInt64} {t : SuffixTable} {p q : Pattern}

theorem sinsertC_lit {l : Bytes} (hp : p.popFirstToken = some (.literal l, q)) : t.insertC sip p = t.insertLiteralC l fun entry =>
    entryC (SuffixTable.new.insertC sip q) q.pattern.isEmpty { entry with pattern := some q } (fun sa => { entry with child := some sa }) := by
  rw [SuffixTable.insertC]
  split <;> simp_all [entryC]

theorem sinsert_lit' {l : Bytes} (hp : p.popFirstToken = some (.literal l, q)) : t.insert sip p = t.insertLiteral l fun entry =>
    entryM (SuffixTable.new.insert sip q) q.pattern.isEmpty { entry with pattern := some q } (fun sa => { entry with child := some sa }) := by
  rw [SuffixTable.insert]
  split <;> simp_all
  congr 1
  funext entry
  unfold entryM
  by_cases h0 : q.pattern = []
  · simp [h0]
  · cases SuffixTable.new.insert sip q <;> simp [h0]

theorem sinsertC_par {a : Parser} (hp : p.popFirstToken = some (.parser a, q)) : t.insertC sip p = t.insertParserC sip a fun entry =>
    entryC (SuffixTable.new.insertC sip q) q.pattern.isEmpty { entry with pattern := some q } (fun sa => { entry with child := some sa }) := by
  rw [SuffixTable.insertC]
  split <;> simp_all [entryC]

theorem sinsert_par' {a : Parser} (hp : p.popFirstToken = some (.parser a, q)) : t.insert sip p = t.insertParser sip a fun entry =>
    entryM (SuffixTable.new.insert sip q) q.pattern.isEmpty { entry with pattern := some q } (fun sa => { entry with child := some sa }) := by
  rw [SuffixTable.insert]
  split <;> simp_all
  congr 1
  funext entry
  unfold entryM
  by_cases h0 : q.pattern = []
  · simp [h0]
  · cases SuffixTable.new.insert sip q <;> simp [h0]

theorem sinsert_none_costs (hp : p.popFirstToken = none) (k : Nat) : Costs (t.insertC sip p) (t.insert sip p) k := by
  rw [SuffixTable.insertC, SuffixTable.insert]
  split <;> simp_all
  split <;> simp_all
  exact ⟨rfl, by simp⟩

end

/-- Adding tokens to an empty table takes no comparison. -/
theorem sinsert_new_costs (sip : Bytes → UInt64) (n : Nat) : ∀ p : Pattern, p.pattern.length = n →
    Costs (SuffixTable.new.insertC sip p) (SuffixTable.new.insert sip p) 0 := by
  induction n with
  | zero =>
    intro p hn
    cases hp : p.popFirstToken with
    | none => exact sinsert_none_costs hp _
    | some tp => rw [popFirst_eq hp] at hn; simp at hn
  | succ n ih =>
    intro p hn
    cases hp : p.popFirstToken with
    | none => exact sinsert_none_costs hp _
    | some tp =>
      obtain ⟨tok, q⟩ := tp
      rw [popFirst_eq hp] at hn
      simp at hn
      have h1 := ih q hn
      cases tok with
      | literal l =>
        rw [sinsertC_lit hp, sinsert_lit' hp]
        exact sinsertLiteral_costs (b := 0) (fun entry => entry_costs h1 _ _ _) SuffixTable.new l (by simp [SuffixTable.new])
      | parser a =>
        rw [sinsertC_par hp, sinsert_par' hp]
        exact sinsertParser_costs sip (fun entry => entry_costs h1 _ _ _) SuffixTable.new a

theorem putPar_length (sip : Bytes → UInt64) (a : Parser) (f : ParserE → ParserE) (es : List ParserE) : (putPar sip a f es).length ≤ es.length + 1 := by
  induction es with
  | nil => simp [putPar]
  | cons e es ih => unfold putPar; split <;> simp; omega

/-- The sizes of the two lists at the root of a suffix array. -/
theorem build_sizes {sip : Bytes → UInt64} (qs : List Pattern) : ∀ {ps : List Pattern} {t t' : SuffixTable}, Reach sip ps t →
    qs.foldlM (fun t p => t.addPattern sip p) t = .ok t' →
    t'.literalEntries.length ≤ t.literalEntries.length + qs.countP startsWithLiteral ∧ t'.parserEntries.length ≤ t.parserEntries.length + qs.countP startsWithParser := by
  induction qs with
  | nil => intro ps t t' _ h; simp [pure, Except.pure] at h; subst h; simp
  | cons p qs ih =>
    intro ps t t' hr h
    obtain ⟨t1, h1, h2⟩ := reach_step hr p
    simp only [List.foldlM_cons, SuffixTable.addPattern, h1, bind, Except.bind] at h
    obtain ⟨a1, a2⟩ := ih h2 h
    cases hp : p.pattern with
    | nil =>
      rw [sinsert_empty sip t p hp] at h1; simp at h1; subst h1
      simp only [List.countP_cons]
      omega
    | cons tok rest =>
      cases tok with
      | literal l =>
        rw [sinsert_lit sip t p l rest hp, sinsertLiteral_run hr.sorted] at h1
        simp at h1; subst h1
        have := putLit_length l (supdL rest p.strip) t.literalEntries
        have e : startsWithLiteral p = true := by unfold startsWithLiteral; rw [hp]
        simp only [List.countP_cons, e, if_true]
        simp at a1 a2
        omega
      | parser a =>
        rw [sinsert_par sip t p a rest hp, sinsertParser_run] at h1
        simp at h1; subst h1
        have := putPar_length sip a (supdP rest p.strip) t.parserEntries
        have e : startsWithParser p = true := by unfold startsWithParser; rw [hp]
        simp only [List.countP_cons, e, if_true]
        simp at a1 a2
        omega

/-- C114: to add a pattern that begins with a literal to a suffix array takes a number of comparisons that is at most one more than the logarithm of the
number of patterns added before that begin with a literal. -/
theorem C114_suffix_literal (sip : Bytes → UInt64) (ps : List Pattern) (t : SuffixTable) (h : SuffixTable.build sip ps = .ok t) (p : Pattern)
    (hp : startsWithLiteral p = true) :
    ∃ n, t.addPatternC sip p = (t.addPattern sip p, n) ∧ n ≤ Nat.log2 (ps.countP startsWithLiteral) + 1 := by
  have key : Costs (t.insertC sip p) (t.insert sip p) (Nat.log2 (ps.countP startsWithLiteral) + 1) := by
    cases hq : p.popFirstToken with
    | none => exact sinsert_none_costs hq _
    | some tp =>
      obtain ⟨tok, q⟩ := tp
      have h1 := popFirst_eq hq
      cases tok with
      | literal l =>
        rw [sinsertC_lit hq, sinsert_lit' hq]
        have h2 := (build_sizes ps (reach_new sip) h).1
        exact sinsertLiteral_costs (fun entry => entry_costs (sinsert_new_costs sip _ q rfl) _ _ _) t l
          (Nat.lt_of_le_of_lt (by simpa [SuffixTable.new] using h2) Nat.lt_log2_self)
      | parser a => unfold startsWithLiteral at hp; rw [h1] at hp; simp at hp
  exact ⟨_, Prod.ext key.same rfl, key.cost⟩

/-- C114: to add a pattern that begins with a parser to a suffix array takes at most one comparison for each pattern added before that begins with a
parser. -/
theorem C114_suffix_parser (sip : Bytes → UInt64) (ps : List Pattern) (t : SuffixTable) (h : SuffixTable.build sip ps = .ok t) (p : Pattern)
    (hp : startsWithParser p = true) :
    ∃ n, t.addPatternC sip p = (t.addPattern sip p, n) ∧ n ≤ ps.countP startsWithParser := by
  have key : Costs (t.insertC sip p) (t.insert sip p) (ps.countP startsWithParser) := by
    cases hq : p.popFirstToken with
    | none => exact sinsert_none_costs hq _
    | some tp =>
      obtain ⟨tok, q⟩ := tp
      have h1 := popFirst_eq hq
      cases tok with
      | literal l => unfold startsWithParser at hp; rw [h1] at hp; simp at hp
      | parser a =>
        rw [sinsertC_par hq, sinsert_par' hq]
        have h2 := (build_sizes ps (reach_new sip) h).2
        refine Costs.mono (sinsertParser_costs sip (fun entry => entry_costs (sinsert_new_costs sip _ q rfl) _ _ _) t a) ?_
        simpa [SuffixTable.new] using h2
  exact ⟨_, Prod.ext key.same rfl, key.cost⟩

/-! Cases: the counted additions to a trie and to a suffix array, and the bounds for them. -/

namespace Samples

def workTrie (ps : List Pattern) (p : Pattern) : Option Nat :=
  match SuffixTree.build sip ps with
  | .error _ => none
  | .ok t => some (t.addPatternC sip p).2

def workSuffix (ps : List Pattern) (p : Pattern) : Option Nat :=
  match SuffixTable.build sip ps with
  | .error _ => none
  | .ok t => some (t.addPatternC sip p).2

def many : List Pattern := [pat 1 [.literal b!"a"], pat 2 [.parser (int b!"x")], pat 3 [.literal b!"c"], pat 4 [.literal b!"e", .parser (int b!"y")],
  pat 5 [.parser (int b!"y"), .literal b!" "], pat 6 [.literal b!"g"]]

example : workTrie chain chainLast = some 13 ∧ workTrie many (pat 7 [.parser (int b!"z"), .literal b!"ab"]) = some 3 ∧
    workSuffix many (pat 7 [.literal b!"d", .parser (int b!"z")]) = some 2 ∧ workSuffix many (pat 7 [.parser (int b!"z"), .literal b!"ab"]) = some 2 := by
  decide +kernel

example (t : SuffixTree) (h : SuffixTree.build sip chain = .ok t) : ∃ n, t.addPatternC sip chainLast = (t.addPattern sip chainLast, n) ∧ n ≤ 310 := by
  have ha : ∀ l, Ascii l → Utf8 l := fun l => ascii_utf8
  refine C114_trie_literal sip chain ?_ t h chainLast ?_ b!"abcd" [.parser (int b!"x")] rfl
  · intro p hp l hl
    simp [chain] at hp
    rcases hp with rfl | rfl | rfl <;> simp [pat] at hl <;> subst hl <;> exact ha _ (by decide)
  · intro l hl
    simp [chainLast, pat] at hl; subst hl; exact ha _ (by decide)

example (t : SuffixTable) (h : SuffixTable.build sip many = .ok t) :
    ∃ n, t.addPatternC sip (pat 7 [.literal b!"d"]) = (t.addPattern sip (pat 7 [.literal b!"d"]), n) ∧ n ≤ 3 :=
  C114_suffix_literal sip many t h _ rfl

example (t : SuffixTable) (h : SuffixTable.build sip many = .ok t) :
    ∃ n, t.addPatternC sip (pat 7 [.parser (int b!"z")]) = (t.addPattern sip (pat 7 [.parser (int b!"z")]), n) ∧ n ≤ 2 :=
  C114_suffix_parser sip many t h _ rfl

end Samples

end Verif
