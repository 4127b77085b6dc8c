import Verif.Spec.Samples
import Verif.Model.StackAdd
import Verif.Proofs.TriePartial
import Verif.Proofs.TrieSound
/-! C97: how deep the calls made for adding a pattern become. -/
namespace Verif
open Spec

/-! ### The trie -/

/-- The children of a split node: they are sorted, and the one the lookup of the new literal finds is a leaf. -/
theorem split_shape {n m : LiteralNode} {l : Bytes} (hn : Utf8 n.literal) (hl : Utf8 l) (hne : n.literal ≠ l)
    (hm : n.split (commonPrefixLen n.literal l) l = .ok m) {c : SuffixTree} (hc : m.node = some c) :
    SortedLits Utf8 c.literalChildren ∧ ∀ k ∈ c.literalChildren, rk k.literal = rk (l.drop (commonPrefixLen n.literal l)) → k.node = none := by
  have hle := cpl_le n.literal l
  have hbl := cpl_boundary_left hn hl
  have hbr := cpl_boundary_right hn hl
  have hcr := @cpl_rk_ne_of n.literal l hne
  generalize hcpl : commonPrefixLen n.literal l = cpl at *
  let right : LiteralNode := { n with literal := n.literal.drop cpl }
  let left : LiteralNode := freshLit (l.drop cpl)
  have hal : Utf8 left.literal := (boundary_split hl hbr).2
  have har : Utf8 right.literal := (boundary_split hn hbl).2
  have e6 : left = { literal := l.drop cpl, hasValue := true, pattern := none, node := none } := rfl
  have e7 : right = { literal := n.literal.drop cpl, hasValue := n.hasValue, pattern := n.pattern, node := n.node } := rfl
  unfold LiteralNode.split at hm
  have e1 : checkedSub l.length cpl = .ok (l.length - cpl) := by simp [checkedSub]; omega
  have e2 : rtrunc l (l.length - cpl) = .ok (l.take cpl) := by
    have : l.length - (l.length - cpl) = cpl := by omega
    unfold rtrunc
    rw [if_neg (by omega), this]
    exact sliceTo_ok hbr
  have e3 : ltrunc l cpl = .ok (l.drop cpl) := sliceFrom_ok hbr
  have e4 : ltrunc n.literal cpl = .ok (n.literal.drop cpl) := sliceFrom_ok hbl
  have e5 : SortedVec.push LiteralNode.cmp [] left = .ok [left] := rfl
  simp only [e1, e2, e3, e4, bind, Except.bind, pure, Except.pure, SuffixTree.addLiteralNode, SuffixTree.new,
    LiteralNode.new] at hm
  rw [← e6, e5] at hm
  simp only at hm
  rw [← e7] at hm
  cases hp : SortedVec.push LiteralNode.cmp [left] right with
  | error e => rw [hp] at hm; simp at hm
  | ok lits =>
    rw [hp] at hm
    simp at hm
    have hcmp : ∃ o, LiteralNode.cmp right left = .ok o := by
      cases ho : LiteralNode.cmp right left with
      | ok o => exact ⟨o, rfl⟩
      | error e =>
        simp [SortedVec.push, stableSort, List.foldlM_cons, insertStable, bind, Except.bind, ho] at hp
    obtain ⟨o, ho⟩ := hcmp
    have hrk : rk right.literal ≠ rk left.literal := hcr fun h1 h2 => ((cmpStr_ok ho).2 h1 h2).1
    have hcl : c.literalChildren = lits := by
      rw [← hm] at hc; simp at hc; rw [← hc]
    rw [hcl]
    have hlits : (rk left.literal < rk right.literal ∧ lits = [left, right]) ∨
       (rk right.literal < rk left.literal ∧ lits = [right, left]) := by
      have hsl : SortedLits Utf8 [left] := ⟨by simp, by intro m hm; simp at hm; rw [hm]; exact hal⟩
      rcases Nat.lt_or_ge (rk left.literal) (rk right.literal) with h1 | h1
      · exact .inl ⟨h1, push_lits_partial (A := [left]) (B := []) (by simpa using hsl) (by intro m hm; simp at hm; rw [hm]; exact h1) (by simp) (by simpa using hp)⟩
      · have h2 : rk right.literal < rk left.literal := Nat.lt_of_le_of_ne h1 hrk
        exact .inr ⟨h2, push_lits_partial (A := []) (B := [left]) (by simpa using hsl) (by simp) (by intro m hm; simp at hm; rw [hm]; exact h2) (by simpa using hp)⟩
    have hk : ∀ k ∈ lits, k = left ∨ k = right := by
      intro k hk
      rcases hlits with ⟨_, rfl⟩ | ⟨_, rfl⟩ <;> simp at hk <;> rcases hk with rfl | rfl <;> simp
    refine ⟨?_, fun k hmem h => ?_⟩
    · rcases hlits with ⟨h1, rfl⟩ | ⟨h1, rfl⟩
      · exact ⟨by simpa using h1, by intro m hm; simp at hm; rcases hm with rfl | rfl <;> assumption⟩
      · exact ⟨by simpa using h1, by intro m hm; simp at hm; rcases hm with rfl | rfl <;> assumption⟩
    · rcases hk k hmem with rfl | rfl
      · rfl
      · exact absurd h hrk

section
variable {fS : LiteralNode → Option (M LiteralNode)} {f : LiteralNode → M LiteralNode} (hf : ∀ n, fS n = some (f n))
include hf

theorem updateLiteral_frames (t : SuffixTree) (pos : Nat) : t.updateLiteralS pos fS = some (t.updateLiteral pos f) := by
  unfold SuffixTree.updateLiteralS SuffixTree.updateLiteral
  cases t.literalChildren[pos]? with
  | none => rfl
  | some n =>
    simp only [unwrap, bind, Except.bind, hf]
    cases f n <;> rfl

/-- The lookup of a literal needs one frame if the search does not go down. -/
theorem fresh_frames {t : SuffixTree} {l : Bytes} (hs : ∀ pos y, t.search l ≠ .ok (.goDown pos y)) (frames : Nat) (h : 2 ≤ frames) :
    t.lookupFreshlyInsertedLiteralS frames l fS = some (t.lookupFreshlyInsertedLiteral l f) := by
  obtain ⟨k, rfl⟩ : ∃ k, frames = k + 2 := ⟨frames - 2, by omega⟩
  unfold SuffixTree.lookupFreshlyInsertedLiteral SuffixTree.lookupLiteralMut
  simp only [SuffixTree.lookupFreshlyInsertedLiteralS, SuffixTree.lookupLiteralMutS]
  cases hr : t.search l with
  | error e => rfl
  | ok r =>
    cases r with
    | found pos => exact updateLiteral_frames hf t pos
    | notFound => rfl
    | goDown pos y => exact absurd hr (hs pos y)

theorem tail_frames {t : SuffixTree} (hi : Inv Utf8 t) {l : Bytes} (hl : Utf8 l) (hs : t.search l = .ok .notFound) (frames : Nat) (h : 3 ≤ frames) :
    t.insertLiteralTailS frames l fS = some (t.insertLiteralTail l f) := by
  obtain ⟨k, rfl⟩ : ∃ k, frames = k + 1 := ⟨frames - 1, by omega⟩
  unfold SuffixTree.insertLiteralTailS SuffixTree.insertLiteralTail
  simp only [bind, Except.bind]
  cases hb : SortedVec.binarySearchBy (fun p => p.cmpStr l) t.literalChildren with
  | error e => rfl
  | ok r =>
    cases r with
    | err pos =>
      simp only
      cases t.addLiteralNode { LiteralNode.new l with hasValue := true } with
      | error e => rfl
      | ok t' => exact updateLiteral_frames hf t' pos
    | ok pos =>
      simp only
      cases hg : t.literalChildren[pos]? with
      | none => rfl
      | some hit =>
        simp only [unwrap]
        have hmem := List.mem_of_getElem? hg
        have hne : hit.literal ≠ l := by
          intro e
          unfold SuffixTree.search SuffixTree.searchPrefixIsFound SuffixTree.searchLeaf SuffixTree.searchNotLeaf at hs
          simp only [hb, hg, unwrap, bind, Except.bind, pure, Except.pure, e, if_true] at hs
          split at hs
          · simp at hs
          · have hcl : commonPrefixLen l l = l.length := cpl_eq_length_left.mpr (List.prefix_rfl)
            simp only [hcl, Nat.lt_irrefl, if_false] at hs
            split at hs
            · simp at hs
            · split at hs
              · cases hx : ltrunc l l.length with
                | error e => rw [hx] at hs; simp at hs
                | ok y => rw [hx] at hs; simp at hs
              · simp at hs
        cases hcp : hasCommonPrefix hit.literal l with
        | none => rfl
        | some cpl =>
          have hcpl : cpl = commonPrefixLen hit.literal l := by
            unfold hasCommonPrefix at hcp
            simp only at hcp
            split at hcp <;> simp at hcp
            exact hcp.symm
          subst hcpl
          simp only
          cases hsp : hit.split (commonPrefixLen hit.literal l) l with
          | error e => rfl
          | ok m =>
            simp only
            cases hx : ltrunc l (commonPrefixLen hit.literal l) with
            | error e => rfl
            | ok suffix =>
              simp only
              cases hc : m.node with
              | none => rfl
              | some c =>
                simp only
                have hn := hi.lits.label hit hmem
                obtain ⟨hsort, hleaf⟩ := split_shape hn hl hne hsp hc
                have hbr := cpl_boundary_right hn hl
                have hsuf : suffix = l.drop (commonPrefixLen hit.literal l) := by
                  have : ltrunc l (commonPrefixLen hit.literal l) = .ok (l.drop (commonPrefixLen hit.literal l)) := sliceFrom_ok hbr
                  rw [this] at hx; simpa using hx.symm
                have hsu : Utf8 suffix := by rw [hsuf]; exact (boundary_split hl hbr).2
                rw [fresh_frames hf (t := c) (l := suffix) ?_ k (by omega)]
                · cases c.lookupFreshlyInsertedLiteral suffix f <;> rfl
                · intro pos y hg
                  rcases search_partial hsort hsu hg with ⟨A, n', B, h1, h2, h3⟩ | ⟨A, B, _, _, _, h3⟩
                  · have := hleaf n' (by rw [h1]; simp) (by rw [h2, hsuf])
                    rw [this] at h3
                    simp at h3
                    split at h3 <;> simp at h3
                  · simp at h3

end

theorem goDown_shorter {t : SuffixTree} (hi : Inv Utf8 t) {l : Bytes} (hl : Utf8 l) {pos : Nat} {y : Bytes} (h : t.search l = .ok (.goDown pos y)) :
    y.length < l.length ∧ Utf8 y ∧ y <:+ l := by
  rcases search_partial hi.lits hl h with ⟨A, n, B, h1, h2, h3⟩ | ⟨A, B, _, _, _, h3⟩
  · have hm : n ∈ t.literalChildren := by rw [h1]; simp
    split at h3
    · split at h3 <;> simp at h3
    · split at h3
      · simp at h3
      · rename_i hp
        split at h3
        · simp at h3
        · rename_i hv
          have hp : n.literal <+: l := Classical.not_not.mp hp
          simp at h3
          have hn : n.literal ≠ [] := by
            intro e
            rw [e] at h2
            have e2 : l = [] := by rw [← rk_eq_nil]; simpa [rk] using h2.symm
            cases hb : n.hasValue with
            | true => simp [hb, e, e2] at hv
            | false => exact (hi.inner n hm hb).1 e
          have h4 : 0 < n.literal.length := List.length_pos_iff.mpr hn
          have h5 := hp.length_le
          rw [h3.2]
          refine ⟨by simp only [List.length_drop]; omega, ?_, List.drop_suffix _ _⟩
          obtain ⟨z, rfl⟩ := hp
          simpa using utf8_cancel (hi.lits.label n hm) hl
  · simp at h3

theorem lookupMut_frames {onOkS onErrS : SuffixTree → Nat → Option (M SuffixTree)} {onOk onErr : SuffixTree → Nat → M SuffixTree}
    (hok : ∀ node pos, onOkS node pos = some (onOk node pos)) {t : SuffixTree} {l : Bytes} (hi : Inv Utf8 t) (hl : Utf8 l)
    (herr : ∀ node y, Inv Utf8 node → Utf8 y → y <:+ l → node.search y = .ok .notFound → onErrS node y.length = some (onErr node y.length))
    {frames : Nat} (h : l.length < frames) : t.lookupLiteralMutS frames l onOkS onErrS = some (t.lookupLiteralMut l onOk onErr) := by
  induction frames generalizing t l with
  | zero => omega
  | succ k ih =>
    unfold SuffixTree.lookupLiteralMutS SuffixTree.lookupLiteralMut
    cases hr : t.search l with
    | error e => rfl
    | ok r =>
      cases r with
      | found pos => exact hok t pos
      | notFound => exact herr t l hi hl List.suffix_rfl hr
      | goDown pos y =>
        obtain ⟨h1, h2, h3⟩ := goDown_shorter hi hl hr
        simp only
        cases hg : t.literalChildren[pos]? with
        | none => simp
        | some n =>
          simp only
          cases hc : n.node with
          | none => simp
          | some c =>
            simp only
            rw [ih (hi.child n (List.mem_of_getElem? hg) c hc) h2 (fun node z ha hb hcc => herr node z ha hb (hcc.trans h3)) (by omega)]
            cases c.lookupLiteralMut y onOk onErr <;> rfl

theorem insertLiteral_frames {fS : LiteralNode → Option (M LiteralNode)} {f : LiteralNode → M LiteralNode} (hf : ∀ n, fS n = some (f n))
    {t : SuffixTree} (hi : Inv Utf8 t) {l : Bytes} (hl : Utf8 l) {frames : Nat} (h : l.length + 2 ≤ frames) (h4 : 4 ≤ frames) :
    t.insertLiteralS frames l fS = some (t.insertLiteral l f) := by
  obtain ⟨k, rfl⟩ : ∃ k, frames = k + 1 := ⟨frames - 1, by omega⟩
  unfold SuffixTree.insertLiteralS SuffixTree.insertLiteral
  refine lookupMut_frames (fun node pos => updateLiteral_frames hf node pos) hi hl ?_ (by omega)
  intro node y hn hy hs hr
  simp only [bind, Except.bind]
  obtain ⟨a, rfl⟩ := hs
  have e1 : checkedSub (a ++ y).length y.length = .ok a.length := by simp [checkedSub]
  rw [e1]
  simp only
  cases hx : ltrunc (a ++ y) a.length with
  | error e => rfl
  | ok tail =>
    have : tail = y := by
      unfold ltrunc sliceFrom at hx
      split at hx <;> simp at hx
      exact hx.symm
    subst this
    exact tail_frames hf hn hy hr k (by omega)

theorem insertParser_frames (sip : Bytes → UInt64) {fS : ParserNode → Option (M ParserNode)} {f : ParserNode → M ParserNode}
    (hf : ∀ n, fS n = some (f n)) (t : SuffixTree) (q : Parser) {frames : Nat} (h : 1 ≤ frames) :
    t.insertParserS sip frames q fS = some (t.insertParser sip q f) := by
  obtain ⟨k, rfl⟩ : ∃ k, frames = k + 1 := ⟨frames - 1, by omega⟩
  simp only [SuffixTree.insertParserS, SuffixTree.insertParser]
  cases hlook : t.lookupParser sip q with
  | none =>
    simp only [bind, Except.bind, hf]
    cases f (ParserNode.new q) <;> rfl
  | some item =>
    simp only [bind, Except.bind]
    cases t.parserChildren[item]? with
    | none => rfl
    | some n =>
      simp only [unwrap, hf]
      cases f n <;> rfl

/-- The number of frames that are enough to add the tokens: two for each token, and one for each byte of the longest literal. -/
theorem insert_frames (sip : Bytes → UInt64) (L : Nat) (frames : Nat) : ∀ (t : SuffixTree) (p : Pattern), Inv Utf8 t → Utf8Lits p →
    (∀ l, Token.literal l ∈ p.pattern → l.length ≤ L) → 2 * p.pattern.length + L + 3 ≤ frames →
    t.insertS sip frames p = some (t.insert sip p) := by
  induction frames using Nat.strongRecOn with
  | _ frames ih =>
    intro t p hi hu hL hfr
    obtain ⟨k, rfl⟩ : ∃ k, frames = k + 1 := ⟨frames - 1, by omega⟩
    unfold SuffixTree.insertS SuffixTree.insert
    cases hp : p.popFirstToken with
    | none => simp
    | some tp =>
      obtain ⟨tok, q⟩ := tp
      have hq : p.pattern = tok :: q.pattern := by
        unfold Pattern.popFirstToken at hp
        split at hp <;> simp at hp
        rename_i h
        rw [h, hp.1, ← hp.2]
      have hentry : SuffixTree.entryInsertS sip k q = some (if q.pattern.isEmpty then .ok none else
          match SuffixTree.new.insert sip q with | .error e => .error e | .ok sa => .ok (some sa)) := by
        rw [hq] at hfr
        simp only [List.length_cons] at hfr
        obtain ⟨j, rfl⟩ : ∃ j, k = j + 1 := ⟨k - 1, by omega⟩
        unfold SuffixTree.entryInsertS
        split
        · rfl
        · rw [ih j (by omega) SuffixTree.new q inv_new (fun l hl => hu l (by rw [hq]; simp [hl])) (fun l hl => hL l (by rw [hq]; simp [hl])) (by omega)]
          cases SuffixTree.new.insert sip q <;> rfl
      rw [hq] at hfr
      simp only [List.length_cons] at hfr
      cases tok with
      | literal l =>
        have hl : l.length ≤ L := hL l (by rw [hq]; simp)
        refine insertLiteral_frames ?_ hi (hu l (by rw [hq]; simp)) (by omega) (by omega)
        intro n
        rw [hentry]
        cases q.pattern.isEmpty with
        | true => rfl
        | false =>
          simp only [Bool.false_eq_true, if_false]
          cases SuffixTree.new.insert sip q <;> rfl
      | parser r =>
        refine insertParser_frames sip ?_ t r (by omega)
        intro n
        rw [hentry]
        cases q.pattern.isEmpty with
        | true => rfl
        | false =>
          simp only [Bool.false_eq_true, if_false]
          cases SuffixTree.new.insert sip q <;> rfl

/-- C97: to add a pattern to a trie, whatever was added to it before, a stack of two frames for each token of the pattern, one for each byte of its
longest literal and four more is enough: adding it has the same result as with an unbounded stack. -/
theorem C97_trie (sip : Bytes → UInt64) (ps : List Pattern) (hu : ∀ p ∈ ps, Utf8Lits p) (t : SuffixTree) (h : SuffixTree.build sip ps = .ok t)
    (p : Pattern) (hp : Utf8Lits p) (L : Nat) (hL : ∀ l, Token.literal l ∈ p.pattern → l.length ≤ L) (frames : Nat)
    (hf : 2 * p.pattern.length + L + 4 ≤ frames) : t.addPatternS sip frames p = some (t.addPattern sip p) := by
  obtain ⟨k, rfl⟩ : ∃ k, frames = k + 1 := ⟨frames - 1, by omega⟩
  have hi := (build_induct (sip := sip) (fun _ _ => True) trivial (fun _ _ _ _ _ _ _ _ => trivial) hu h).1
  exact insert_frames sip L k t p hi hp hL (by omega)

/-! ### The suffix array -/

theorem sinsertLiteral_frames {fS : LiteralE → Option (M LiteralE)} {f : LiteralE → M LiteralE} (hf : ∀ n, fS n = some (f n)) (t : SuffixTable)
    (l : Bytes) {frames : Nat} (h : 1 ≤ frames) : t.insertLiteralS frames l fS = some (t.insertLiteral l f) := by
  obtain ⟨k, rfl⟩ : ∃ k, frames = k + 1 := ⟨frames - 1, by omega⟩
  simp only [SuffixTable.insertLiteralS, SuffixTable.insertLiteral, bind, Except.bind]
  cases binarySearchBy (fun probe : LiteralE => .ok (cmpBytes probe.literal l)) t.literalEntries with
  | error e => rfl
  | ok r =>
    cases r with
    | ok pos =>
      simp only
      cases t.literalEntries[pos]? with
      | none => rfl
      | some e =>
        simp only [unwrap, hf]
        cases f e <;> rfl
    | err pos =>
      simp only
      cases vecInsert t.literalEntries pos (LiteralE.new l) with
      | error e => rfl
      | ok ls =>
        simp only
        cases ls[pos]? with
        | none => rfl
        | some e =>
          simp only [unwrap, hf]
          cases f e <;> rfl

theorem sinsertParser_frames (sip : Bytes → UInt64) {fS : ParserE → Option (M ParserE)} {f : ParserE → M ParserE}
    (hf : ∀ n, fS n = some (f n)) (t : SuffixTable) (q : Parser) {frames : Nat} (h : 1 ≤ frames) :
    t.insertParserS sip frames q fS = some (t.insertParser sip q f) := by
  obtain ⟨k, rfl⟩ : ∃ k, frames = k + 1 := ⟨frames - 1, by omega⟩
  simp only [SuffixTable.insertParserS, SuffixTable.insertParser]
  cases hl : t.parserEntries.findIdx? (fun x => x.parser.hashOs sip == q.hashOs sip) with
  | none =>
    simp only [bind, Except.bind, hf]
    cases f (ParserE.new q) <;> rfl
  | some item =>
    simp only [bind, Except.bind]
    cases t.parserEntries[item]? with
    | none => rfl
    | some n =>
      simp only [unwrap, hf]
      cases f n <;> rfl

theorem sinsert_frames (sip : Bytes → UInt64) (frames : Nat) : ∀ (t : SuffixTable) (p : Pattern), 2 * p.pattern.length + 1 ≤ frames →
    t.insertS sip frames p = some (t.insert sip p) := by
  induction frames using Nat.strongRecOn with
  | _ frames ih =>
    intro t p hfr
    obtain ⟨k, rfl⟩ : ∃ k, frames = k + 1 := ⟨frames - 1, by omega⟩
    unfold SuffixTable.insertS SuffixTable.insert
    cases hp : p.popFirstToken with
    | none => simp
    | some tp =>
      obtain ⟨tok, q⟩ := tp
      have hq : p.pattern = tok :: q.pattern := by
        unfold Pattern.popFirstToken at hp
        split at hp <;> simp at hp
        rename_i h
        rw [h, hp.1, ← hp.2]
      rw [hq] at hfr
      simp only [List.length_cons] at hfr
      have hentry : SuffixTable.entryInsertS sip k q = some (if q.pattern.isEmpty then .ok none else
          match SuffixTable.new.insert sip q with | .error e => .error e | .ok sa => .ok (some sa)) := by
        obtain ⟨j, rfl⟩ : ∃ j, k = j + 1 := ⟨k - 1, by omega⟩
        unfold SuffixTable.entryInsertS
        split
        · rfl
        · rw [ih j (by omega) SuffixTable.new q (by omega)]
          cases SuffixTable.new.insert sip q <;> rfl
      cases tok with
      | literal l =>
        refine sinsertLiteral_frames ?_ t l (by omega)
        intro n
        rw [hentry]
        cases q.pattern.isEmpty with
        | true => rfl
        | false =>
          simp only [Bool.false_eq_true, if_false]
          cases SuffixTable.new.insert sip q <;> rfl
      | parser r =>
        refine sinsertParser_frames sip ?_ t r (by omega)
        intro n
        rw [hentry]
        cases q.pattern.isEmpty with
        | true => rfl
        | false =>
          simp only [Bool.false_eq_true, if_false]
          cases SuffixTable.new.insert sip q <;> rfl

/-- C97 for the suffix array: two frames for each token of the pattern, and two more, whatever table it is added to. -/
theorem C97_suffix (sip : Bytes → UInt64) (t : SuffixTable) (p : Pattern) (frames : Nat) (hf : 2 * p.pattern.length + 2 ≤ frames) :
    t.addPatternS sip frames p = some (t.addPattern sip p) := by
  obtain ⟨k, rfl⟩ : ∃ k, frames = k + 1 := ⟨frames - 1, by omega⟩
  exact sinsert_frames sip k t p (by omega)

/-! Cases: the lookup of `abcd` among its beginnings goes down once for each byte, and the stack can be too small. -/

namespace Samples

def chain : List Pattern := [pat 1 [.literal b!"a"], pat 2 [.literal b!"ab"], pat 3 [.literal b!"abc"]]
def chainLast : Pattern := pat 4 [.literal b!"abcd", .parser (int b!"x")]

def addsWith (ps : List Pattern) (p : Pattern) (frames : Nat) : Option Bool :=
  match SuffixTree.build sip ps with
  | .error _ => none
  | .ok t => some (match t.addPatternS sip frames p with | some (.ok _) => true | _ => false)

example : addsWith chain chainLast 12 = some true ∧ addsWith chain chainLast 6 = some true ∧ addsWith chain chainLast 5 = some false := by decide +kernel

example (t : SuffixTree) (h : SuffixTree.build sip chain = .ok t) : t.addPatternS sip 12 chainLast = some (t.addPattern sip chainLast) := by
  have ha : ∀ l, Ascii l → Utf8 l := fun l => ascii_utf8
  refine C97_trie sip chain ?_ t h chainLast ?_ 4 ?_ 12 (by decide)
  · intro p hp l hl
    simp [chain] at hp
    rcases hp with rfl | rfl | rfl <;> simp [pat] at hl <;> subst hl <;> exact ha _ (by decide)
  · intro l hl
    simp [chainLast, pat] at hl; subst hl; exact ha _ (by decide)
  · intro l hl
    simp [chainLast, pat] at hl; subst hl; decide

end Samples

end Verif
