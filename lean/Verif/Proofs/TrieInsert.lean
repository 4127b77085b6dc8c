import Verif.Proofs.TrieSearch
import Verif.Proofs.Parsers
/-! Insertion into the trie as a relation, and its agreement with the model for ASCII literals. -/
namespace Verif
open Spec

/-- Well-formedness of reachable tries whose labels satisfy `P` (`Ascii` or `Utf8`). -/
inductive Inv (P : Bytes → Prop) : SuffixTree → Prop
  | mk (t : SuffixTree) (lits : SortedLits P t.literalChildren)
    (inner : ∀ n ∈ t.literalChildren, n.hasValue = false → n.literal ≠ [] ∧ n.pattern = none ∧ n.node ≠ none)
    (child : ∀ n ∈ t.literalChildren, ∀ c, n.node = some c → Inv P c)
    (parsers : ∀ n ∈ t.parserChildren, n.node = none → n.pattern ≠ none)
    (pchild : ∀ n ∈ t.parserChildren, ∀ c, n.node = some c → Inv P c) : Inv P t

namespace Inv
variable {P : Bytes → Prop} {t : SuffixTree} (h : Inv P t)
include h
theorem lits : SortedLits P t.literalChildren := by cases h; assumption
theorem inner : ∀ n ∈ t.literalChildren, n.hasValue = false → n.literal ≠ [] ∧ n.pattern = none ∧ n.node ≠ none := by
  cases h; assumption
theorem child : ∀ n ∈ t.literalChildren, ∀ c, n.node = some c → Inv P c := by cases h; assumption
theorem parsers : ∀ n ∈ t.parserChildren, n.node = none → n.pattern ≠ none := by cases h; assumption
theorem pchild : ∀ n ∈ t.parserChildren, ∀ c, n.node = some c → Inv P c := by cases h; assumption
end Inv

/-- The node created for a literal that was not stored before. -/
def freshLit (l : Bytes) : LiteralNode := { literal := l, hasValue := true, pattern := none, node := none }

/-- An update of a found entry changes neither its label nor its value flag. -/
structure GoodUpd (g : LiteralNode → LiteralNode) : Prop where
  literal : ∀ n, (g n).literal = n.literal
  hasValue : ∀ n, (g n).hasValue = n.hasValue

/-- The two children of a node that is split. -/
def splitChildren (g : LiteralNode → LiteralNode) (n : LiteralNode) (l : Bytes) : List LiteralNode :=
  let cpl := commonPrefixLen n.literal l
  let left := g (freshLit (l.drop cpl))
  let right := { n with literal := n.literal.drop cpl }
  if rk (l.drop cpl) < rk (n.literal.drop cpl) then [left, right] else [right, left]

/-- The node replacing a split node. -/
def splitNode (g : LiteralNode → LiteralNode) (n : LiteralNode) (l : Bytes) : LiteralNode :=
  { literal := l.take (commonPrefixLen n.literal l), hasValue := false, pattern := none,
    node := some { literalChildren := splitChildren g n l, parserChildren := [] } }

/-- `Ins g t l t'`: `t'` is `t` after the entry of the literal `l` was created if necessary and updated with `g`. -/
inductive Ins (g : LiteralNode → LiteralNode) : SuffixTree → Bytes → SuffixTree → Prop
  | miss (t : SuffixTree) (l : Bytes) (A B : List LiteralNode) (ht : t.literalChildren = A ++ B)
      (hA : ∀ m ∈ A, rk m.literal < rk l) (hB : ∀ m ∈ B, rk l < rk m.literal) :
      Ins g t l { t with literalChildren := A ++ g (freshLit l) :: B }
  | exact (t : SuffixTree) (l : Bytes) (A B : List LiteralNode) (n : LiteralNode) (ht : t.literalChildren = A ++ n :: B)
      (hl : n.literal = l) (hv : n.hasValue = true) :
      Ins g t l { t with literalChildren := A ++ g n :: B }
  | split (t : SuffixTree) (l : Bytes) (A B : List LiteralNode) (n : LiteralNode) (ht : t.literalChildren = A ++ n :: B)
      (hr : rk n.literal = rk l) (hs : ¬ n.literal <+: l ∨ (n.node = none ∧ n.literal ≠ l))
      (hpos : 0 < commonPrefixLen n.literal l)
      (hrk : rk (n.literal.drop (commonPrefixLen n.literal l)) ≠ rk (l.drop (commonPrefixLen n.literal l))) :
      Ins g t l { t with literalChildren := A ++ splitNode g n l :: B }
  | down (t : SuffixTree) (l : Bytes) (A B : List LiteralNode) (n : LiteralNode) (c c' : SuffixTree)
      (ht : t.literalChildren = A ++ n :: B) (hr : rk n.literal = rk l)
      (hp : n.literal <+: l) (hc : n.node = some c) (hne : ¬ (n.hasValue = true ∧ n.literal = l))
      (ih : Ins g c (l.drop n.literal.length) c') :
      Ins g t l { t with literalChildren := A ++ { n with node := some c' } :: B }

theorem cpl_rk_ne {a b : Bytes} (ha : Ascii a) (hab : a ≠ b) :
    rk (a.drop (commonPrefixLen a b)) ≠ rk (b.drop (commonPrefixLen a b)) := by
  have hle := cpl_le a b
  have ht := cpl_take a b
  intro h
  cases hda : a.drop (commonPrefixLen a b) with
  | nil =>
    rw [hda] at h
    have hdb : b.drop (commonPrefixLen a b) = [] := by rw [← rk_eq_nil]; simpa [rk] using h.symm
    apply hab
    have ea := List.take_append_drop (commonPrefixLen a b) a
    have eb := List.take_append_drop (commonPrefixLen a b) b
    rw [hda] at ea
    rw [hdb, ← ht] at eb
    exact ea.symm.trans eb
  | cons x a' =>
    rw [hda] at h
    cases hdb : b.drop (commonPrefixLen a b) with
    | nil => rw [hdb] at h; simp [rk] at h
    | cons y b' =>
      rw [hdb] at h
      have hxy : x = y := by simpa [rk, UInt8.toNat_inj] using h
      have hla := congrArg List.length hda
      have hlb := congrArg List.length hdb
      simp at hla hlb
      have : commonPrefixLen a b + 1 ≤ commonPrefixLen a b := by
        apply cpl_max (ascii_boundary ha (by omega)) (by omega)
        rw [List.take_add, List.take_add, ht, hda, hdb, hxy]
        simp
      omega

theorem cpl_pos {a b : Bytes} (ha : Ascii a) (hr : rk a = rk b) (hne : a ≠ []) : 0 < commonPrefixLen a b := by
  cases a with
  | nil => simp at hne
  | cons x a =>
    cases b with
    | nil => simp [rk] at hr
    | cons y b =>
      have hxy : x = y := by simpa [rk, UInt8.toNat_inj] using hr
      have : 1 ≤ commonPrefixLen (x :: a) (y :: b) := by
        apply cpl_max (ascii_boundary ha (by simp)) (by simp)
        simp [hxy]
      omega

section
variable {g : LiteralNode → LiteralNode} {f : LiteralNode → M LiteralNode}

/-- The children created by `split`, before and after the update of the new entry. -/
theorem split_run (hf : ∀ n, f n = .ok (g n)) {n : LiteralNode} {l : Bytes} (hn : Ascii n.literal)
    (hl : Ascii l) (hne : n.literal ≠ l) :
    ∃ c, n.split (commonPrefixLen n.literal l) l =
        .ok { literal := l.take (commonPrefixLen n.literal l), hasValue := false, pattern := none, node := some c } ∧
      c.lookupFreshlyInsertedLiteral (l.drop (commonPrefixLen n.literal l)) f =
        .ok { literalChildren := splitChildren g n l, parserChildren := [] } := by
  have hle := cpl_le n.literal l
  have hrk := cpl_rk_ne hn hne
  generalize hcpl : commonPrefixLen n.literal l = cpl at *
  let right : LiteralNode := { n with literal := n.literal.drop cpl }
  let left : LiteralNode := freshLit (l.drop cpl)
  have hal : Ascii left.literal := ascii_drop hl _
  have har : Ascii right.literal := ascii_drop hn _
  -- splitting
  have hpush : ∃ lits, SortedVec.push LiteralNode.cmp [left] right = .ok lits ∧
      ((rk left.literal < rk right.literal ∧ lits = [left, right]) ∨
       (rk right.literal < rk left.literal ∧ lits = [right, left])) := by
    have hsl : SortedLits Ascii [left] := ⟨by simp, by intro m hm; simp at hm; rw [hm]; exact hal⟩
    rcases Nat.lt_or_ge (rk left.literal) (rk right.literal) with h1 | h1
    · refine ⟨[left, right], ?_, .inl ⟨h1, rfl⟩⟩
      have := push_lits (A := [left]) (B := []) (by simpa using hsl) har (by intro m hm; simp at hm; rw [hm]; exact h1) (by simp)
      simpa using this
    · have h2 : rk right.literal < rk left.literal := Nat.lt_of_le_of_ne h1 hrk
      refine ⟨[right, left], ?_, .inr ⟨h2, rfl⟩⟩
      have := push_lits (A := []) (B := [left]) (by simpa using hsl) har (by simp) (by intro m hm; simp at hm; rw [hm]; exact h2)
      simpa using this
  obtain ⟨lits, hpush, hlits⟩ := hpush
  refine ⟨⟨lits, []⟩, ?_, ?_⟩
  · unfold LiteralNode.split
    have e1 : checkedSub l.length cpl = .ok (l.length - cpl) := by simp [checkedSub]; omega
    have e2 : rtrunc l (l.length - cpl) = .ok (l.take cpl) := by
      have : l.length - (l.length - cpl) = cpl := by omega
      unfold rtrunc
      rw [if_neg (by omega), this]
      exact sliceTo_ok (ascii_boundary hl (by omega))
    have e3 : ltrunc l cpl = .ok (l.drop cpl) := sliceFrom_ok (ascii_boundary hl (by omega))
    have e4 : ltrunc n.literal cpl = .ok (n.literal.drop cpl) := sliceFrom_ok (ascii_boundary hn (by omega))
    simp only [e1, e2, e3, e4, bind, Except.bind, pure, Except.pure, SuffixTree.addLiteralNode, SuffixTree.new,
      LiteralNode.new]
    have e5 : SortedVec.push LiteralNode.cmp [] left = .ok [left] := rfl
    have e6 : left = { literal := l.drop cpl, hasValue := true, pattern := none, node := none } := rfl
    have e7 : right = { literal := n.literal.drop cpl, hasValue := n.hasValue, pattern := n.pattern, node := n.node } := rfl
    rw [← e6, e5]
    simp only
    rw [← e7, hpush]
  · unfold SuffixTree.lookupFreshlyInsertedLiteral SuffixTree.lookupLiteralMut
    have hs : SortedLits Ascii lits := by
      rcases hlits with ⟨h1, rfl⟩ | ⟨h1, rfl⟩
      · exact ⟨by simpa using h1, by intro m hm; simp at hm; rcases hm with rfl | rfl <;> assumption⟩
      · exact ⟨by simpa using h1, by intro m hm; simp at hm; rcases hm with rfl | rfl <;> assumption⟩
    have hsc : splitChildren g n l = if rk left.literal < rk right.literal then [g left, right] else [right, g left] := by
      unfold splitChildren; simp only [hcpl]; rfl
    rcases hlits with ⟨h1, rfl⟩ | ⟨h1, rfl⟩
    · have := search_hit (t := ⟨[left, right], []⟩) (A := []) (n := left) (B := [right]) rfl hs hal rfl
      rw [show l.drop cpl = left.literal from rfl, this]
      simp only [show left.node = none from rfl, Option.isNone_none, if_true]
      simp only [SuffixTree.updateLiteral, List.length_nil, List.getElem?_cons_zero, unwrap, bind, Except.bind, hf, pure,
        Except.pure]
      rw [hsc, if_pos h1]; rfl
    · have := search_hit (t := ⟨[right, left], []⟩) (A := [right]) (n := left) (B := []) rfl hs hal rfl
      rw [show l.drop cpl = left.literal from rfl, this]
      simp only [show left.node = none from rfl, Option.isNone_none, if_true]
      simp only [SuffixTree.updateLiteral, List.length_cons, List.length_nil, unwrap, bind, Except.bind, hf, pure,
        Except.pure]
      rw [hsc, if_neg (by omega)]; rfl

theorem insertLiteralTail_miss (hf : ∀ n, f n = .ok (g n)) {t : SuffixTree} {l : Bytes} {A B : List LiteralNode}
    (hs : SortedLits Ascii t.literalChildren) (hl : Ascii l) (ht : t.literalChildren = A ++ B)
    (hA : ∀ m ∈ A, rk m.literal < rk l) (hB : ∀ m ∈ B, rk l < rk m.literal) :
    t.insertLiteralTail l f = .ok { t with literalChildren := A ++ g (freshLit l) :: B } := by
  unfold SuffixTree.insertLiteralTail
  rw [ht] at hs
  have hp := push_lits (n := freshLit l) hs hl hA hB
  have e : (freshLit l) = { literal := l, hasValue := true, pattern := none, node := none } := rfl
  rw [ht, bsearch_miss hs hl hA hB]
  simp only [bind, Except.bind, SuffixTree.addLiteralNode, LiteralNode.new, ← e, ht, hp, pure, Except.pure,
    SuffixTree.updateLiteral]
  simp [unwrap, hf]

theorem insertLiteralTail_split (hf : ∀ n, f n = .ok (g n)) {t : SuffixTree} {l : Bytes}
    {A B : List LiteralNode} {n : LiteralNode}
    (hs : SortedLits Ascii t.literalChildren) (hl : Ascii l) (ht : t.literalChildren = A ++ n :: B)
    (hr : rk n.literal = rk l) (hne : n.literal ≠ l) :
    t.insertLiteralTail l f = .ok { t with literalChildren := A ++ splitNode g n l :: B } := by
  unfold SuffixTree.insertLiteralTail
  have hn : Ascii n.literal := hs.label n (by rw [ht]; simp)
  rw [ht] at hs
  have hne0 : n.literal ≠ [] := by
    intro h0
    rw [h0] at hr hne
    have := rk_eq_nil.mp hr.symm
    exact hne this.symm
  have hpos := cpl_pos hn hr hne0
  obtain ⟨c, h1, h2⟩ := split_run hf hn hl hne
  have hcp : hasCommonPrefix n.literal l = some (commonPrefixLen n.literal l) := by
    unfold hasCommonPrefix; simp [hpos]
  have hle := cpl_le n.literal l
  have e3 : ltrunc l (commonPrefixLen n.literal l) = .ok (l.drop (commonPrefixLen n.literal l)) :=
    sliceFrom_ok (ascii_boundary hl (by omega))
  rw [ht, bsearch_hit hs hl hr]
  simp only [bind, Except.bind, List.getElem?_append_right (Nat.le_refl _), Nat.sub_self, List.getElem?_cons_zero,
    unwrap, hcp, h1, e3, h2, pure, Except.pure]
  simp [splitNode]

/-- The model's `insert_literal` performs `Ins`. -/
theorem ins_lookup (hf : ∀ n, f n = .ok (g n)) {t t' : SuffixTree} {l : Bytes} (h : Ins g t l t')
    (hi : Inv Ascii t) (orig pre : Bytes) (ho : orig = pre ++ l) (ha : Ascii orig) :
    t.lookupLiteralMut l (fun node index => node.updateLiteral index f)
      (fun node remLen => do
        let off ← checkedSub orig.length remLen
        let tail ← ltrunc orig off
        node.insertLiteralTail tail f) = .ok t' := by
  induction h generalizing pre with
  | miss t l A B ht hA hB =>
    have hl : Ascii l := by rw [ho, ascii_append] at ha; exact ha.2
    have e1 : checkedSub orig.length l.length = .ok pre.length := by simp [checkedSub, ho]
    have e2 : ltrunc orig pre.length = .ok l := by
      have := sliceFrom_ok (ascii_boundary ha (n := pre.length) (by simp [ho]))
      rw [ltrunc, this]; simp [ho]
    unfold SuffixTree.lookupLiteralMut
    rw [search_miss ht hi.lits hl hA hB]
    simp only [e1, e2, bind, Except.bind]
    exact insertLiteralTail_miss hf hi.lits hl ht hA hB
  | exact t l A B n ht hl' hv =>
    have hl : Ascii l := by rw [ho, ascii_append] at ha; exact ha.2
    unfold SuffixTree.lookupLiteralMut
    rw [search_hit ht hi.lits hl (by rw [hl'])]
    subst hl'
    simp only [if_true, List.prefix_rfl, not_true_eq_false, if_false, hv, decide_true, Bool.and_self, ite_self]
    simp [SuffixTree.updateLiteral, ht, unwrap, bind, Except.bind, hf, pure, Except.pure]
  | split t l A B n ht hr hs _ _ =>
    have hl : Ascii l := by rw [ho, ascii_append] at ha; exact ha.2
    have hne : n.literal ≠ l := by
      rcases hs with h1 | ⟨_, h1⟩
      · rintro rfl; exact h1 List.prefix_rfl
      · exact h1
    have e1 : checkedSub orig.length l.length = .ok pre.length := by simp [checkedSub, ho]
    have e2 : ltrunc orig pre.length = .ok l := by
      have := sliceFrom_ok (ascii_boundary ha (n := pre.length) (by simp [ho]))
      rw [ltrunc, this]; simp [ho]
    unfold SuffixTree.lookupLiteralMut
    rw [search_hit ht hi.lits hl hr]
    have e3 : (if n.node.isNone = true then (if n.literal = l then LiteralLookupResult.found A.length else .notFound)
      else if ¬ n.literal <+: l then .notFound
      else if (n.hasValue && decide (n.literal = l)) = true then .found A.length
      else .goDown A.length (l.drop n.literal.length)) = .notFound := by
      rw [if_neg hne]
      rcases hs with h1 | ⟨h1, _⟩
      · rw [if_pos h1]; simp
      · simp [h1]
    rw [e3]
    simp only [e1, e2, bind, Except.bind]
    exact insertLiteralTail_split hf hi.lits hl ht hr hne
  | down t l A B n c c' ht hr hp hc hne _ ih =>
    have hl : Ascii l := by rw [ho, ascii_append] at ha; exact ha.2
    obtain ⟨y, rfl⟩ := hp
    unfold SuffixTree.lookupLiteralMut
    rw [search_hit ht hi.lits hl hr]
    have hb : ¬ (n.hasValue && decide (n.literal = n.literal ++ y)) = true := by simpa using hne
    simp only [hc, Option.isNone_some, Bool.false_eq_true, if_false, List.prefix_append, not_true_eq_false, hb]
    have hget : t.literalChildren[A.length]? = some n := by rw [ht]; simp
    have hm : n ∈ t.literalChildren := List.mem_of_getElem? hget
    have ih := ih (hi.child n hm c hc) (pre ++ n.literal) (by simp [ho])
    split
    · rename_i heq; rw [hget] at heq; simp at heq
    · rename_i n' heq
      rw [hget] at heq; simp at heq; subst heq
      split
      · rename_i heq; rw [hc] at heq; simp at heq
      · rename_i c'' heq
        rw [hc] at heq; simp at heq; subst heq
        rw [ih]
        simp [ht]

theorem ins_run (hf : ∀ n, f n = .ok (g n)) {t t' : SuffixTree} {l : Bytes} (h : Ins g t l t')
    (hi : Inv Ascii t) (ha : Ascii l) : t.insertLiteral l f = .ok t' :=
  ins_lookup hf h hi l [] rfl ha

theorem split_ne {n : LiteralNode} {l : Bytes} (hs : ¬ n.literal <+: l ∨ (n.node = none ∧ n.literal ≠ l)) : n.literal ≠ l := by
  rcases hs with h1 | ⟨_, h1⟩
  · rintro rfl; exact h1 List.prefix_rfl
  · exact h1

theorem split_ne_nil {n : LiteralNode} {l : Bytes} (hr : rk n.literal = rk l) (hne : n.literal ≠ l) : n.literal ≠ [] := by
  intro h0
  rw [h0] at hr hne
  exact hne (rk_eq_nil.mp hr.symm).symm

theorem ins_split_ascii (t : SuffixTree) (l : Bytes) (A B : List LiteralNode) (n : LiteralNode) (hn : Ascii n.literal)
    (ht : t.literalChildren = A ++ n :: B) (hr : rk n.literal = rk l)
    (hs : ¬ n.literal <+: l ∨ (n.node = none ∧ n.literal ≠ l)) :
    Ins g t l { t with literalChildren := A ++ splitNode g n l :: B } :=
  .split t l A B n ht hr hs (cpl_pos hn hr (split_ne_nil hr (split_ne hs))) (cpl_rk_ne hn (split_ne hs))

theorem ins_total {t : SuffixTree} (hi : Inv Ascii t) (l : Bytes) : ∃ t', Ins g t l t' := by
  induction hi generalizing l with
  | mk t lits inner child parsers pchild ih =>
    rcases split_cases lits (rk l) with ⟨A, n, B, ht, hr⟩ | ⟨A, B, ht, hA, hB⟩
    · have hm : n ∈ t.literalChildren := by rw [ht]; simp
      by_cases hp : n.literal <+: l
      · by_cases he : n.hasValue = true ∧ n.literal = l
        · exact ⟨_, .exact t l A B n ht he.2 he.1⟩
        · cases hc : n.node with
          | none =>
            refine ⟨_, ins_split_ascii t l A B n (lits.label n hm) ht hr (.inr ⟨hc, ?_⟩)⟩
            intro h1
            cases hv : n.hasValue with
            | true => exact he ⟨hv, h1⟩
            | false => exact (inner n hm hv).2.2 hc
          | some c =>
            obtain ⟨c', h'⟩ := ih n hm c hc (l.drop n.literal.length)
            exact ⟨_, .down t l A B n c c' ht hr hp hc he h'⟩
      · exact ⟨_, ins_split_ascii t l A B n (lits.label n hm) ht hr (.inl hp)⟩
    · exact ⟨_, .miss t l A B ht hA hB⟩
end

end Verif
