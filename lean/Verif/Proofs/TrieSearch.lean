import Verif.Model.Trie
import Verif.Proofs.Search
import Verif.Proofs.CommonPrefix
/-! The search in the literal children of a trie node, for ASCII labels. -/
namespace Verif

/-- Sort key of a literal child: 0 for the empty label, else 1 + first byte. -/
def rk : Bytes → Nat
  | [] => 0
  | b :: _ => b.toNat + 1

theorem rk_eq_nil {x : Bytes} : rk x = 0 ↔ x = [] := by cases x <;> simp [rk]

theorem slice_head {a : UInt8} {s : Bytes} (h : Ascii (a :: s)) : slice (a :: s) 0 1 = .ok [a] := by
  have h1 : isCharBoundary (a :: s) 1 = true := ascii_boundary h (by simp)
  simp [slice, isCharBoundary_zero, h1]

/-- A text that is empty or begins with an ASCII character. -/
def FirstAscii (x : Bytes) : Prop := Utf8 x ∧ ∀ b t, x = b :: t → b.toNat < 128

theorem firstAscii_of {x : Bytes} (h : Ascii x) : FirstAscii x := ⟨ascii_utf8 h, fun b t e => h b (by rw [e]; simp)⟩

theorem slice_first {a : UInt8} {s : Bytes} (h : FirstAscii (a :: s)) : slice (a :: s) 0 1 = .ok [a] := by
  have h2 : Utf8 s := utf8_cancel (a := [a]) (ascii_utf8 (by intro b hb; simp at hb; subst hb; exact h.2 _ _ rfl)) h.1
  have h1 : isCharBoundary (a :: s) 1 = true := isCharBoundary_append_right (a := [a]) h2
  simp [slice, isCharBoundary_zero, h1]

theorem compare_nat_lt {a b : Nat} (h : a < b) : compare a b = .lt := by simp [Nat.compare_eq_lt, h]
theorem compare_nat_gt {a b : Nat} (h : b < a) : compare a b = .gt := by simp [Nat.compare_eq_gt, h]

theorem cmpStr_first {n : LiteralNode} {x : Bytes} (hn : Ascii n.literal) (hx : FirstAscii x) :
    n.cmpStr x = .ok (compare (rk n.literal) (rk x)) := by
  unfold LiteralNode.cmpStr
  cases hl : n.literal with
  | nil =>
    cases x with
    | nil => simp [rk]
    | cons b x => simp [rk]; rw [compare_nat_lt (by omega)]
  | cons a s =>
    rw [hl] at hn
    cases x with
    | nil => simp [rk]; rw [compare_nat_gt (by omega)]
    | cons b x =>
      simp only [List.isEmpty_cons, Bool.false_and, Bool.false_eq_true, if_false, slice_head hn, slice_first hx, bind,
        Except.bind, pure, Except.pure, rk, cmpBytes, cmpU8, Except.ok.injEq]
      rcases Nat.lt_trichotomy a.toNat b.toNat with h | h | h
      · rw [compare_nat_lt (by omega)]; simp [h]
      · simp [h]
      · rw [compare_nat_gt (by omega)]
        rw [if_neg (by omega), if_neg (by omega)]

theorem cmpStr_eq {n : LiteralNode} {x : Bytes} (hn : Ascii n.literal) (hx : Ascii x) :
    n.cmpStr x = .ok (compare (rk n.literal) (rk x)) := cmpStr_first hn (firstAscii_of hx)

/-- The literal children are in strictly ascending order of their first bytes, and all labels satisfy `P`
(`Ascii` or `Utf8`). -/
structure SortedLits (P : Bytes → Prop) (l : List LiteralNode) : Prop where
  sorted : l.Pairwise fun m n => rk m.literal < rk n.literal
  label : ∀ n ∈ l, P n.literal

theorem rank_mono {a b k : Nat} (h : a < b) : rank (compare a k) ≤ rank (compare b k) := by
  rcases Nat.lt_trichotomy a k with h1 | h1 | h1
  · rw [compare_nat_lt h1]; simp [rank]
  · rw [compare_nat_gt (a := b) (b := k) (by omega), h1]; simp [rank]
  · rw [compare_nat_gt h1, compare_nat_gt (by omega)]; simp

/-- `binary_search_by(cmp_str x)` finds the child with the key of `x`, or the place where it belongs. -/
theorem bsearch_cases_first {l : List LiteralNode} (h : SortedLits Ascii l) {x : Bytes} (hx : FirstAscii x) :
    (∃ A n B, l = A ++ n :: B ∧ rk n.literal = rk x ∧
      SortedVec.binarySearchBy (fun p => p.cmpStr x) l = .ok (.ok A.length)) ∨
    (∃ A B, l = A ++ B ∧ (∀ m ∈ A, rk m.literal < rk x) ∧ (∀ m ∈ B, rk x < rk m.literal) ∧
      SortedVec.binarySearchBy (fun p => p.cmpStr x) l = .ok (.err A.length)) := by
  have key := binarySearchBy_spec (fun p : LiteralNode => p.cmpStr x) (fun p => compare (rk p.literal) (rk x)) l
    (fun n hn => cmpStr_first (h.label n hn) hx) (h.sorted.imp fun hab => rank_mono hab)
  rcases key with ⟨i, n, h1, h2, h3⟩ | ⟨i, h1, h2, h3, h4⟩
  · left
    obtain ⟨hi, he⟩ := List.getElem?_eq_some_iff.mp h2
    refine ⟨l.take i, n, l.drop (i + 1), ?_, by simpa using h3, ?_⟩
    · rw [← he]; simp
    · rw [List.length_take, Nat.min_eq_left (by omega)]; exact h1
  · right
    refine ⟨l.take i, l.drop i, by simp, ?_, ?_, ?_⟩
    · intro m hm; simpa [Nat.compare_eq_lt] using h3 m hm
    · intro m hm; simpa [Nat.compare_eq_gt] using h4 m hm
    · rw [List.length_take, Nat.min_eq_left h2]; exact h1

theorem bsearch_hit_first {A B : List LiteralNode} {n : LiteralNode} (h : SortedLits Ascii (A ++ n :: B)) {x : Bytes} (hx : FirstAscii x)
    (hr : rk n.literal = rk x) :
    SortedVec.binarySearchBy (fun p => p.cmpStr x) (A ++ n :: B) = .ok (.ok A.length) := by
  have hs := h.sorted
  rw [List.pairwise_append] at hs
  obtain ⟨_, hs2, hs3⟩ := hs
  rw [List.pairwise_cons] at hs2
  rcases bsearch_cases_first h hx with ⟨A', n', B', he, hr', hb⟩ | ⟨A', B', he, h1, h2, hb⟩
  · rw [hb]
    congr 2
    -- both positions hold an element with the same key
    rcases Nat.lt_trichotomy A'.length A.length with hl | hl | hl
    · exfalso
      have : n' ∈ A := by
        have e : (A ++ n :: B)[A'.length]? = some n' := by rw [he]; simp
        rw [List.getElem?_append_left hl] at e
        exact List.mem_of_getElem? e
      have := hs3 n' this n (by simp)
      omega
    · exact hl
    · exfalso
      have : n' ∈ B := by
        have e : (A ++ n :: B)[A'.length]? = some n' := by rw [he]; simp
        rw [List.getElem?_append_right (by omega)] at e
        obtain ⟨k, hk⟩ : ∃ k, A'.length - A.length = k + 1 := ⟨A'.length - A.length - 1, by omega⟩
        rw [hk] at e
        simp at e
        exact List.mem_of_getElem? e
      have := hs2.1 n' this
      omega
  · exfalso
    have hm : n ∈ A' ++ B' := by rw [← he]; simp
    rw [List.mem_append] at hm
    rcases hm with hm | hm
    · have := h1 n hm; omega
    · have := h2 n hm; omega

theorem bsearch_miss_first {A B : List LiteralNode} (h : SortedLits Ascii (A ++ B)) {x : Bytes} (hx : FirstAscii x)
    (hA : ∀ m ∈ A, rk m.literal < rk x) (hB : ∀ m ∈ B, rk x < rk m.literal) :
    SortedVec.binarySearchBy (fun p => p.cmpStr x) (A ++ B) = .ok (.err A.length) := by
  rcases bsearch_cases_first h hx with ⟨A', n', B', he, hr', hb⟩ | ⟨A', B', he, h1, h2, hb⟩
  · exfalso
    have hm : n' ∈ A ++ B := by rw [he]; simp
    rw [List.mem_append] at hm
    rcases hm with hm | hm
    · have := hA n' hm; omega
    · have := hB n' hm; omega
  · rw [hb]
    congr 2
    rcases Nat.lt_trichotomy A'.length A.length with hl | hl | hl
    · exfalso
      have e : (A ++ B)[A'.length]? = (A' ++ B')[A'.length]? := by rw [he]
      rw [List.getElem?_append_left hl, List.getElem?_append_right (by omega)] at e
      have h3 := List.getElem?_eq_getElem hl
      rw [h3] at e
      have := h2 _ (List.mem_of_getElem? e.symm)
      have := hA _ (List.getElem_mem hl)
      omega
    · exact hl
    · exfalso
      have e : (A ++ B)[A.length]? = (A' ++ B')[A.length]? := by rw [he]
      rw [List.getElem?_append_left hl, List.getElem?_append_right (by omega)] at e
      have h3 := List.getElem?_eq_getElem hl
      rw [h3] at e
      have := hB _ (List.mem_of_getElem? e)
      have := h1 _ (List.getElem_mem hl)
      omega

/-- Every sorted list of literal children splits at a key. -/
theorem split_cases {P : Bytes → Prop} {l : List LiteralNode} (h : SortedLits P l) (k : Nat) :
    (∃ A n B, l = A ++ n :: B ∧ rk n.literal = k) ∨
    (∃ A B, l = A ++ B ∧ (∀ m ∈ A, rk m.literal < k) ∧ (∀ m ∈ B, k < rk m.literal)) := by
  obtain ⟨hs, ha⟩ := h
  induction l with
  | nil => exact .inr ⟨[], [], rfl, by simp, by simp⟩
  | cons m l ih =>
    rw [List.pairwise_cons] at hs
    rcases Nat.lt_trichotomy (rk m.literal) k with hk | hk | hk
    · rcases ih hs.2 (fun n hn => ha n (by simp [hn])) with ⟨A, n, B, he, hr⟩ | ⟨A, B, he, h1, h2⟩
      · exact .inl ⟨m :: A, n, B, by simp [he], hr⟩
      · refine .inr ⟨m :: A, B, by simp [he], ?_, h2⟩
        intro x hx
        simp at hx
        rcases hx with rfl | hx
        · exact hk
        · exact h1 x hx
    · exact .inl ⟨[], m, l, rfl, hk⟩
    · refine .inr ⟨[], m :: l, rfl, by simp, ?_⟩
      intro x hx
      simp at hx
      rcases hx with rfl | hx
      · exact hk
      · have := hs.1 x hx; omega

/-- Pushing a node whose key is not present inserts it at its place. -/
theorem push_lits {A B : List LiteralNode} (h : SortedLits Ascii (A ++ B)) {n : LiteralNode} (hn : Ascii n.literal)
    (hA : ∀ m ∈ A, rk m.literal < rk n.literal) (hB : ∀ m ∈ B, rk n.literal < rk m.literal) :
    SortedVec.push LiteralNode.cmp (A ++ B) n = .ok (A ++ n :: B) := by
  have hall : ∀ m ∈ A ++ B ++ [n], Ascii m.literal := by
    intro m hm
    rw [List.mem_append] at hm
    rcases hm with hm | hm
    · exact h.label m hm
    · simp at hm; rw [hm]; exact hn
  rw [push_eq LiteralNode.cmp (fun a b => compare (rk a.literal) (rk b.literal))]
  · congr 1
    apply insertPure_split
    · intro y hy
      have := hA y hy
      rw [compare_nat_gt this]; simp
    · intro y hy
      have : y ∈ B := List.mem_of_mem_head? hy
      exact compare_nat_lt (hB y this)
  · intro a ha b hb
    exact cmpStr_eq (hall a ha) (hall b hb)
  · refine h.sorted.imp ?_
    intro a b hab
    rw [compare_nat_gt hab]; simp

/-- `search` when no child has the key of the text. -/
theorem search_miss_first {t : SuffixTree} {A B : List LiteralNode} (ht : t.literalChildren = A ++ B)
    (h : SortedLits Ascii t.literalChildren) {x : Bytes} (hx : FirstAscii x)
    (hA : ∀ m ∈ A, rk m.literal < rk x) (hB : ∀ m ∈ B, rk x < rk m.literal) : t.search x = .ok .notFound := by
  unfold SuffixTree.search
  rw [ht] at h ⊢
  simp [bsearch_miss_first h hx hA hB, bind, Except.bind, pure, Except.pure]

theorem cpl_lt_iff {a b : Bytes} : commonPrefixLen a b < a.length ↔ ¬ a <+: b := by
  rw [← cpl_eq_length_left]
  have := cpl_le a b
  omega

/-- `search` when the child `n` has the key of the text. -/
theorem search_hit_first {t : SuffixTree} {A B : List LiteralNode} {n : LiteralNode} (ht : t.literalChildren = A ++ n :: B)
    (h : SortedLits Ascii t.literalChildren) {x : Bytes} (hx : FirstAscii x) (hr : rk n.literal = rk x) :
    t.search x = .ok (
      if n.node.isNone then (if n.literal = x then .found A.length else .notFound)
      else if ¬ n.literal <+: x then .notFound
      else if n.hasValue && n.literal = x then .found A.length
      else .goDown A.length (x.drop n.literal.length)) := by
  unfold SuffixTree.search
  have h' := h
  rw [ht] at h'
  have hg : t.literalChildren[A.length]? = some n := by rw [ht]; simp
  rw [ht, bsearch_hit_first h' hx hr]
  simp only [bind, Except.bind]
  unfold SuffixTree.searchPrefixIsFound
  simp only [hg, unwrap, bind, Except.bind]
  cases hn : n.node with
  | none =>
    simp only [LiteralNode.isLeaf, hn, Option.isNone_none, if_true]
    unfold SuffixTree.searchLeaf
    simp only [hg, unwrap, bind, Except.bind, pure, Except.pure]
    split <;> rfl
  | some c =>
    simp only [LiteralNode.isLeaf, hn, Option.isNone_some, Bool.false_eq_true, if_false]
    unfold SuffixTree.searchNotLeaf
    simp only [hg, unwrap, bind, Except.bind, pure, Except.pure]
    by_cases hp : n.literal <+: x
    · have hc : commonPrefixLen n.literal x = n.literal.length := cpl_eq_length_left.mpr hp
      have hl := hp.length_le
      rw [hc, if_neg (Nat.lt_irrefl _), if_neg (not_not_intro hp)]
      have e : (x.isEmpty || decide (n.literal.length = x.length)) = decide (n.literal = x) := by
        rw [Bool.eq_iff_iff]
        simp only [Bool.or_eq_true, decide_eq_true_eq, List.isEmpty_iff]
        constructor
        · rintro (rfl | h2)
          · exact List.prefix_nil.mp hp
          · exact hp.eq_of_length h2
        · intro h2; right; rw [h2]
      rw [e]
      split
      · rfl
      · simp only [hn]
        have : ltrunc x n.literal.length = .ok (x.drop n.literal.length) :=
          sliceFrom_ok (by
            obtain ⟨y, rfl⟩ := hp
            exact isCharBoundary_append_right (utf8_cancel (ascii_utf8 (h.label n (by rw [ht]; simp))) hx.1))
        rw [this]
    · rw [if_pos (cpl_lt_iff.mpr hp), if_pos hp]

/-! The same for ASCII texts. -/

theorem bsearch_cases {l : List LiteralNode} (h : SortedLits Ascii l) {x : Bytes} (hx : Ascii x) :
    (∃ A n B, l = A ++ n :: B ∧ rk n.literal = rk x ∧
      SortedVec.binarySearchBy (fun p => p.cmpStr x) l = .ok (.ok A.length)) ∨
    (∃ A B, l = A ++ B ∧ (∀ m ∈ A, rk m.literal < rk x) ∧ (∀ m ∈ B, rk x < rk m.literal) ∧
      SortedVec.binarySearchBy (fun p => p.cmpStr x) l = .ok (.err A.length)) := bsearch_cases_first h (firstAscii_of hx)

theorem bsearch_hit {A B : List LiteralNode} {n : LiteralNode} (h : SortedLits Ascii (A ++ n :: B)) {x : Bytes} (hx : Ascii x)
    (hr : rk n.literal = rk x) :
    SortedVec.binarySearchBy (fun p => p.cmpStr x) (A ++ n :: B) = .ok (.ok A.length) := bsearch_hit_first h (firstAscii_of hx) hr

theorem bsearch_miss {A B : List LiteralNode} (h : SortedLits Ascii (A ++ B)) {x : Bytes} (hx : Ascii x)
    (hA : ∀ m ∈ A, rk m.literal < rk x) (hB : ∀ m ∈ B, rk x < rk m.literal) :
    SortedVec.binarySearchBy (fun p => p.cmpStr x) (A ++ B) = .ok (.err A.length) := bsearch_miss_first h (firstAscii_of hx) hA hB

theorem search_miss {t : SuffixTree} {A B : List LiteralNode} (ht : t.literalChildren = A ++ B)
    (h : SortedLits Ascii t.literalChildren) {x : Bytes} (hx : Ascii x)
    (hA : ∀ m ∈ A, rk m.literal < rk x) (hB : ∀ m ∈ B, rk x < rk m.literal) : t.search x = .ok .notFound :=
  search_miss_first ht h (firstAscii_of hx) hA hB

theorem search_hit {t : SuffixTree} {A B : List LiteralNode} {n : LiteralNode} (ht : t.literalChildren = A ++ n :: B)
    (h : SortedLits Ascii t.literalChildren) {x : Bytes} (hx : Ascii x) (hr : rk n.literal = rk x) :
    t.search x = .ok (
      if n.node.isNone then (if n.literal = x then .found A.length else .notFound)
      else if ¬ n.literal <+: x then .notFound
      else if n.hasValue && n.literal = x then .found A.length
      else .goDown A.length (x.drop n.literal.length)) := search_hit_first ht h (firstAscii_of hx) hr

end Verif
