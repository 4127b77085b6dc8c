import Verif.Model.SortedVec
/-! Helper lemmas: the two binary searches and the stable sort. -/
namespace Verif

variable {α : Type}

/-- lt < eq < gt -/
def rank : Ordering → Nat
  | .lt => 0 | .eq => 1 | .gt => 2

theorem binarySearchLoop_spec (f : α → M Ordering) (g : α → Ordering) (base : Nat) (s : List α)
    (hf : ∀ x ∈ s, f x = .ok (g x)) (hs : s.Pairwise fun x y => rank (g x) ≤ rank (g y)) :
    (∃ i x, binarySearchLoop f base s = .ok (.ok (base + i)) ∧ s[i]? = some x ∧ g x = .eq) ∨
    (∃ i, binarySearchLoop f base s = .ok (.err (base + i)) ∧ i ≤ s.length ∧
      (∀ x ∈ s.take i, g x = .lt) ∧ (∀ x ∈ s.drop i, g x = .gt)) := by
  fun_induction binarySearchLoop f base s with
  | case1 base s h =>
    right
    refine ⟨0, by simp, by simp, ?_⟩
    have hl := congrArg List.length h
    have : s = [] := by
      apply List.eq_nil_of_length_eq_zero; simp at hl; omega
    simp [this]
  | case2 base s x tail h e he =>
    have hx : x ∈ s := List.mem_of_mem_drop (i := s.length / 2) (by simp [h])
    simp [hf x hx] at he
  | case3 base s x tail h hlt ih =>
    have hsplit : s = s.take (s.length / 2) ++ x :: tail := by rw [← h]; simp
    have hx : x ∈ s := List.mem_of_mem_drop (i := s.length / 2) (by simp [h])
    have hg : g x = .lt := by simpa [hf x hx] using hlt
    have hml : min (s.length / 2) s.length = s.length / 2 := by omega
    generalize hn : s.length / 2 = n at *
    have hln : (s.take n).length = n := by simp [hml]
    generalize s.take n = hd at *
    rw [hsplit] at hs hf
    rw [List.pairwise_append] at hs
    have hs2 := hs.2.1
    rw [List.pairwise_cons] at hs2
    have hhd : ∀ y ∈ hd, g y = .lt := by
      intro y hy
      have := hs.2.2 y hy x (by simp)
      rw [hg] at this; revert this; cases g y <;> simp [rank]
    rcases ih (fun y hy => hf y (by simp [hy])) hs2.2 with ⟨i, y, h1, h2, h3⟩ | ⟨i, h1, h2, h3, h4⟩
    · left
      refine ⟨n + 1 + i, y, ?_, ?_, h3⟩
      · rw [h1]; congr 2; omega
      · rw [hsplit, List.getElem?_append_right (by omega), hln, show n + 1 + i - n = i + 1 by omega]
        simpa using h2
    · right
      refine ⟨n + 1 + i, ?_, ?_, ?_, ?_⟩
      · rw [h1]; congr 2; omega
      · rw [hsplit]; simp; omega
      · rw [hsplit, List.take_append, hln, show n + 1 + i - n = i + 1 by omega, List.take_of_length_le (by omega)]
        intro y hy
        rw [List.mem_append] at hy
        rcases hy with hy | hy
        · exact hhd y hy
        · simp only [List.take_succ_cons, List.mem_cons] at hy
          rcases hy with rfl | hy
          · exact hg
          · exact h3 y hy
      · rw [hsplit, List.drop_append, hln, show n + 1 + i - n = i + 1 by omega, List.drop_eq_nil_of_le (by omega)]
        simpa using h4
  | case4 base s x tail h hgt ih =>
    have hsplit : s = s.take (s.length / 2) ++ x :: tail := by rw [← h]; simp
    have hx : x ∈ s := List.mem_of_mem_drop (i := s.length / 2) (by simp [h])
    have hg : g x = .gt := by simpa [hf x hx] using hgt
    generalize hn : s.length / 2 = n at *
    have hln : (s.take n).length = n := by simp; omega
    generalize s.take n = hd at *
    rw [hsplit] at hs hf
    rw [List.pairwise_append] at hs
    have hs2 := hs.2.1
    rw [List.pairwise_cons] at hs2
    have htl : ∀ y ∈ x :: tail, g y = .gt := by
      intro y hy
      rw [List.mem_cons] at hy
      rcases hy with rfl | hy
      · exact hg
      have := hs2.1 y hy
      rw [hg] at this; revert this; cases g y <;> simp [rank]
    rcases ih (fun y hy => hf y (by simp [hy])) hs.1 with ⟨i, y, h1, h2, h3⟩ | ⟨i, h1, h2, h3, h4⟩
    · left
      refine ⟨i, y, h1, ?_, h3⟩
      have := (List.getElem?_eq_some_iff.mp h2).1
      rw [hsplit, List.getElem?_append_left (by omega)]; exact h2
    · right
      refine ⟨i, h1, ?_, ?_, ?_⟩
      · rw [hsplit]; simp; omega
      · rw [hsplit, List.take_append, show i - hd.length = 0 by omega]; simpa using h3
      · rw [hsplit, List.drop_append, show i - hd.length = 0 by omega]
        intro y hy
        rw [List.mem_append] at hy
        rcases hy with hy | hy
        · exact h4 y hy
        · exact htl y (by simpa using hy)
  | case5 base s x tail h heq =>
    left
    have hx : x ∈ s := List.mem_of_mem_drop (i := s.length / 2) (by simp [h])
    refine ⟨s.length / 2, x, rfl, ?_, by simpa [hf x hx] using heq⟩
    rw [← List.head?_drop, h]; rfl

theorem binarySearchBy_spec (f : α → M Ordering) (g : α → Ordering) (s : List α)
    (hf : ∀ x ∈ s, f x = .ok (g x)) (hs : s.Pairwise fun x y => rank (g x) ≤ rank (g y)) :
    (∃ i x, binarySearchBy f s = .ok (.ok i) ∧ s[i]? = some x ∧ g x = .eq) ∨
    (∃ i, binarySearchBy f s = .ok (.err i) ∧ i ≤ s.length ∧
      (∀ x ∈ s.take i, g x = .lt) ∧ (∀ x ∈ s.drop i, g x = .gt)) := by
  have := binarySearchLoop_spec f g 0 s hf hs
  simpa [binarySearchBy] using this

theorem searchLoop_spec (cmp : α → α → M Ordering) (g : α → Ordering) (v : List α) (needle : α) (low high : Nat)
    (hhigh : high ≤ v.length)
    (hf : ∀ x ∈ v, cmp x needle = .ok (g x)) (hs : v.Pairwise fun x y => rank (g x) ≤ rank (g y))
    (hlo : ∀ x ∈ v.take low, g x = .lt) (hhi : ∀ x ∈ v.drop high, g x = .gt) :
    (∃ i x, SortedVec.searchLoop cmp v needle low high = .ok (some i) ∧ v[i]? = some x ∧ g x = .eq) ∨
    (SortedVec.searchLoop cmp v needle low high = .ok none ∧ ∀ x ∈ v, g x ≠ .eq) := by
  fun_induction SortedVec.searchLoop cmp v needle low high with
  | case1 low high h mid hn =>
    rw [List.getElem?_eq_none_iff] at hn; omega
  | case2 low high h mid y hy e he =>
    simp [hf y (List.mem_of_getElem? hy)] at he
  | case3 low high h mid y hy hlt ih =>
    have hg : g y = .lt := by simpa [hf y (List.mem_of_getElem? hy)] using hlt
    apply ih hhigh _ hhi
    intro x hx
    obtain ⟨j, hj, hx⟩ := List.mem_take_iff_getElem.mp hx
    obtain ⟨hm, hy⟩ := List.getElem?_eq_some_iff.mp hy
    by_cases hjm : j = mid
    · subst hjm; rw [← hx, hy, hg]
    · have := List.pairwise_iff_getElem.mp hs j mid (by omega) hm (by omega)
      rw [hy, hg, hx] at this; revert this; cases g x <;> simp [rank]
  | case4 low high h mid y hy hgt ih =>
    have hg : g y = .gt := by simpa [hf y (List.mem_of_getElem? hy)] using hgt
    obtain ⟨hm, hy⟩ := List.getElem?_eq_some_iff.mp hy
    apply ih (by omega) hlo
    intro x hx
    obtain ⟨j, hj, hx⟩ := List.mem_drop_iff_getElem.mp hx
    by_cases hjm : j = 0
    · subst hjm; simp at hx; rw [← hx, hy, hg]
    · have := List.pairwise_iff_getElem.mp hs mid (mid + j) hm (by omega) (by omega)
      rw [hy, hg, hx] at this
      revert this; cases g x <;> simp [rank]
  | case5 low high h mid y hy heq =>
    left
    exact ⟨mid, y, rfl, hy, by simpa [hf y (List.mem_of_getElem? hy)] using heq⟩
  | case6 low high h =>
    right
    refine ⟨rfl, fun x hx => ?_⟩
    obtain ⟨j, hj, rfl⟩ := List.mem_iff_getElem.mp hx
    by_cases hjl : j < low
    · rw [hlo _ (List.mem_take_iff_getElem.mpr ⟨j, by omega, rfl⟩)]; simp
    · rw [hhi v[j] (List.mem_drop_iff_getElem.mpr ⟨j - high, by omega, by congr 1; omega⟩)]; simp

/-! Stable insertion -/

/-- pure version of `insertStable` -/
def insertPure (c : α → α → Ordering) (x : α) : List α → List α
  | [] => [x]
  | y :: ys => if c x y = .lt then x :: y :: ys else y :: insertPure c x ys

theorem insertStable_eq (cmp : α → α → M Ordering) (c : α → α → Ordering) (x : α) (l : List α)
    (h : ∀ y ∈ l, cmp x y = .ok (c x y)) : insertStable cmp x l = .ok (insertPure c x l) := by
  induction l with
  | nil => rfl
  | cons y ys ih =>
    have h1 := h y (by simp)
    have h2 := ih (fun z hz => h z (by simp [hz]))
    unfold insertStable insertPure
    rw [h1]
    cases hc : c x y <;> simp [h2]

theorem insertPure_perm (c : α → α → Ordering) (x : α) (l : List α) : (insertPure c x l).Perm (x :: l) := by
  induction l with
  | nil => exact List.Perm.refl _
  | cons y ys ih =>
    unfold insertPure
    split
    · exact List.Perm.refl _
    · exact (List.Perm.cons y ih).trans (List.Perm.swap x y ys)

/-- Inserting into a list whose elements are all ≤ x appends. -/
theorem insertPure_append_right (c : α → α → Ordering) (x : α) (l : List α) (h : ∀ y ∈ l, c x y ≠ .lt) :
    insertPure c x l = l ++ [x] := by
  induction l with
  | nil => rfl
  | cons y ys ih =>
    unfold insertPure
    rw [if_neg (h y (by simp)), ih (fun z hz => h z (by simp [hz]))]; rfl

/-- Position of insertion: after a prefix of elements not greater than x and before a first greater one. -/
theorem insertPure_split (c : α → α → Ordering) (x : α) (l1 l2 : List α) (h1 : ∀ y ∈ l1, c x y ≠ .lt)
    (h2 : ∀ y ∈ l2.head?, c x y = .lt) : insertPure c x (l1 ++ l2) = l1 ++ x :: l2 := by
  induction l1 with
  | nil =>
    cases l2 with
    | nil => rfl
    | cons y ys => simp [insertPure, h2 y (by simp)]
  | cons y ys ih =>
    simp only [List.cons_append, insertPure]
    rw [if_neg (h1 y (by simp)), ih (fun z hz => h1 z (by simp [hz]))]

theorem foldlM_insertStable_sorted (cmp : α → α → M Ordering) (c : α → α → Ordering) (acc l : List α)
    (h : ∀ x ∈ acc ++ l, ∀ y ∈ acc ++ l, cmp x y = .ok (c x y))
    (hs : (acc ++ l).Pairwise fun a b => c b a ≠ .lt) :
    l.foldlM (fun acc x => insertStable cmp x acc) acc = .ok (acc ++ l) := by
  induction l generalizing acc with
  | nil => simp [pure, Except.pure]
  | cons x xs ih =>
    simp only [List.foldlM_cons, bind, Except.bind]
    rw [insertStable_eq cmp c x acc (fun y hy => h x (by simp) y (by simp [hy]))]
    rw [insertPure_append_right c x acc]
    · simp only
      rw [ih (acc ++ [x])]
      · simp
      · intro a ha b hb
        exact h a (by simpa using ha) b (by simpa using hb)
      · simpa using hs
    · intro y hy
      exact (List.pairwise_append.mp hs).2.2 y hy x (by simp)

/-- Sorting a sorted list with one element appended is a stable insertion. -/
theorem push_eq (cmp : α → α → M Ordering) (c : α → α → Ordering) (v : List α) (x : α)
    (h : ∀ a ∈ v ++ [x], ∀ b ∈ v ++ [x], cmp a b = .ok (c a b))
    (hs : v.Pairwise fun a b => c b a ≠ .lt) :
    SortedVec.push cmp v x = .ok (insertPure c x v) := by
  unfold SortedVec.push stableSort
  rw [List.foldlM_append, foldlM_insertStable_sorted cmp c [] v]
  · simp only [List.nil_append, bind, Except.bind, List.foldlM_cons, List.foldlM_nil]
    rw [insertStable_eq cmp c x v (fun y hy => h x (by simp) y (by simp [hy]))]
    rfl
  · intro a ha b hb
    exact h a (by simp at ha; simp [ha]) b (by simp at hb; simp [hb])
  · simpa using hs

end Verif
