import Verif.Spec.Order
import Verif.Proofs.Search
/-! C03, C04: `SortedVec`, /repo/src/utils/sortedvec.rs.

The element order is any comparison `c` that is a lawful total preorder (`Std.TransCmp`, which includes
antisymmetry in the sense `c a b = (c b a).swap`). -/
namespace Verif
open Spec

variable {α : Type}

/-- Running a sequence of operations on a `SortedVec`; the second component collects what `remove` returned.  A
`remove` with an index out of range panics. -/
def runVec (c : α → α → Ordering) (v : List α) (removed : List α) : List (VecOp α) → M (List α × List α)
  | [] => .ok (v, removed)
  | .push x :: ops => do
    let v ← SortedVec.push (fun a b => .ok (c a b)) v x
    runVec c v removed ops
  | .remove i :: ops => do
    let (x, v) ← SortedVec.remove v i
    runVec c v (x :: removed) ops

theorem ascending_lt {c : α → α → Ordering} [Std.OrientedCmp c] {v : List α} (h : Ascending c v) :
    v.Pairwise fun a b => c b a ≠ .lt := by
  refine List.Pairwise.imp ?_ h
  intro a b hab hba
  apply hab
  exact Std.OrientedCmp.gt_iff_lt.mpr hba

theorem insertPure_ascending {c : α → α → Ordering} [Std.TransCmp c] (x : α) {l : List α} (h : Ascending c l) :
    Ascending c (insertPure c x l) := by
  induction l with
  | nil => simp [insertPure, Ascending]
  | cons y ys ih =>
    unfold Ascending at h ⊢
    rw [List.pairwise_cons] at h
    unfold insertPure
    split
    · rename_i hlt
      rw [List.pairwise_cons]
      refine ⟨?_, List.pairwise_cons.mpr h⟩
      intro z hz
      rw [List.mem_cons] at hz
      rcases hz with rfl | hz
      · simp [hlt]
      · have h1 := h.1 z hz
        have h2 : (c x y).isLE := by simp [hlt]
        have h3 : (c y z).isLE := by revert h1; cases c y z <;> simp
        have := Std.TransCmp.isLE_trans h2 h3
        revert this; cases c x z <;> simp
    · rename_i hlt
      rw [List.pairwise_cons]
      refine ⟨?_, ih h.2⟩
      intro z hz
      rw [(insertPure_perm c x ys).mem_iff, List.mem_cons] at hz
      rcases hz with rfl | hz
      · intro hgt
        exact hlt (Std.OrientedCmp.gt_iff_lt.mp hgt)
      · exact h.1 z hz

theorem push_ok {c : α → α → Ordering} [Std.TransCmp c] {v : List α} (h : Ascending c v) (x : α) :
    SortedVec.push (fun a b => .ok (c a b)) v x = .ok (insertPure c x v) :=
  push_eq _ c v x (fun _ _ _ _ => rfl) (ascending_lt h)

theorem remove_ok {v : List α} {i : Nat} {x : α} {w : List α} (h : SortedVec.remove v i = .ok (x, w)) :
    (x :: w).Perm v ∧ w.Sublist v := by
  unfold SortedVec.remove vecRemove at h
  split at h
  · simp at h
  · rename_i y hy
    simp only [Except.ok.injEq, Prod.mk.injEq] at h
    obtain ⟨rfl, rfl⟩ := h
    obtain ⟨hi, hx⟩ := List.getElem?_eq_some_iff.mp hy
    have hv : v = v.take i ++ y :: v.drop (i + 1) := by
      rw [← hx]; simp
    refine ⟨?_, ?_⟩
    · conv => rhs; rw [hv]
      exact List.perm_middle.symm
    · conv => rhs; rw [hv]
      exact List.Sublist.append (List.Sublist.refl _) (List.sublist_cons_self _ _)

/-- invariant for C03 from any sorted start -/
theorem runVec_inv {c : α → α → Ordering} [Std.TransCmp c] (ops : List (VecOp α)) (v removed v' removed' : List α)
    (hv : Ascending c v) (h : runVec c v removed ops = .ok (v', removed')) :
    Ascending c v' ∧ (v' ++ removed').Perm (v ++ removed ++ pushed ops) := by
  induction ops generalizing v removed with
  | nil => simp [runVec] at h; simp [pushed, ← h.1, ← h.2, hv]
  | cons op ops ih =>
    cases op with
    | push x =>
      simp only [runVec, push_ok hv, bind, Except.bind] at h
      obtain ⟨h1, h2⟩ := ih _ _ (insertPure_ascending x hv) h
      refine ⟨h1, h2.trans ?_⟩
      simp only [pushed]
      have := insertPure_perm c x v
      refine (((this.append_right removed)).append_right (pushed ops)).trans ?_
      simp only [List.cons_append]
      exact List.perm_middle.symm
    | remove i =>
      simp only [runVec, bind, Except.bind] at h
      split at h
      · simp at h
      · rename_i r hr
        obtain ⟨x, w⟩ := r
        obtain ⟨hp, hsub⟩ := remove_ok hr
        obtain ⟨h1, h2⟩ := ih _ _ (List.Pairwise.sublist hsub hv) h
        refine ⟨h1, h2.trans ?_⟩
        simp only [pushed]
        refine List.Perm.append_right _ ?_
        refine List.Perm.trans ?_ (hp.append_right removed)
        exact List.perm_middle

/-- C03: after every sequence of `push`/`remove` calls that does not index out of range, the vector is in non-decreasing order, and what it
contains together with what was removed is exactly what was pushed. -/
theorem C03_sortedvec_sorted_and_complete (c : α → α → Ordering) [Std.TransCmp c] (ops : List (VecOp α))
    (v removed : List α) (h : runVec c SortedVec.new [] ops = .ok (v, removed)) :
    Ascending c v ∧ (v ++ removed).Perm (pushed ops) := by
  simpa [SortedVec.new] using runVec_inv ops [] [] v removed (by simp [Ascending]) h

/-- C03: only an out-of-range `remove` can panic: `push` always succeeds on a reachable vector. -/
theorem C03_push_never_panics (c : α → α → Ordering) [Std.TransCmp c] (ops : List (VecOp α))
    (v removed : List α) (h : runVec c SortedVec.new [] ops = .ok (v, removed)) (x : α) :
    ∃ w, SortedVec.push (fun a b => .ok (c a b)) v x = .ok w ∧ w.Perm (x :: v) := by
  have hv := (C03_sortedvec_sorted_and_complete c ops v removed h).1
  exact ⟨_, push_ok hv x, insertPure_perm c x v⟩

theorem C03_remove_in_range (v : List α) (i : Nat) :
    (∃ x w, SortedVec.remove v i = .ok (x, w) ∧ v[i]? = some x) ↔ i < SortedVec.len v := by
  unfold SortedVec.remove vecRemove SortedVec.len
  constructor
  · rintro ⟨x, w, h, hx⟩
    exact (List.getElem?_eq_some_iff.mp hx).1
  · intro h
    rw [List.getElem?_eq_getElem h]
    exact ⟨_, _, rfl, rfl⟩

/-- C03: replacing the element at an index in range through `get_mut` by one that compares equal to it keeps the order and the length; `get` then returns
the new element at this index and the old ones elsewhere. -/
theorem C03_replace (c : α → α → Ordering) [Std.TransCmp c] (v : List α) (hv : Ascending c v) (i : Nat) (x y : α) (hi : SortedVec.get v i = some y)
    (he : c x y = .eq) :
    Ascending c (SortedVec.setAt v i x) ∧ SortedVec.len (SortedVec.setAt v i x) = SortedVec.len v ∧ SortedVec.get (SortedVec.setAt v i x) i = some x ∧
      ∀ j, j ≠ i → SortedVec.get (SortedVec.setAt v i x) j = SortedVec.get v j := by
  unfold SortedVec.get at hi
  unfold SortedVec.setAt SortedVec.len SortedVec.get
  obtain ⟨hlt, hy⟩ := List.getElem?_eq_some_iff.mp hi
  refine ⟨?_, by simp, by simp [hlt], fun j hj => List.getElem?_set_ne (Ne.symm hj)⟩
  have hxy : ∀ z, (c z x = c z y) ∧ (c x z = c y z) := fun z => ⟨Std.TransCmp.congr_right he, Std.TransCmp.congr_left he⟩
  unfold Ascending at hv ⊢
  rw [List.pairwise_iff_getElem] at hv ⊢
  intro a b ha hb hab
  rw [List.getElem_set, List.getElem_set]
  simp only [List.length_set] at ha hb
  have hab' := hv a b ha hb hab
  by_cases e1 : i = a
  · subst e1
    rw [if_pos rfl, if_neg (by omega), (hxy _).2, ← hy]
    exact hab'
  · rw [if_neg e1]
    by_cases e2 : i = b
    · subst e2
      rw [if_pos rfl, (hxy _).1, ← hy]
      exact hab'
    · rw [if_neg e2]
      exact hab'

theorem ascending_rank {c : α → α → Ordering} [Std.TransCmp c] {v : List α} (h : Ascending c v) (x : α) :
    v.Pairwise fun a b => rank (c a x) ≤ rank (c b x) := by
  refine List.Pairwise.imp ?_ h
  intro a b hab
  have hab : (c a b).isLE := by revert hab; cases c a b <;> simp
  cases hb : c b x with
  | gt => cases c a x <;> simp [rank]
  | eq =>
    have : (c b x).isLE := by simp [hb]
    have := Std.TransCmp.isLE_trans hab this
    revert this; cases c a x <;> simp [rank]
  | lt =>
    have := Std.TransCmp.lt_of_isLE_of_lt hab hb
    simp [this, rank]

/-- C04: `find_pos` on any sorted vector (in particular every reachable one, C03): it never panics and returns an index holding an equal element,
or `None` exactly when there is no equal element. -/
theorem C04_find_pos (c : α → α → Ordering) [Std.TransCmp c] (v : List α) (hv : Ascending c v) (x : α) :
    (∃ i y, SortedVec.findPos (fun a b => .ok (c a b)) v x = .ok (some i) ∧ v[i]? = some y ∧ c y x = .eq) ∨
    (SortedVec.findPos (fun a b => .ok (c a b)) v x = .ok none ∧ ∀ y ∈ v, c y x ≠ .eq) :=
  searchLoop_spec (fun a b => .ok (c a b)) (fun y => c y x) v x 0 v.length (Nat.le_refl _) (fun _ _ => rfl)
    (ascending_rank hv x) (by simp) (by simp)

/-- C04: `find` returns an equal element of the vector iff there is one. -/
theorem C04_find (c : α → α → Ordering) [Std.TransCmp c] (v : List α) (hv : Ascending c v) (x : α) :
    ∃ r, SortedVec.find (fun a b => .ok (c a b)) v x = .ok r ∧
      (∀ y, r = some y → y ∈ v ∧ c y x = .eq) ∧ (r = none ↔ ∀ y ∈ v, c y x ≠ .eq) := by
  have h := C04_find_pos c v hv x
  unfold SortedVec.findPos at h
  unfold SortedVec.find
  rcases h with ⟨i, y, h1, h2, h3⟩ | ⟨h1, h2⟩
  · rw [h1]
    refine ⟨some y, by simp [h2], ?_, ?_⟩
    · rintro z ⟨rfl⟩; exact ⟨List.mem_of_getElem? h2, h3⟩
    · simp; exact ⟨y, List.mem_of_getElem? h2, h3⟩
  · rw [h1]
    exact ⟨none, rfl, by simp, by simpa using h2⟩

/-- C04: `binary_search_by` with the probe comparison gives `Ok` at an equal element, or `Err` with the insertion point: everything before it is
smaller and everything from it on is greater. -/
theorem C04_binary_search_by (c : α → α → Ordering) [Std.TransCmp c] (v : List α) (hv : Ascending c v) (x : α) :
    (∃ i y, SortedVec.binarySearchBy (fun a => .ok (c a x)) v = .ok (.ok i) ∧ v[i]? = some y ∧ c y x = .eq) ∨
    (∃ i, SortedVec.binarySearchBy (fun a => .ok (c a x)) v = .ok (.err i) ∧ i ≤ v.length ∧
      (∀ y ∈ v.take i, c y x = .lt) ∧ (∀ y ∈ v.drop i, c y x = .gt)) :=
  binarySearchBy_spec _ (fun y => c y x) v (fun _ _ => rfl) (ascending_rank hv x)

/-- a concrete reachable vector, with a duplicate and a removal -/
example : runVec (compare (α := Nat)) SortedVec.new []
    [.push 5, .push 3, .push 5, .push 1, .remove 1, .push 4] = .ok ([1, 4, 5, 5], [3]) := by decide +kernel
example : Ascending (compare (α := Nat)) [1, 4, 5, 5] := by unfold Ascending; decide
/-- replacing an element by one with the same key -/
example : SortedVec.get (SortedVec.setAt [(1, 'a'), (4, 'b'), (5, 'c')] 1 (4, 'd')) 1 = some (4, 'd') :=
  (C03_replace (compareOn (Prod.fst : Nat × Char → Nat)) _ (show Ascending _ [(1, 'a'), (4, 'b'), (5, 'c')] by unfold Ascending; decide) 1
    (4, 'd') (4, 'b') rfl (by decide)).2.2.1
example : SortedVec.findPos (fun a b => .ok (compare (α := Nat) a b)) [1, 4, 5, 5] 4 = .ok (some 1) := by decide +kernel

end Verif
