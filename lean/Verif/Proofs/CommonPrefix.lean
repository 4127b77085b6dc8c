import Verif.Model.CommonPrefix
import Verif.Proofs.Utf8
/-! Helper lemmas on `common_prefix_len`. -/
namespace Verif

theorem cplLoop_spec (a b : Bytes) (minLen last fuel : Nat) (hf : fuel ≤ minLen)
    (heq : ∀ j, j < minLen - fuel → a[j]? = b[j]?)
    (hlb : isCharBoundary a last = true) (hl : last ≤ minLen - fuel)
    (hm : ∀ m, m < minLen - fuel → isCharBoundary a m = true → m ≤ last) :
    (cplLoop a b minLen last fuel = minLen ∧ ∀ j, j < minLen → a[j]? = b[j]?) ∨
    ∃ i, i < minLen ∧ a[i]? ≠ b[i]? ∧ (∀ j, j < i → a[j]? = b[j]?) ∧
      isCharBoundary a (cplLoop a b minLen last fuel) = true ∧ cplLoop a b minLen last fuel ≤ i ∧
      ∀ m, m ≤ i → isCharBoundary a m = true → m ≤ cplLoop a b minLen last fuel := by
  induction fuel generalizing last with
  | zero => left; exact ⟨rfl, by simpa using heq⟩
  | succ fuel ih =>
    unfold cplLoop
    simp only
    generalize hi : minLen - (fuel + 1) = i at *
    have hlast' : isCharBoundary a (if isCharBoundary a i = true then i else last) = true := by
      split <;> assumption
    have hle : (if isCharBoundary a i = true then i else last) ≤ i := by split <;> omega
    have hmax : ∀ m, m ≤ i → isCharBoundary a m = true → m ≤ (if isCharBoundary a i = true then i else last) := by
      intro m hmi hb
      split
      · exact hmi
      · rename_i hni
        have : m ≠ i := by rintro rfl; exact hni hb
        exact hm m (by omega) hb
    generalize (if isCharBoundary a i = true then i else last) = last' at *
    split
    · rename_i hne
      right
      exact ⟨i, by omega, hne, heq, hlast', hle, hmax⟩
    · rename_i hne
      have he : minLen - fuel = i + 1 := by omega
      apply ih last' (by omega)
      · intro j hj
        by_cases hji : j = i
        · subst hji; simpa using hne
        · exact heq j (by omega)
      · exact hlast'
      · omega
      · intro m hmi hb
        exact hmax m (by omega) hb

theorem commonPrefixLen_cases (a b : Bytes) :
    (commonPrefixLen a b = min a.length b.length ∧ ∀ j, j < min a.length b.length → a[j]? = b[j]?) ∨
    ∃ i, i < min a.length b.length ∧ a[i]? ≠ b[i]? ∧ (∀ j, j < i → a[j]? = b[j]?) ∧
      isCharBoundary a (commonPrefixLen a b) = true ∧ commonPrefixLen a b ≤ i ∧
      ∀ m, m ≤ i → isCharBoundary a m = true → m ≤ commonPrefixLen a b :=
  cplLoop_spec a b _ 0 _ (Nat.le_refl _) (by simp) (isCharBoundary_zero a) (by omega) (by simp)

theorem take_eq_of_getElem? {a b : Bytes} {n : Nat} (h : ∀ j, j < n → a[j]? = b[j]?) : a.take n = b.take n := by
  apply List.ext_getElem?
  intro j
  rw [List.getElem?_take, List.getElem?_take]
  split
  · exact h j (by assumption)
  · rfl

theorem getElem?_of_take_eq {a b : Bytes} {n j : Nat} (h : a.take n = b.take n) (hj : j < n) : a[j]? = b[j]? := by
  have := congrArg (·[j]?) h
  simpa [List.getElem?_take, hj] using this

theorem cpl_le (a b : Bytes) : commonPrefixLen a b ≤ min a.length b.length := by
  rcases commonPrefixLen_cases a b with ⟨h, _⟩ | ⟨i, h1, _, _, _, h2, _⟩ <;> omega

theorem cpl_take (a b : Bytes) : a.take (commonPrefixLen a b) = b.take (commonPrefixLen a b) := by
  rcases commonPrefixLen_cases a b with ⟨h, h2⟩ | ⟨i, h1, _, h3, _, h2, _⟩
  · rw [h]; exact take_eq_of_getElem? h2
  · exact take_eq_of_getElem? fun j hj => h3 j (by omega)

theorem cpl_boundary_left {a b : Bytes} (ha : Utf8 a) (hb : Utf8 b) :
    isCharBoundary a (commonPrefixLen a b) = true := by
  rcases commonPrefixLen_cases a b with ⟨h, h2⟩ | ⟨i, h1, _, h3, h4, h2, _⟩
  · have ht := cpl_take a b
    rw [h] at ht ⊢
    by_cases hl : a.length ≤ b.length
    · rw [Nat.min_eq_left hl]; exact isCharBoundary_length a
    · rw [Nat.min_eq_right (by omega)] at ht ⊢
      rw [boundary_iff ha]
      refine ⟨by omega, ?_⟩
      rw [ht]; simpa using hb
  · exact h4

theorem cpl_boundary_right {a b : Bytes} (ha : Utf8 a) (hb : Utf8 b) :
    isCharBoundary b (commonPrefixLen a b) = true := by
  have h1 := cpl_boundary_left ha hb
  rw [boundary_iff ha] at h1
  rw [boundary_iff hb]
  have := cpl_le a b
  exact ⟨by omega, by rw [← cpl_take]; exact h1.2⟩

theorem cpl_max {a b : Bytes} {m : Nat} (hb : isCharBoundary a m = true) (hm : m ≤ b.length)
    (h : a.take m = b.take m) : m ≤ commonPrefixLen a b := by
  have := isCharBoundary_le hb
  rcases commonPrefixLen_cases a b with ⟨h1, _⟩ | ⟨i, h1, hne, h3, h4, h2, h5⟩
  · omega
  · apply h5 m _ hb
    apply Nat.le_of_not_lt
    intro hlt
    exact hne (getElem?_of_take_eq h hlt)

theorem cpl_comm {a b : Bytes} (ha : Utf8 a) (hb : Utf8 b) : commonPrefixLen a b = commonPrefixLen b a := by
  have h1 := cpl_le a b
  have h2 := cpl_le b a
  apply Nat.le_antisymm
  · exact cpl_max (cpl_boundary_right ha hb) (by omega) (cpl_take a b).symm
  · exact cpl_max (cpl_boundary_right hb ha) (by omega) (cpl_take b a).symm

/-- `a` is a prefix of `b`: the common prefix is all of `a`. -/
theorem cpl_eq_length_left {a b : Bytes} :
    commonPrefixLen a b = a.length ↔ a <+: b := by
  constructor
  · intro h
    have ht := cpl_take a b
    rw [h, List.take_length] at ht
    rw [ht]; exact List.take_prefix _ _
  · intro h
    have hl := h.length_le
    have hc := cpl_le a b
    have : a.length ≤ commonPrefixLen a b := by
      apply cpl_max (isCharBoundary_length a) hl
      rw [List.take_length]
      exact (List.prefix_iff_eq_take.mp h)
    omega

theorem cpl_eq_length_right {a b : Bytes} (ha : Utf8 a) (hb : Utf8 b) :
    commonPrefixLen a b = b.length ↔ b <+: a := by
  rw [cpl_comm ha hb, cpl_eq_length_left]

end Verif
