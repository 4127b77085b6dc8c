import Verif.Proofs.Parsers
/-! The order of byte strings. -/
namespace Verif

theorem cmpU8_swap (a b : UInt8) : cmpU8 a b = (cmpU8 b a).swap := by
  unfold cmpU8
  rcases Nat.lt_trichotomy a.toNat b.toNat with h | h | h
  · rw [if_pos h, if_neg (by omega), if_neg (by omega)]; rfl
  · rw [if_neg (by omega), if_pos h, if_neg (by omega), if_pos h.symm]; rfl
  · rw [if_neg (by omega), if_neg (by omega), if_pos h]; rfl

theorem cmpBytes_eq {a b : Bytes} : cmpBytes a b = .eq ↔ a = b := by
  induction a generalizing b with
  | nil => cases b <;> simp [cmpBytes]
  | cons x a ih =>
    cases b with
    | nil => simp [cmpBytes]
    | cons y b =>
      unfold cmpBytes
      split
      · rename_i h; rw [cmpU8_eq] at h; subst h; simp [ih]
      · rename_i h
        constructor
        · intro h2; exact absurd h2 (by simpa using h)
        · intro h2; simp at h2; exact absurd (cmpU8_eq.mpr h2.1) (by simpa using h)

theorem cmpBytes_swap (a b : Bytes) : cmpBytes a b = (cmpBytes b a).swap := by
  induction a generalizing b with
  | nil => cases b <;> rfl
  | cons x a ih =>
    cases b with
    | nil => rfl
    | cons y b =>
      simp only [cmpBytes]
      rw [cmpU8_swap x y]
      cases h : cmpU8 y x with
      | eq => simp only [Ordering.swap]; exact ih b
      | lt => rfl
      | gt => rfl

theorem cmpBytes_gt {a b : Bytes} : cmpBytes a b = .gt ↔ cmpBytes b a = .lt := by
  rw [cmpBytes_swap a b]; cases cmpBytes b a <;> simp [Ordering.swap]

theorem cmpBytes_cons {x y : UInt8} {a b : Bytes} : cmpBytes (x :: a) (y :: b) = .lt ↔ x.toNat < y.toNat ∨ (x = y ∧ cmpBytes a b = .lt) := by
  simp only [cmpBytes]
  cases h : cmpU8 x y with
  | eq => rw [cmpU8_eq] at h; subst h; simp
  | lt => rw [cmpU8_lt] at h; simp [h]
  | gt =>
    simp
    have h2 : cmpU8 y x = .lt := by rw [cmpU8_swap, h]; rfl
    rw [cmpU8_lt] at h2
    refine ⟨by omega, ?_⟩
    intro e; subst e; omega

theorem cmpBytes_trans {a b c : Bytes} (h1 : cmpBytes a b = .lt) (h2 : cmpBytes b c = .lt) : cmpBytes a c = .lt := by
  induction a generalizing b c with
  | nil =>
    cases c with
    | nil => cases b <;> simp [cmpBytes] at h2
    | cons z c => rfl
  | cons x a ih =>
    cases b with
    | nil => simp [cmpBytes] at h1
    | cons y b =>
      cases c with
      | nil => simp [cmpBytes] at h2
      | cons z c =>
        rw [cmpBytes_cons] at h1 h2 ⊢
        rcases h1 with h1 | ⟨rfl, h1⟩ <;> rcases h2 with h2 | ⟨rfl, h2⟩
        · left; omega
        · exact .inl h1
        · exact .inl h2
        · exact .inr ⟨rfl, ih h1 h2⟩

theorem cmpBytes_lex {a b : Bytes} : cmpBytes a b = .lt ↔ List.Lex (fun x y : UInt8 => x.toNat < y.toNat) a b := by
  induction a generalizing b with
  | nil =>
    cases b with
    | nil => simp [cmpBytes]
    | cons y b => simp [cmpBytes]
  | cons x a ih =>
    cases b with
    | nil => simp [cmpBytes]
    | cons y b =>
      rw [cmpBytes_cons, ih]
      constructor
      · rintro (h | ⟨rfl, h⟩)
        · exact .rel h
        · exact .cons h
      · intro h
        cases h with
        | rel h => exact .inl h
        | cons h => exact .inr ⟨rfl, h⟩

theorem cmpBytes_irrefl (a : Bytes) : cmpBytes a a ≠ .lt := by
  rw [cmpBytes_eq.mpr rfl]; simp

end Verif
