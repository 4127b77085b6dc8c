import Verif.Proofs.TableChange
/-! Every table has an answer for every text. -/
namespace Verif
open Spec

theorem result_exists (p : Pattern) (caps : List (Parser × Bytes)) : ∃ r, IsResult r p caps := by
  have : ∃ r : MatchResult, r.pattern = { p with pattern := [] } ∧ HasCaptures r.values caps := by
    induction caps with
    | nil => exact ⟨MatchResult.new { p with pattern := [] }, rfl, hasCaptures_nil _⟩
    | cons c caps ih =>
      obtain ⟨a, v⟩ := c
      obtain ⟨r, h1, h2⟩ := ih
      refine ⟨r.insert a v, ?_, hasCaptures_insert h2 a v⟩
      rw [← h1]
      unfold MatchResult.insert
      split <;> rfl
  exact this

theorem split_first {ps A A' B B' : List Pattern} {p p' : Pattern} {x : Bytes} (e : A ++ p :: B = A' ++ p' :: B')
    (hA : ∀ a ∈ A, ¬∃ caps, MatchesStrict a.pattern x caps) (hp : ∃ caps, MatchesStrict p.pattern x caps)
    (hA' : ∀ a ∈ A', ¬∃ caps, MatchesStrict a.pattern x caps) (hp' : ∃ caps, MatchesStrict p'.pattern x caps) : p = p' := by
  induction A generalizing A' with
  | nil =>
    cases A' with
    | nil => simp at e; exact e.1
    | cons a A' => simp at e; exact absurd (e.1 ▸ hp) (hA' a (by simp))
  | cons b A ih =>
    cases A' with
    | nil => simp at e; exact absurd (e.1 ▸ hp') (hA b (by simp))
    | cons a A' =>
      simp at e
      exact ih e.2 (fun a ha => hA a (by simp [ha])) (fun a ha => hA' a (by simp [ha]))

theorem firstAnswer_exists (ps : List Pattern) (x : Bytes) : ∃ r, FirstAnswer ps x r := by
  rcases firstAnswer_cases ps x with h | ⟨A, p, B, caps, e, hA, hp⟩
  · refine ⟨none, ?_, fun _ => rfl⟩
    intro A p B caps e _ hp
    exact absurd ⟨caps, hp⟩ (h p (by rw [e]; simp))
  · obtain ⟨res, hr⟩ := result_exists p caps
    refine ⟨some res, ?_, fun h => absurd ⟨caps, hp⟩ (h p (by rw [e]; simp))⟩
    intro A' p' B' caps' e' hA' hp'
    have := split_first (ps := ps) (e ▸ e') hA ⟨caps, hp⟩ hA' ⟨caps', hp'⟩
    subst this
    rw [matchesStrict_unique hp' hp]
    exact ⟨res, rfl, hr⟩

theorem deepest_exists (rows : List Row) (x : Bytes) : ∃ b, Deepest rows x b := by
  have : ∀ n, (∃ b, StopPoint rows b ∧ b <+: x ∧ n ≤ b.length) → ∀ k, x.length = n + k → ∃ b, Deepest rows x b := by
    intro n h k
    induction k generalizing n with
    | zero =>
      intro hk
      obtain ⟨b, h1, h2, h3⟩ := h
      exact ⟨b, h1, h2, fun b' _ h' => by have := h'.length_le; omega⟩
    | succ k ih =>
      intro hk
      by_cases hc : ∃ b, StopPoint rows b ∧ b <+: x ∧ n + 1 ≤ b.length
      · exact ih (n + 1) hc (by omega)
      · obtain ⟨b, h1, h2, h3⟩ := h
        refine ⟨b, h1, h2, fun b' g1 g2 => ?_⟩
        have : ¬ n + 1 ≤ b'.length := fun g => hc ⟨b', g1, g2, g⟩
        omega
  exact this 0 ⟨[], .inl rfl, List.nil_prefix, Nat.le_refl _⟩ x.length (by omega)

theorem answer_exists {T : Table} (hu : UniqRows T.rows) (x : Bytes) : ∃ r, T.Answer x r := by
  by_cases hrow : ∃ row ∈ T.rows, row.text = x
  · obtain ⟨row, h1, h2⟩ := hrow
    refine ⟨row.whole.map fun p => { pattern := { p with pattern := [] }, values := [] }, ?_, fun h => absurd h2 (h row h1)⟩
    intro row' h1' h2'
    rw [hu row h1 row' h1' (h2.trans h2'.symm)]
  · have hno : ∀ row ∈ T.rows, row.text ≠ x := fun row h1 h2 => hrow ⟨row, h1, h2⟩
    obtain ⟨b, hd⟩ := deepest_exists T.rows x
    by_cases hb : b = []
    · obtain ⟨r, hr⟩ := firstAnswer_exists T.parserLed x
      exact ⟨r, fun row h1 h2 => absurd h2 (hno row h1), fun _ => ⟨b, hd, fun _ => hr, fun h => absurd hb h, fun h => absurd hb h⟩⟩
    · by_cases hm : ∃ row ∈ T.rows, row.text = b ∧ ∃ p, row.more = some p
      · obtain ⟨row, h1, h2, p, h3⟩ := hm
        obtain ⟨r, hr⟩ := firstAnswer_exists [p] x
        refine ⟨r, fun row h1 h2 => absurd h2 (hno row h1), fun _ => ⟨b, hd, fun h => absurd h hb, ?_, ?_⟩⟩
        · intro _ row' h1' h2' p' h3'
          have := hu row h1 row' h1' (h2.trans h2'.symm)
          subst this
          rw [h3] at h3'
          simp at h3'
          exact h3' ▸ hr
        · intro _ h
          rw [h row h1 h2] at h3
          simp at h3
      · refine ⟨none, fun row h1 h2 => absurd h2 (hno row h1), fun _ => ⟨b, hd, fun h => absurd h hb, ?_, fun _ _ => rfl⟩⟩
        intro _ row h1 h2 p h3
        exact absurd ⟨row, h1, h2, p, h3⟩ hm

end Verif
