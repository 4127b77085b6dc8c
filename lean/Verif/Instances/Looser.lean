import Verif.Props.C131_Looser
import Verif.Instances.Basic
/-! C131, applied to concrete patterns. -/
namespace Verif.Instances.Looser
open Verif Spec

/-- The text `1` is answered by `%{INT(max_len=1):a}`, with and without the limit. -/
example : ∃ m', (some ⟨Samples.pat 1 [], [(b!"a", b!"1")]⟩ : Option MatchResult) = some m' ∧
    KeptOrOvertaken MatchesStrict noLimitsPattern Loose.sample b!"1" ⟨Samples.pat 1 [], [(b!"a", b!"1")]⟩ m' :=
  C131_trie Samples.sip Loose.sample Loose.sample_proper noLimits noLimitsPattern noLimits_loosens Loose.sample_apart Loose.sample_hashes b!"1"
    (ascii_utf8 (by decide)) _ (by decide +kernel) _ (by decide +kernel)

example : ∃ m', (some ⟨Samples.pat 1 [], [(b!"a", b!"12")]⟩ : Option MatchResult) = some m' ∧
    KeptOrOvertaken MatchesStrict noLimitsPattern Loose.sample b!"12" ⟨Samples.pat 2 [], [(b!"b", b!"12")]⟩ m' :=
  C131_trie Samples.sip Loose.sample Loose.sample_proper noLimits noLimitsPattern noLimits_loosens Loose.sample_apart Loose.sample_hashes b!"12"
    (ascii_utf8 (by decide)) _ (by decide +kernel) _ (by decide +kernel)

example : ∃ m', (some ⟨Samples.pat 1 [], [(b!"a", b!"12")]⟩ : Option MatchResult) = some m' ∧
    KeptOrOvertaken LooseMatches noLimitsPattern Loose.sample b!"12" ⟨Samples.pat 2 [], [(b!"b", b!"12")]⟩ m' :=
  C131_suffix Samples.sip Loose.sample Loose.sample_proper.utf8 Loose.sample_proper.hashes noLimits noLimitsPattern noLimits_loosens Loose.sample_apart
    Loose.sample_hashes b!"12" (ascii_utf8 (by decide)) _ (by decide +kernel) _ (by decide +kernel)

example : ∃ m', (SuffixTree.build Samples.sip (Loose.sample.map noLimitsPattern) >>= fun t => t.parse b!"12") = .ok (some m') ∧
    KeptOrOvertaken MatchesStrict noLimitsPattern Loose.sample b!"12" ⟨Samples.pat 2 [], [(b!"b", b!"12")]⟩ m' :=
  C131_ascii Samples.sip Loose.sample Loose.sample_proper (by
    intro p hp l hl
    simp [Loose.sample] at hp
    rcases hp with rfl | rfl <;> simp [Samples.pat] at hl) noLimits noLimitsPattern noLimits_loosens Loose.sample_apart Loose.sample_hashes b!"12"
    (by decide) _ (by decide +kernel)

/-- `user %{INT(max_len=1):a} in`. -/
def user : Pattern := Samples.pat 3 [.literal b!"user ", .parser Loose.digit, .literal b!" in"]

theorem user_proper : Proper Samples.sip [user] := by
  refine ⟨?_, ?_, ?_, ?_⟩
  · intro p hp l hl
    simp at hp
    subst hp
    simp [user, Samples.pat] at hl
    rcases hl with rfl | rfl <;> exact ascii_utf8 (by decide)
  · intro p hp l hl
    simp at hp
    subst hp
    simp [user, Samples.pat] at hl
    rcases hl with rfl | rfl <;> decide
  · intro p hp l rest e l'
    simp at hp
    subst hp
    simp [user, Samples.pat] at e
    simp [← e.2]
  · rintro a b ⟨p, hp, ha⟩
    simp at hp
    subst hp
    simp [user, Samples.pat] at ha

example (r : Option MatchResult) (hr : (SuffixTree.build Samples.sip [noLimitsPattern user] >>= fun t => t.parse b!"user 7 in") = .ok r) :
    r = some { pattern := { noLimitsPattern user with pattern := [] }, values := [(b!"a", b!"7")] } :=
  C131_one Samples.sip user user_proper noLimits noLimitsPattern noLimits_loosens b!"user 7 in" (ascii_utf8 (by decide))
    ⟨Samples.pat 3 [], [(b!"a", b!"7")]⟩ (by decide +kernel) r hr

/-- `INT(max_len=1)` and `INT`; not the other way round. -/
example : ∀ text v, Utf8 text → Loose.digit.parse text = .ok (some v) → (noLimits Loose.digit).parse text = .ok (some v) :=
  (C131_exactly (.inr rfl) (.inr rfl) (by decide) (by decide)).mpr (.inl (noLimits_loosens.looser Loose.digit))

example : ¬ Looser (noLimits Loose.digit) Loose.digit := by
  intro h
  have := (C131_exactly (a := noLimits Loose.digit) (b := Loose.digit) (.inr rfl) (.inr rfl) (by decide) (by decide)).mpr (.inl h) b!"12" b!"12"
    (ascii_utf8 (by decide)) (by decide +kernel)
  exact absurd this (by decide +kernel)

end Verif.Instances.Looser
