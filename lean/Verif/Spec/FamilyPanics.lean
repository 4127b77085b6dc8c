import Verif.Spec.Family
import Verif.Spec.Panics
/-! When the trie matcher panics for patterns that do not disturb each other, in terms of the patterns. -/
namespace Verif.Spec

/-- Parsing the text `x` runs into trouble. Either `x` begins with a stop `b` and goes on after it, leading literals go on after `b` too, and `x`
or one of these literals goes on with a character outside ASCII. Or no pattern begins with the literal `x`, and the patterns that are asked at the
longest stop `x` begins with run into trouble. -/
def FamilyPanics (ps : List Pattern) (x : Bytes) : Prop :=
  (∃ b y, x = b ++ y ∧ y ≠ [] ∧ FamilyStop ps b ∧ (∃ z, z ≠ [] ∧ Leading ps (b ++ z)) ∧
    (NonAsciiFirst y ∨ ∃ z, Leading ps (b ++ z) ∧ NonAsciiFirst z)) ∨
  (¬ Leading ps x ∧ ∃ b, FamilyStop ps b ∧ b <+: x ∧ (∀ b', FamilyStop ps b' → b' <+: x → b'.length ≤ b.length) ∧
    ((b = [] ∧ FirstPanics (parserLed ps) x) ∨ (b ≠ [] ∧ ∃ p, Continuing ps b p ∧ RunsInto p.pattern x)))

end Verif.Spec
