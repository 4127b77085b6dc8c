import Verif.Spec.Loader
import Verif.Spec.Panics
import Verif.Spec.SuffixAnswer
import Verif.Spec.SuffixPanics
/-! When a pattern of a file cannot be loaded into a matcher, in terms of the specifications of the answers and panics of the matchers. -/
namespace Verif.Spec

/-- The table of the patterns answers the text of the test message, and the answer is right. -/
def TablePasses (ps : List Pattern) (uuid : Nat) (msg : TestMessage) : Prop :=
  ¬ (Table.of (ps.map loaded)).Panics msg.message ∧ ∃ a, (Table.of (ps.map loaded)).Answer msg.message a ∧ Passes uuid msg a

/-- The pattern cannot be added after the patterns `pre`, or one of its test messages cannot be parsed after it was added, all the ones after it
in the list (they are checked before it) passing. -/
def Unloadable (pre : List Pattern) (p : Pattern) : Prop :=
  (Table.of (pre.map loaded)).AddPanics (loaded p) ∨
  ∃ A msg B, testsOf p = A ++ msg :: B ∧ (∀ x ∈ B, TablePasses (pre ++ [p]) p.uuid x) ∧ (Table.of ((pre ++ [p]).map loaded)).Panics msg.message

/-- The suffix array of the patterns answers the text of the test message, and the answer is right. -/
def SuffixPasses (ps : List Pattern) (uuid : Nat) (msg : TestMessage) : Prop :=
  ¬ SuffixTrouble (ps.map loaded) msg.message ∧ ∃ a, SuffixAnswer (ps.map loaded) msg.message a ∧ Passes uuid msg a

/-- One of the test messages of the pattern cannot be parsed after it was added to a suffix array with the patterns `pre`, all the ones after it in
the list (they are checked before it) passing. -/
def SuffixUnloadable (pre : List Pattern) (p : Pattern) : Prop :=
  ∃ A msg B, testsOf p = A ++ msg :: B ∧ (∀ x ∈ B, SuffixPasses (pre ++ [p]) p.uuid x) ∧ SuffixTrouble ((pre ++ [p]).map loaded) msg.message

end Verif.Spec
