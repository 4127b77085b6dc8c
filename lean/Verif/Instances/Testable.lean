import Verif.Instances.Files
import Verif.Props.C137_Testable
/-! Concrete cases for C137. -/
namespace Verif
open Spec
namespace Testable

/-- `%{INT:a}5` never matches: no test message for it can be loaded. -/
def dead : Pattern := Samples.pat 1 [.parser (Samples.int b!"a"), .literal b!"5"]

example : ¬∃ msg t, Utf8 msg.message ∧ fromSource (trieMatcher Samples.sip) [.ok { dead with testMessages := some [msg] }] = .ok (.ok t, []) := by
  rw [C137_exactly Samples.sip b!"%{INT:a}5" (by decide) dead (by decide +kernel)]
  intro h
  exact h.2 [] (.parser (Samples.int b!"a")) (.literal b!"5") [] rfl 53 (by decide) (by decide)

/-- `%{INT:a};` has one. -/
def live : Pattern := Samples.pat 1 [.parser (Samples.int b!"a"), .literal b!";"]

theorem live_satisfiable : Satisfiable live.pattern :=
  (C111_satisfiable Samples.sip b!"%{INT:a};" (by decide) live (by decide +kernel)).mp
    ⟨b!"1;", { pattern := Samples.pat 1 [], values := [(b!"a", b!"1")] }, by decide, by decide +kernel⟩

example : ∃ msg t, Utf8 msg.message ∧ fromSource (trieMatcher Samples.sip) [.ok { live with testMessages := some [msg] }] = .ok (.ok t, []) :=
  (C137_exactly Samples.sip b!"%{INT:a};" (by decide) live (by decide +kernel)).mpr live_satisfiable

/-- A list with a test message for which C137 says something. -/
def tested : List Pattern :=
  [Samples.pat 2 [.literal b!"x"], { live with testMessages := some [{ message := b!"7;", values := [(b!"a", b!"7")], tags := none }] }]

example : Verif.Instances.isMatcher (fromSource (trieMatcher Samples.sip) (tested.map .ok)) = true ∧ NoCollision Samples.sip tested ∧ UuidsTell tested := by decide +kernel

end Testable
end Verif
