import Verif.Instances.Files
import Verif.Props.C139_Messages
/-! Concrete cases for C139. -/
namespace Verif
open Spec
namespace Messages

def int : Pattern := Samples.pat 1 [.literal b!"n=", .parser (Samples.int b!"a")]
def msg (text value : Bytes) : TestMessage := { message := text, values := [(b!"a", value)], tags := none }

/-- Two test messages, and only one of them, twice. -/
def both : Pattern := { int with testMessages := some [msg b!"n=7" b!"7", msg b!"n=42" b!"42"] }
def fewer : Pattern := { int with testMessages := some [msg b!"n=42" b!"42", msg b!"n=42" b!"42"] }

def pairs : List (Pattern × Pattern) := [(Samples.pat 2 [.literal b!"x"], Samples.pat 2 [.literal b!"x"]), (both, fewer)]

example : ∀ c ∈ pairs, OtherMessages c.1 c.2 := by
  intro c hc
  simp only [pairs, List.mem_cons, List.not_mem_nil, or_false] at hc
  rcases hc with rfl | rfl <;> exact ⟨by decide +kernel, by decide +kernel⟩

example : ∀ c ∈ pairs, ∀ m ∈ testsOf c.2, m ∈ testsOf c.1 := by decide +kernel

example : Verif.Instances.isMatcher (fromSource (trieMatcher Samples.sip) (pairs.map fun c => .ok c.1)) = true := by decide +kernel
example : Verif.Instances.isMatcher (fromSource (suffixArrayMatcher Samples.sip) (pairs.map fun c => .ok c.1)) = true := by decide +kernel

/-- A further message can make the load fail, and the order of two bad ones decides which error is reported. -/
def bad1 : Pattern := { int with testMessages := some [msg b!"n=7" b!"8", msg b!"m" b!"42"] }
def bad2 : Pattern := { int with testMessages := some [msg b!"m" b!"42", msg b!"n=7" b!"8"] }

def errorOf {T : Type} : M (Except BuildError T × List BuildResult) → Option BuildError
  | .ok (.error e, _) => some e
  | _ => none

example : errorOf (fromSource (trieMatcher Samples.sip) [.ok bad1]) = some (.testMessage (.testMessageDoesntMatch 1 b!"m")) := by decide +kernel
example : errorOf (fromSource (trieMatcher Samples.sip) [.ok bad2]) = some (.testMessage (.valueNotMatch 1 b!"a" b!"8" b!"7")) := by decide +kernel

end Messages
end Verif
