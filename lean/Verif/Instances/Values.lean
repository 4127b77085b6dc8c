import Verif.Instances.Files
import Verif.Props.C138_Values
/-! Concrete cases for C138. -/
namespace Verif
open Spec
namespace Values

def tok : List Token := [.literal b!"né ", .parser (Samples.int b!"a"), .literal b!";"]
/-- The same pattern with different neighbours. -/
def one : List Pattern := [Samples.pat 1 tok, Samples.pat 2 [.literal b!"x"]]
def two : List Pattern := [Samples.pat 3 [.literal b!"né", .parser (Samples.int b!"b")], Samples.pat 1 tok]

example : NoCollision Samples.sip one ∧ NoCollision Samples.sip two ∧ UuidsTell (one ++ two) := by decide +kernel

example : (SuffixTree.build Samples.sip one >>= (·.parse b!"né 42;")) = .ok (some { pattern := Samples.pat 1 [], values := [(b!"a", b!"42")] }) := by
  decide +kernel
example : (SuffixTree.build Samples.sip two >>= (·.parse b!"né 42;")) = .ok (some { pattern := Samples.pat 1 [], values := [(b!"a", b!"42")] }) := by
  decide +kernel
example : (SuffixTable.build Samples.sip one >>= (·.parse b!"né 42;")) = .ok (some { pattern := Samples.pat 1 [], values := [(b!"a", b!"42")] }) := by
  decide +kernel

/-- Without `UuidsTell` the values can differ. -/
def clash : List Pattern := [Samples.pat 1 [.literal b!"né ", .parser (Samples.int b!"z"), .literal b!";"]]

example : ¬UuidsTell (one ++ clash) := by decide +kernel
example : (SuffixTree.build Samples.sip clash >>= (·.parse b!"né 42;")) = .ok (some { pattern := Samples.pat 1 [], values := [(b!"z", b!"42")] }) := by
  decide +kernel

end Values
end Verif
