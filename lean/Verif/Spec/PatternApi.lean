import Verif.Model.PatternApi
/-! Counting calls on a pattern. -/
namespace Verif.Spec

/-- the number of calls that take a token -/
def tokenPops : List PatternCall → Nat
  | [] => 0
  | .popFirstToken :: l => tokenPops l + 1
  | _ :: l => tokenPops l

/-- the number of calls that take a test message -/
def messagePops : List PatternCall → Nat
  | [] => 0
  | .popTestMessage :: l => messagePops l + 1
  | _ :: l => messagePops l

/-- no call sets the tokens -/
def NoSet (l : List PatternCall) : Prop := ∀ c ∈ l, ∀ ts, c ≠ .setPattern ts

end Verif.Spec
