import Verif.Spec.Loader
/-! Patterns that differ in their test messages. -/
namespace Verif.Spec
open Verif

/-- `q` is `p` with other test messages; both have a list of test messages (which may be empty) or neither has. -/
def OtherMessages (p q : Pattern) : Prop := q = { p with testMessages := q.testMessages } ∧ q.testMessages.isSome = p.testMessages.isSome

end Verif.Spec
