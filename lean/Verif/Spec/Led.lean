import Verif.Model.Pattern
/-! How a pattern begins. -/
namespace Verif.Spec
open Verif

/-- The pattern begins with a parser. -/
def startsWithParser (p : Pattern) : Bool := match p.pattern with | .parser _ :: _ => true | _ => false

/-- The pattern begins with a literal. -/
def startsWithLiteral (p : Pattern) : Bool := match p.pattern with | .literal _ :: _ => true | _ => false

end Verif.Spec
