import Verif.Model.Pattern
/-! How much a compiled pattern holds. -/
namespace Verif.Spec
open Verif

/-- The bytes in a token: those of the literal, or those of the name, of the character set and of the end string of the parser. -/
def tokenBytes : Token → Nat
  | .literal l => l.length
  | .parser (.set p) => (p.name.getD []).length + p.characterSet.length
  | .parser (.int p) => (p.name.getD []).length + p.characterSet.length
  | .parser (.greedy p) => (p.name.getD []).length + (p.endString.getD []).length

/-- The bytes in the literals of the tokens. -/
def literalBytes (toks : List Token) : Nat := (toks.map fun t => match t with | .literal l => l.length | .parser _ => 0).sum

end Verif.Spec
