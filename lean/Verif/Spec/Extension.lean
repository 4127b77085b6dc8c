import Verif.Spec.Matching
/-! Messages to whose end something is added. -/
namespace Verif.Spec

/-- The part of a message that belongs to the last token of the pattern. -/
def lastPiece (toks : List Token) (caps : List (Parser × Bytes)) : Bytes :=
  match toks.getLast? with
  | none => []
  | some (.literal l) => l
  | some (.parser _) => match caps.getLast? with
    | none => []
    | some c => c.2

/-- Behind the part `w` of a message that belongs to the last token of a pattern, `y` can be added: nothing behind a literal, anything behind a GREEDY,
characters of the set behind a SET or INT as long as there are not too many. -/
def CanGrow : Token → Bytes → Bytes → Prop
  | .literal _, _, y => y = []
  | .parser (.greedy _), _, _ => True
  | .parser (.set p), w, y | .parser (.int p), w, y =>
    (∀ b ∈ y, b ∈ p.characterSet) ∧ ∀ n, p.maxLength = some n → w.length + y.length ≤ n

end Verif.Spec
