import Verif.Spec.Matching
/-! What it means for values to be separate pieces of a message, independent of the matchers. -/
namespace Verif.Spec

/-- `Pieces x caps`: the values of `caps` stand in the text `x` one after the other, in this order and without overlapping, and each is what
its parser takes from the text that starts where the value starts. There may be other text before, between and after them. -/
inductive Pieces : Bytes → List (Parser × Bytes) → Prop
  | nil (x : Bytes) : Pieces x []
  | cons (gap v rest : Bytes) (a : Parser) (caps : List (Parser × Bytes)) :
      ParserMatch a (v ++ rest) v → Pieces rest caps → Pieces (gap ++ v ++ rest) ((a, v) :: caps)

/-- All values of an answer, taken together, in bytes. -/
def totalLength (m : BMap) : Nat := (m.map fun kv => kv.2.length).sum

end Verif.Spec
