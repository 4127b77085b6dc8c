import Verif.Rust.Str
/-! Specification vocabulary on strings as sequences of characters. -/
namespace Verif.Spec

/-- The UTF-8 bytes of a character sequence. -/
def encode (cs : List Char) : Bytes := cs.flatMap String.utf8EncodeChar

/-- The longest common prefix of two sequences. -/
def commonPrefix {α : Type} [DecidableEq α] : List α → List α → List α
  | a :: s, b :: t => if a = b then a :: commonPrefix s t else []
  | _, _ => []

end Verif.Spec
