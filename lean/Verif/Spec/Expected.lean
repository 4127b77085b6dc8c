import Verif.Spec.Grammar
/-! What the entries of the `expected` set of a compilation error mean. -/
namespace Verif.Spec

/-- The entries that stand for themselves. -/
def expectedTexts : List Bytes :=
  [b!"%{", b!"GREEDY", b!"SET", b!"INT", b!"(", b!")", b!"}", b!":", b!"\"", b!",", b!" ", b!"min_len", b!"max_len", b!"="]

/-- The entries that stand for a class of characters. -/
def expectedClasses : List Bytes := [b!"<character>", b!"[a-zA-Z_.]", b!"[a-z-A-Z0-9_.]", b!"[-]", b!"[0-9]"]

/-- `Begins m z`: the text `z` begins with what the entry `m` of an `expected` set stands for. -/
inductive Begins : Bytes → Bytes → Prop
  | text (m t : Bytes) : m ∈ expectedTexts → Begins m (m ++ t)
  | character (c : UInt8) (t : Bytes) : Begins b!"<character>" (c :: t)
  | nameStart (c : UInt8) (t : Bytes) : NameStart c → Begins b!"[a-zA-Z_.]" (c :: t)
  | nameChar (c : UInt8) (t : Bytes) : NameChar c → Begins b!"[a-z-A-Z0-9_.]" (c :: t)
  | dash (t : Bytes) : Begins b!"[-]" (45 :: t)
  | digit (c : UInt8) (t : Bytes) : Digit c → Begins b!"[0-9]" (c :: t)

/-- The cases in which an entry `m` is listed after the text `before` although it need not be possible there: the entry for a dash, the entry
for a digit after a digit (the number may become too large), and a quotation mark right after a quotation mark (the set may not be empty). -/
def Unreliable (before m : Bytes) : Prop :=
  m = b!"[-]" ∨ (m = b!"[0-9]" ∧ ∃ a c, before = a ++ [c] ∧ Digit c) ∨ (m = b!"\"" ∧ ∃ a, before = a ++ b!"\"")

end Verif.Spec
