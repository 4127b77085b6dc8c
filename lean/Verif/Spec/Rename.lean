import Verif.Spec.Matching
/-! Writing patterns and messages with other characters. -/
namespace Verif.Spec
open Verif

/-- `f` exchanges characters for others: different ones for different ones, ASCII ones for ASCII ones, and digits stay as they are. -/
structure Renaming (f : UInt8 → UInt8) : Prop where
  injective : ∀ b c, f b = f c → b = c
  ascii : ∀ b, b.toNat < 128 → (f b).toNat < 128
  digits : ∀ b, IsDigit b → f b = b

/-- The parser with its arguments (the characters of SET, the end string of GREEDY) written with the new characters. -/
def Parser.rename (f : UInt8 → UInt8) : Parser → Parser
  | .set p => .set { p with characterSet := SetParser.createSetFromStr (p.characterSet.map f) }
  | .int p => .int p
  | .greedy p => .greedy { p with endString := p.endString.map fun e => e.map f }

/-- The token written with the new characters. -/
def Token.rename (f : UInt8 → UInt8) : Token → Token
  | .literal l => .literal (l.map f)
  | .parser a => .parser (Parser.rename f a)

/-- The pattern with its literals and the arguments of its parsers written with the new characters; names and everything else stay. -/
def Pattern.rename (f : UInt8 → UInt8) (p : Pattern) : Pattern := { p with pattern := p.pattern.map (Token.rename f) }

/-- The answer with its values written with the new characters. -/
def MatchResult.rename (f : UInt8 → UInt8) (r : MatchResult) : MatchResult := { r with values := r.values.map fun kv => (kv.1, kv.2.map f) }

/-- The sets of the parsers are as the program holds them: SET arguments in order, and INT over digits. -/
def ProperSets (p : Pattern) : Prop :=
  (∀ a, Token.parser (.set a) ∈ p.pattern → StrictlySorted a.characterSet) ∧
  ∀ a, Token.parser (.int a) ∈ p.pattern → ∀ b ∈ a.characterSet, IsDigit b

end Verif.Spec
