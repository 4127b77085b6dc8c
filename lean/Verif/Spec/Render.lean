import Verif.Spec.Grammar
/-! Writing token lists as pattern strings, and positions in texts: the specification for the round trip and for error positions. -/
namespace Verif.Spec

/-- A number in decimal notation. -/
def decimal (n : Nat) : Bytes :=
  if n < 10 then [UInt8.ofNat (48 + n)] else decimal (n / 10) ++ [UInt8.ofNat (48 + n % 10)]
termination_by n

/-- `%{` is written `\%\{` in literal text. -/
def escape : Bytes → Bytes
  | 37 :: 123 :: s => 92 :: 37 :: 92 :: 123 :: escape s
  | c :: s => c :: escape s
  | [] => []

/-- `:name` if there is a name -/
def showName : Option Bytes → Bytes
  | none => []
  | some n => b!":" ++ n

/-- The options of a `SET`, each with a comma in front. -/
def showSetOpts (min max : Option Nat) : Bytes :=
  (match min with | none => [] | some n => b!",min_len=" ++ decimal n) ++
  (match max with | none => [] | some n => b!",max_len=" ++ decimal n)

/-- The options of an `INT` in parentheses. -/
def showIntOpts : Option Nat → Option Nat → Bytes
  | none, none => []
  | some n, none => b!"(min_len=" ++ decimal n ++ b!")"
  | none, some m => b!"(max_len=" ++ decimal m ++ b!")"
  | some n, some m => b!"(min_len=" ++ decimal n ++ b!", max_len=" ++ decimal m ++ b!")"

/-- A parser in the documented syntax. -/
def showParser : Parser → Bytes
  | .set p => b!"%{SET(\"" ++ p.characterSet ++ b!"\"" ++ showSetOpts p.minLength p.maxLength ++ b!")" ++ showName p.name ++ b!"}"
  | .int p => b!"%{INT" ++ showIntOpts p.minLength p.maxLength ++ showName p.name ++ b!"}"
  | .greedy p => b!"%{GREEDY" ++ showName p.name ++ b!"}"

/-- A token list in the documented syntax; the literal after a `GREEDY` is its end string and is written as it is. -/
def showTokens : List Token → Bytes
  | [] => []
  | .parser (.greedy g) :: .literal l :: ts => showParser (.greedy g) ++ l ++ showTokens ts
  | .parser a :: ts => showParser a ++ showTokens ts
  | .literal l :: ts => escape l ++ showTokens ts

/-- The optional name is a valid one. -/
def GoodName (name : Option Bytes) : Prop := ∀ n, name = some n → Name n

/-- The optional number fits in 64 bits. -/
def Fits (o : Option Nat) : Prop := ∀ n, o = some n → n < 2 ^ 64

/-- A `SET` or `INT` that can be written down: a `SET` has a non-empty set of ASCII characters other than the quotation mark (listed in
ascending order), an `INT` the digits. -/
def GoodParser : Parser → Prop
  | .set p => GoodName p.name ∧ Fits p.minLength ∧ Fits p.maxLength ∧ p.characterSet ≠ [] ∧
      p.characterSet.Pairwise (fun a b => a.toNat < b.toNat) ∧ 34 ∉ p.characterSet ∧ Ascii p.characterSet
  | .int p => GoodName p.name ∧ Fits p.minLength ∧ Fits p.maxLength ∧ p.characterSet = b!"0123456789"
  | .greedy _ => False

/-- The first token is not a literal. -/
def NoLiteralFirst (ts : List Token) : Prop := ∀ l ts', ts ≠ .literal l :: ts'

/-- The token list is empty or its last token is a `SET` or an `INT`. -/
def EndsClosed (ts : List Token) : Prop := ∀ pre t, ts = pre ++ [t] → ∃ a, t = .parser a ∧ ∀ g, a ≠ .greedy g

/-- Token lists that can be written down. -/
inductive WellFormed : List Token → Prop
  | nil : WellFormed []
  | greedyEnd (n : Option Bytes) (e : Bytes) (ts : List Token) : GoodName n → e ≠ [] → Utf8 e → ¬ b!"%{" <:+: e → WellFormed ts →
      NoLiteralFirst ts → WellFormed (.parser (.greedy { name := n, endString := some e }) :: .literal e :: ts)
  | greedy (n : Option Bytes) (ts : List Token) : GoodName n → WellFormed ts → NoLiteralFirst ts →
      WellFormed (.parser (.greedy { name := n, endString := none }) :: ts)
  | parser (a : Parser) (ts : List Token) : GoodParser a → WellFormed ts → WellFormed (.parser a :: ts)
  | literal (l : Bytes) (ts : List Token) : l ≠ [] → Utf8 l → ¬ b!"\\%\\{" <:+: l → WellFormed ts → NoLiteralFirst ts →
      WellFormed (.literal l :: ts)

/-- All `SET` arguments are ASCII. -/
def AsciiSets (ts : List Token) : Prop := ∀ p, Token.parser (.set p) ∈ ts → Ascii p.characterSet

/-- The number (from 1) of the line the end of the text `a` is on. -/
def lineAfter (a : Bytes) : Nat := 1 + a.count 10

/-- The column (from 1) of the end of the text `a` in its line. -/
def columnAfter (a : Bytes) : Nat := 1 + (a.reverse.takeWhile (· ≠ 10)).length

/-- The text with all its line ends, `\n` or `\r\n`, written as `\n`, and with one more at the end of the last line if it has none; a carriage
return at the very end of the text is not kept either. -/
def normalLines : Bytes → Bytes
  | [] => []
  | [c] => if c = 10 ∨ c = 13 then [10] else [c, 10]
  | c :: d :: rest => if c = 13 ∧ d = 10 then normalLines (d :: rest) else c :: normalLines (d :: rest)

end Verif.Spec
