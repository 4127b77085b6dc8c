import Verif.Model.Pattern
/-! The pattern language as documented in /repo/README.md and /repo/src/grammar/parser/pattern.rustpeg, independent of the generated parser:
which strings are pattern strings and which tokens they stand for. -/
namespace Verif.Spec

/-- A letter, `_` or `.` -/
def NameStart (c : UInt8) : Prop :=
  (97 ≤ c.toNat ∧ c.toNat ≤ 122) ∨ (65 ≤ c.toNat ∧ c.toNat ≤ 90) ∨ c = 95 ∨ c = 46

/-- A decimal digit -/
def Digit (c : UInt8) : Prop := 48 ≤ c.toNat ∧ c.toNat ≤ 57

/-- A letter, `_`, `.`, a digit or `-` -/
def NameChar (c : UInt8) : Prop := NameStart c ∨ Digit c ∨ c = 45

/-- A parser name: starts with a letter, `_` or `.`, goes on with letters, digits, `_`, `.` and `-`, but a `-` may only be the second
character. -/
inductive Name : Bytes → Prop
  | mk (c : UInt8) (t : Bytes) : NameStart c → (∀ x ∈ t, NameChar x) → (∀ x ∈ t.tail, x ≠ 45) → Name (c :: t)

/-- A decimal number: one or more digits. -/
inductive Number : Bytes → Nat → Prop
  | one (c : UInt8) : Digit c → Number [c] (c.toNat - 48)
  | snoc (d : Bytes) (n : Nat) (c : UInt8) : Number d n → Digit c → Number (d ++ [c]) (10 * n + (c.toNat - 48))

/-- A length option. -/
inductive LenOpt where
  | min (n : Nat)
  | max (n : Nat)
  deriving DecidableEq, Repr

/-- `min_len=5` or `max_len=5`; the number fits in 64 bits. -/
inductive OptText : LenOpt → Bytes → Prop
  | min (d : Bytes) (n : Nat) : Number d n → n < 2 ^ 64 → OptText (.min n) (b!"min_len=" ++ d)
  | max (d : Bytes) (n : Nat) : Number d n → n < 2 ^ 64 → OptText (.max n) (b!"max_len=" ++ d)

/-- A comma and any number of spaces. -/
def Comma (c : Bytes) : Prop := ∃ k, c = 44 :: List.replicate k 32

/-- Any number of options, each with a comma in front. -/
inductive OptTail : List LenOpt → Bytes → Prop
  | nil : OptTail [] []
  | cons (o : LenOpt) (os : List LenOpt) (c w t : Bytes) : Comma c → OptText o w → OptTail os t → OptTail (o :: os) (c ++ w ++ t)

/-- Zero or more options separated by commas. -/
inductive OptList : List LenOpt → Bytes → Prop
  | nil : OptList [] []
  | cons (o : LenOpt) (os : List LenOpt) (w t : Bytes) : OptText o w → OptTail os t → OptList (o :: os) (w ++ t)

/-- What may follow `INT`: nothing or the options in parentheses. -/
inductive IntOpts : List LenOpt → Bytes → Prop
  | absent : IntOpts [] []
  | present (os : List LenOpt) (t : Bytes) : OptList os t → IntOpts os (b!"(" ++ t ++ b!")")

/-- What may follow the characters of `SET`: nothing, or a comma and the options. -/
inductive SetOpts : List LenOpt → Bytes → Prop
  | absent : SetOpts [] []
  | present (os : List LenOpt) (c t : Bytes) : Comma c → OptList os t → SetOpts os (c ++ t)

/-- No name, or `:name` -/
inductive NameText : Option Bytes → Bytes → Prop
  | none : NameText none []
  | some (n : Bytes) : Name n → NameText (some n) (b!":" ++ n)

/-- The elements of a pattern string. -/
inductive Elem where
  | literal (raw : Bytes)
  | int (opts : List LenOpt) (name : Option Bytes)
  | set (chars : Bytes) (opts : List LenOpt) (name : Option Bytes)
  | greedy (name : Option Bytes)
  deriving DecidableEq, Repr

/-- How an element is written. -/
inductive ElemText : Elem → Bytes → Prop
  | literal (raw : Bytes) : raw ≠ [] → ¬ b!"%{" <:+: raw → ElemText (.literal raw) raw
  | int (os : List LenOpt) (n : Option Bytes) (w x : Bytes) : IntOpts os w → NameText n x →
      ElemText (.int os n) (b!"%{INT" ++ w ++ x ++ b!"}")
  | set (cs : Bytes) (os : List LenOpt) (n : Option Bytes) (w x : Bytes) : cs ≠ [] → 34 ∉ cs → SetOpts os w → NameText n x →
      ElemText (.set cs os n) (b!"%{SET(\"" ++ cs ++ b!"\"" ++ w ++ b!")" ++ x ++ b!"}")
  | greedy (n : Option Bytes) (x : Bytes) : NameText n x → ElemText (.greedy n) (b!"%{GREEDY" ++ x ++ b!"}")

/-- The element is literal text. -/
def Elem.isLiteral : Elem → Bool
  | .literal _ => true
  | _ => false

/-- The list starts with literal text. -/
def startsLiteral (es : List Elem) : Bool := (es.head?.map Elem.isLiteral).getD false

/-- `Written es s`: the string `s` is the elements `es` one after the other, where literal text is not split into adjacent literals. -/
inductive Written : List Elem → Bytes → Prop
  | nil : Written [] []
  | cons (e : Elem) (es : List Elem) (w s : Bytes) : ElemText e w → Written es s → (e.isLiteral = true → startsLiteral es = false) →
      Written (e :: es) (w ++ s)

/-- Every `\%\{` stands for `%{`. -/
def unescape : Bytes → Bytes
  | 92 :: 37 :: 92 :: 123 :: s => 37 :: 123 :: unescape s
  | c :: s => c :: unescape s
  | [] => []

/-- The value of the last `min_len` option. -/
def lastMin (os : List LenOpt) : Option Nat :=
  os.reverse.findSome? fun o => match o with | .min n => some n | .max _ => none

/-- The value of the last `max_len` option. -/
def lastMax (os : List LenOpt) : Option Nat :=
  os.reverse.findSome? fun o => match o with | .max n => some n | .min _ => none

/-- The parser an `INT` element stands for. -/
def intParser (os : List LenOpt) (name : Option Bytes) : Parser :=
  .int { name, characterSet := b!"0123456789", minLength := lastMin os, maxLength := lastMax os }

/-- The parser a `SET` element stands for (its character set is the set of the bytes of the argument). -/
def setParser (cs : Bytes) (os : List LenOpt) (name : Option Bytes) : Parser :=
  .set { name, characterSet := bsetFromIter cs, minLength := lastMin os, maxLength := lastMax os }

/-- The tokens a pattern string stands for.  Literal text right after a `GREEDY` is its end string and is taken as it is; in other literal text
`\%\{` stands for `%{`. -/
def tokens : List Elem → List Token
  | [] => []
  | .greedy n :: .literal raw :: es => .parser (.greedy { name := n, endString := some raw }) :: .literal raw :: tokens es
  | .greedy n :: es => .parser (.greedy { name := n, endString := none }) :: tokens es
  | .literal raw :: es => .literal (unescape raw) :: tokens es
  | .int os n :: es => .parser (intParser os n) :: tokens es
  | .set cs os n :: es => .parser (setParser cs os n) :: tokens es

/-- `s` is a pattern string that stands for the tokens `toks`. -/
def PatternString (s : Bytes) (toks : List Token) : Prop := ∃ es, es ≠ [] ∧ Written es s ∧ tokens es = toks

/-! ### Number overflow -/

/-- The text starts with a length option whose number does not fit in 64 bits. -/
def OverflowOpt (s : Bytes) : Prop :=
  ∃ d n t, Number d n ∧ 2 ^ 64 ≤ n ∧ (∀ c t', t = c :: t' → ¬Digit c) ∧ (s = b!"min_len=" ++ d ++ t ∨ s = b!"max_len=" ++ d ++ t)

/-- The text starts with a list of options one of which overflows. -/
inductive OverflowList : Bytes → Prop
  | first (s : Bytes) : OverflowOpt s → OverflowList s
  | later (o : LenOpt) (os : List LenOpt) (w t c s : Bytes) : OptText o w → OptTail os t → Comma c → OverflowOpt s →
      OverflowList (w ++ t ++ c ++ s)

/-- The string has a well-formed beginning followed by an `INT` or `SET` with an overflowing option. -/
inductive Overflow : Bytes → Prop
  | int (es : List Elem) (a s : Bytes) : Written es a → OverflowList s → Overflow (a ++ b!"%{INT(" ++ s)
  | set (es : List Elem) (a cs c s : Bytes) : Written es a → cs ≠ [] → 34 ∉ cs → Comma c → OverflowList s →
      Overflow (a ++ b!"%{SET(\"" ++ cs ++ b!"\"" ++ c ++ s)

end Verif.Spec
