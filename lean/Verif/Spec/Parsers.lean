import Verif.Model.Parsers
/-! Specifications of the three parsers, independent of how the code computes them. -/
namespace Verif.Spec

/-- What `%{SET("set", min_len=mn, max_len=mx)}` matches at the start of `text`: the maximal run `v` of bytes of the set,
if it is non-empty and its length is within the limits. -/
structure SetMatch (set : Bytes) (mn mx : Option Nat) (text v : Bytes) : Prop where
  isPrefix : v <+: text
  nonempty : v ≠ []
  inSet : ∀ b ∈ v, b ∈ set
  maximal : ∀ b rest, text = v ++ b :: rest → b ∉ set
  atLeast : ∀ n, mn = some n → n ≤ v.length
  atMost : ∀ n, mx = some n → v.length ≤ n

/-- ASCII digits -/
def IsDigit (b : UInt8) : Prop := 48 ≤ b.toNat ∧ b.toNat ≤ 57

/-- `v` is the part of `text` before the first occurrence of `e`. -/
def BeforeFirst (e text v : Bytes) : Prop :=
  (∃ r, text = v ++ e ++ r) ∧ ∀ v' r', text = v' ++ e ++ r' → v.length ≤ v'.length

/-- `v` is what the parser `p` may return on `text`. -/
def ParserMatch : Parser → Bytes → Bytes → Prop
  | .set p, text, v => SetMatch p.characterSet p.minLength p.maxLength text v
  | .int p, text, v => SetMatch p.characterSet p.minLength p.maxLength text v
  | .greedy p, text, v =>
    match p.endString with
    | some e => BeforeFirst e text v
    | none => v = text

/-- The SET argument of the parser consists of ASCII characters. -/
def AsciiParser : Parser → Prop
  | .set p => Ascii p.characterSet
  | .int p => Ascii p.characterSet
  | .greedy _ => True

/-- All strings in the parser are valid UTF-8 (as they are in Rust). -/
def Utf8Parser : Parser → Prop
  | .greedy p => ∀ e, p.endString = some e → Utf8 e
  | _ => True

/-- Strictly ascending bytes: the order in which a `BTreeSet<u8>` holds its elements. -/
def StrictlySorted (l : List UInt8) : Prop := l.Pairwise fun x y => x.toNat < y.toNat

/-- Parser values that can exist at run time: UTF-8 strings, ordered sets, 64-bit limits. -/
def RuntimeParser : Parser → Prop
  | .set p | .int p => (∀ n, p.name = some n → Utf8 n) ∧ StrictlySorted p.characterSet ∧
      (∀ n, p.minLength = some n → n < 2 ^ 64) ∧ (∀ n, p.maxLength = some n → n < 2 ^ 64)
  | .greedy p => (∀ n, p.name = some n → Utf8 n) ∧ (∀ n, p.endString = some n → Utf8 n)

end Verif.Spec
