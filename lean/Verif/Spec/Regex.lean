import Verif.Spec.Matching
/-! The regular expression a pattern stands for. -/
namespace Verif.Spec

/-- The pieces of such regular expressions: a text, `[set]{lo,hi}` and `.*`. -/
inductive Regexp
  | text (l : Bytes)
  | chars (set : Bytes) (lo : Nat) (hi : Option Nat)
  | anything

/-- The texts of a piece. -/
def Regexp.Accepts : Regexp → Bytes → Prop
  | .text l, v => v = l
  | .chars set lo hi, v => (∀ b ∈ v, b ∈ set) ∧ lo ≤ v.length ∧ ∀ n, hi = some n → v.length ≤ n
  | .anything, _ => True

/-- The piece for a token.  README: `%{SET("abcd",min_len=1,max_len=2)}` is identical to `[abcd]{1,2}`, INT is the SET of the digits and GREEDY fills
gaps.  A SET or INT takes at least one character. -/
def regexOf : Token → Regexp
  | .literal l => .text l
  | .parser (.set p) | .parser (.int p) => .chars p.characterSet (max 1 (p.minLength.getD 1)) p.maxLength
  | .parser (.greedy _) => .anything

/-- The regular expression for the tokens matches the whole of `x`, with the groups `caps`: `x` can be divided, in some way or other, into texts of the
pieces. -/
inductive RegexReads : List Token → Bytes → List (Parser × Bytes) → Prop
  | nil : RegexReads [] [] []
  | literal (l v : Bytes) (toks : List Token) (x : Bytes) (caps : List (Parser × Bytes)) :
      (regexOf (.literal l)).Accepts v → RegexReads toks x caps → RegexReads (.literal l :: toks) (v ++ x) caps
  | parser (a : Parser) (v : Bytes) (toks : List Token) (x : Bytes) (caps : List (Parser × Bytes)) :
      (regexOf (.parser a)).Accepts v → RegexReads toks x caps → RegexReads (.parser a :: toks) (v ++ x) ((a, v) :: caps)

/-- It is clear where the text of the first token ends: what follows a SET or INT begins with a character that is not in its set, and a GREEDY is not
followed by another parser. -/
def Apart : Token → Token → Prop
  | .literal _, _ => True
  | .parser (.greedy _), b => ∃ e, b = .literal e
  | .parser (.set p), b | .parser (.int p), b =>
    match b with
    | .literal l => ∀ c ∈ l.head?, c ∉ p.characterSet
    | .parser (.set q) | .parser (.int q) => ∀ c ∈ q.characterSet, c ∉ p.characterSet
    | .parser (.greedy _) => False

def AllApart (toks : List Token) : Prop := ∀ before a b after, toks = before ++ a :: b :: after → Apart a b

/-- The text `e` does not occur at two places of `x`. -/
def OnlyOnce (e x : Bytes) : Prop := ∀ u v u' v', x = u ++ e ++ v → x = u' ++ e ++ v' → u = u'

/-- The literals behind GREEDY parsers do not occur at two places of `x`. -/
def EndsOnce (toks : List Token) (x : Bytes) : Prop :=
  ∀ before g e after, toks = before ++ .parser (.greedy g) :: .literal e :: after → OnlyOnce e x

/-- A GREEDY is the last token, if there is one. -/
def GreedyLast (toks : List Token) : Prop := ∀ before g after, toks = before ++ .parser (.greedy g) :: after → after = []

end Verif.Spec
