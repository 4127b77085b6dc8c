import Verif.Model.Pattern
import Verif.Spec.Parsers
/-! What it means for a pattern to match a text, independent of the matchers. -/
namespace Verif.Spec

/-- `Matches toks x caps`: the text `x` is the concatenation of the literals of `toks` and of the values `caps` of its parsers, each value
being what the parser takes from the text that is left at its position. -/
inductive Matches : List Token → Bytes → List (Parser × Bytes) → Prop
  | nil : Matches [] [] []
  | literal (l : Bytes) (toks : List Token) (x : Bytes) (caps : List (Parser × Bytes)) :
      Matches toks x caps → Matches (.literal l :: toks) (l ++ x) caps
  | parser (a : Parser) (toks : List Token) (v x : Bytes) (caps : List (Parser × Bytes)) :
      ParserMatch a (v ++ x) v → Matches toks x caps → Matches (.parser a :: toks) (v ++ x) ((a, v) :: caps)

/-- As `Matches`, and additionally the text does not end right after a literal that still has tokens following it. -/
inductive MatchesStrict : List Token → Bytes → List (Parser × Bytes) → Prop
  | nil : MatchesStrict [] [] []
  | literal (l : Bytes) (toks : List Token) (x : Bytes) (caps : List (Parser × Bytes)) :
      (toks ≠ [] → x ≠ []) → MatchesStrict toks x caps → MatchesStrict (.literal l :: toks) (l ++ x) caps
  | parser (a : Parser) (toks : List Token) (v x : Bytes) (caps : List (Parser × Bytes)) :
      ParserMatch a (v ++ x) v → MatchesStrict toks x caps → MatchesStrict (.parser a :: toks) (v ++ x) ((a, v) :: caps)

/-- The name a parser was given in the pattern, if it was given one. -/
def nameOf : Parser → Option Bytes
  | .set p => p.name
  | .int p => p.name
  | .greedy p => p.name

/-- The value of the first (leftmost) capture named `k`. -/
def capture (caps : List (Parser × Bytes)) (k : Bytes) : Option Bytes :=
  (caps.find? fun c => decide (nameOf c.1 = some k)).map (·.2)

/-- The keys of a map are strictly ascending in the lexicographic order of their bytes (hence there are no duplicates). -/
def OrderedMap (m : BMap) : Prop := (m.map Prod.fst).Pairwise (List.Lex fun x y : UInt8 => x.toNat < y.toNat)

/-- The map holds exactly the named captures, the first occurrence of a name winning. -/
def HasCaptures (values : BMap) (caps : List (Parser × Bytes)) : Prop :=
  OrderedMap values ∧ ∀ k v, (k, v) ∈ values ↔ capture caps k = some v

/-- `r` is a result for the pattern `p` with the captures `caps`: it carries the pattern's metadata (its token list has been
consumed) and the captured values. -/
def IsResult (r : MatchResult) (p : Pattern) (caps : List (Parser × Bytes)) : Prop :=
  r.pattern = { p with pattern := [] } ∧ HasCaptures r.values caps

/-- Every literal of the pattern is valid UTF-8, as every Rust string is. -/
def Utf8Lits (p : Pattern) : Prop := ∀ l, Token.literal l ∈ p.pattern → Utf8 l

/-- Every literal of the pattern is ASCII. -/
def AsciiLits (p : Pattern) : Prop := ∀ l, Token.literal l ∈ p.pattern → Ascii l

/-- No two different parsers that start a pattern of the list have the same hash. -/
def NoCollision (sip : Bytes → UInt64) (ps : List Pattern) : Prop :=
  ∀ a b, (∃ p ∈ ps, p.pattern.head? = some (.parser a)) → (∃ p ∈ ps, p.pattern.head? = some (.parser b)) →
    a.hashOs sip = b.hashOs sip → a = b

/-- No literal of the pattern is empty (true of every pattern the grammar produces). -/
def NonemptyLits (p : Pattern) : Prop := ∀ l, Token.literal l ∈ p.pattern → l ≠ []

/-- All patterns start with literals none of which is a prefix of another. -/
def Incomparable (ps : List Pattern) : Prop :=
  (∀ p ∈ ps, ∃ l rest, p.pattern = .literal l :: rest) ∧
  ps.Pairwise fun p q => ∀ l rest l' rest', p.pattern = .literal l :: rest → q.pattern = .literal l' :: rest' → ¬ l <+: l' ∧ ¬ l' <+: l

/-- All patterns start with parsers, no two with the same one. -/
def DistinctParserLed (ps : List Pattern) : Prop :=
  (∀ p ∈ ps, ∃ a rest, p.pattern = .parser a :: rest) ∧
  ps.Pairwise fun p q => ∀ a rest b rest', p.pattern = .parser a :: rest → q.pattern = .parser b :: rest' → a ≠ b

/-- The answer is that of the first pattern of the list that matches. -/
def FirstAnswer (ps : List Pattern) (x : Bytes) (r : Option MatchResult) : Prop :=
  (∀ A p B caps, ps = A ++ p :: B → (∀ a ∈ A, ¬∃ caps, MatchesStrict a.pattern x caps) → MatchesStrict p.pattern x caps →
    ∃ res, r = some res ∧ IsResult res p caps) ∧
  ((∀ p ∈ ps, ¬∃ caps, MatchesStrict p.pattern x caps) → r = none)

/-- `c` is the longest common prefix of `a` and `b` that consists of whole characters. -/
def LongestCommonPrefix (a b c : Bytes) : Prop :=
  Utf8 c ∧ c <+: a ∧ c <+: b ∧ ∀ c', Utf8 c' → c' <+: a → c' <+: b → c'.length ≤ c.length

/-- A weaker relation than `MatchesStrict`, needed to say what the suffix-array matcher does: a literal that is the last token accepts every
prefix of itself, and any other literal consumes only what it has in common with the text, which must not be the whole text. -/
inductive LooseMatches : List Token → Bytes → List (Parser × Bytes) → Prop
  | nil : LooseMatches [] [] []
  | last (l x : Bytes) : x <+: l → LooseMatches [.literal l] x []
  | literal (l c y : Bytes) (toks : List Token) (caps : List (Parser × Bytes)) :
      toks ≠ [] → LongestCommonPrefix l (c ++ y) c → y ≠ [] → LooseMatches toks y caps → LooseMatches (.literal l :: toks) (c ++ y) caps
  | parser (a : Parser) (toks : List Token) (v y : Bytes) (caps : List (Parser × Bytes)) :
      ParserMatch a (v ++ y) v → LooseMatches toks y caps → LooseMatches (.parser a :: toks) (v ++ y) ((a, v) :: caps)

end Verif.Spec
