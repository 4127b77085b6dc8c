import Verif.Spec.Table
/-! When the trie matcher panics, described without a trie. -/
namespace Verif.Spec

/-- The text begins with a character outside ASCII. -/
def NonAsciiFirst (x : Bytes) : Prop := ∃ b t, x = b :: t ∧ 128 ≤ b.toNat

/-- Matching the tokens from left to right runs into trouble: a literal is compared with a text and one of them begins with a character outside
ASCII, or the value of a parser ends inside a character. -/
inductive RunsInto : List Token → Bytes → Prop
  | here (l : Bytes) (toks : List Token) (x : Bytes) : x ≠ [] → NonAsciiFirst x ∨ NonAsciiFirst l → RunsInto (.literal l :: toks) x
  | cut (a : Parser) (toks : List Token) (v x : Bytes) : ParserMatch a x v → ¬ Utf8 v → RunsInto (.parser a :: toks) x
  | literal (l : Bytes) (toks : List Token) (x : Bytes) : RunsInto toks x → RunsInto (.literal l :: toks) (l ++ x)
  | parser (a : Parser) (toks : List Token) (v x : Bytes) :
      ParserMatch a (v ++ x) v → RunsInto toks x → RunsInto (.parser a :: toks) (v ++ x)

/-- Trying the patterns in turn, one of them runs into trouble before any has matched. -/
def FirstPanics (ps : List Pattern) (x : Bytes) : Prop :=
  ∃ A p B, ps = A ++ p :: B ∧ (∀ a ∈ A, ¬RunsInto a.pattern x ∧ ¬∃ caps, MatchesStrict a.pattern x caps) ∧ RunsInto p.pattern x

/-- Looking up the text `x` runs into trouble: `x` begins with a stop point `b` and goes on after it, there are row texts that go on after `b` too,
and `x` or one of these texts goes on with a character outside ASCII. -/
def LookupPanics (rows : List Row) (x : Bytes) : Prop :=
  ∃ b y, x = b ++ y ∧ y ≠ [] ∧ StopPoint rows b ∧ Extended rows b ∧
    (NonAsciiFirst y ∨ ∃ r ∈ rows, ∃ z, r.text = b ++ z ∧ NonAsciiFirst z)

/-- Asking the table for the text `x` runs into trouble: looking it up does, or no row has this text and the patterns that are asked after the
longest stop point that `x` begins with run into trouble. -/
def Table.Panics (t : Table) (x : Bytes) : Prop :=
  LookupPanics t.rows x ∨ ((∀ row ∈ t.rows, row.text ≠ x) ∧ ∃ b, Deepest t.rows x b ∧
    ((b = [] ∧ FirstPanics t.parserLed x) ∨
     (b ≠ [] ∧ ∃ row ∈ t.rows, row.text = b ∧ ∃ p, row.more = some p ∧ RunsInto p.pattern x)))

/-- `c` is the longest common prefix of `a` and `b` that consists of whole characters. -/
def CommonChars (a b c : Bytes) : Prop :=
  Utf8 c ∧ c <+: a ∧ c <+: b ∧ ∀ c', Utf8 c' → c' <+: a → c' <+: b → c'.length ≤ c.length

/-- A new stop point is needed for the text `l` and cannot be made: after its common characters with the text of a row, which are not a stop point
yet, `l` goes on, and `l` or the row's text goes on with a character outside ASCII. -/
def SplitPanics (rows : List Row) (l : Bytes) : Prop :=
  ∃ r ∈ rows, ∃ b y, l = b ++ y ∧ y ≠ [] ∧ CommonChars r.text l b ∧ ¬StopPoint rows b ∧
    (NonAsciiFirst y ∨ ∃ z, r.text = b ++ z ∧ NonAsciiFirst z)

/-- Adding the pattern to the table runs into trouble: it begins with a literal, and looking the literal up does or a new stop point cannot be made
for it. -/
def Table.AddPanics (t : Table) (p : Pattern) : Prop :=
  ∃ l rest, p.pattern = .literal l :: rest ∧ (LookupPanics t.rows l ∨ SplitPanics t.rows l)

end Verif.Spec
