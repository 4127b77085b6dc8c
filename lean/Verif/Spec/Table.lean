import Verif.Spec.Matching
/-! The answers of the trie matcher described without a trie: a flat table of the texts that patterns begin with. -/
namespace Verif.Spec

/-- What is remembered about a text that patterns begin with. -/
structure Row where
  text : Bytes
  /-- the pattern that consists of `text` alone -/
  whole : Option Pattern
  /-- the pattern that continues after `text` -/
  more : Option Pattern
  deriving DecidableEq

/-- The table: one row for each leading literal, and the patterns that begin with a parser in the order in which their first parsers were
first used. -/
structure Table where
  rows : List Row
  parserLed : List Pattern
  deriving DecidableEq

/-- The row of the text `l`; an empty one if there is none. -/
def rowOf (rows : List Row) (l : Bytes) : Row := (rows.find? fun r => decide (r.text = l)).getD ⟨l, none, none⟩

/-- Some row has a longer text that begins with `l`. -/
def Extended (rows : List Row) (l : Bytes) : Prop := ∃ r ∈ rows, l <+: r.text ∧ r.text ≠ l

instance (rows : List Row) (l : Bytes) : Decidable (Extended rows l) := by unfold Extended; infer_instance

/-- Add a pattern that begins with the literal `l`; `alone` tells whether it has no further tokens. A pattern that is only the literal becomes
the row's `whole`. Any other pattern becomes the row's `more` and removes all rows with longer texts; but if there are rows with longer texts
and the row has no `more` yet, the new pattern is lost and nothing is removed. -/
def addLiteralLed (rows : List Row) (l : Bytes) (alone : Bool) (p : Pattern) : List Row :=
  if alone then { rowOf rows l with whole := some p } :: rows.filter fun r => decide (r.text ≠ l)
  else if (rowOf rows l).more = none ∧ Extended rows l then rowOf rows l :: rows.filter fun r => decide (r.text ≠ l)
  else { rowOf rows l with more := some p } :: rows.filter fun r => decide (¬ l <+: r.text)

/-- Add a pattern that begins with the parser `a`. It replaces the pattern that began with the same parser, except that a pattern consisting of
the parser alone does not replace one with more tokens. -/
def addParserLed (a : Parser) (p : Pattern) : List Pattern → List Pattern
  | [] => [p]
  | q :: qs =>
    if q.pattern.head? = some (.parser a) then
      (if p.pattern = [.parser a] ∧ q.pattern ≠ [.parser a] then q else p) :: qs
    else q :: addParserLed a p qs

/-- Add any pattern. -/
def Table.add (t : Table) (p : Pattern) : Table :=
  match p.pattern with
  | [] => t
  | .literal l :: rest => { t with rows := addLiteralLed t.rows l rest.isEmpty p }
  | .parser a :: _ => { t with parserLed := addParserLed a p t.parserLed }

/-- The table of a history of additions. -/
def Table.of (ps : List Pattern) : Table := ps.foldl Table.add ⟨[], []⟩

/-- `c` is the longest common prefix of `a` and `b`. -/
def CommonStart (a b c : Bytes) : Prop := c <+: a ∧ c <+: b ∧ ∀ c', c' <+: a → c' <+: b → c'.length ≤ c.length

/-- The texts at which the search for a match can stop: the empty text, the texts after which a pattern continues, and those where the
texts of two rows part. -/
def StopPoint (rows : List Row) (b : Bytes) : Prop :=
  b = [] ∨ (∃ r ∈ rows, r.text = b ∧ r.more ≠ none) ∨ ∃ r ∈ rows, ∃ s ∈ rows, r.text ≠ s.text ∧ CommonStart r.text s.text b

/-- The longest stop point that the text `x` begins with. -/
def Deepest (rows : List Row) (x b : Bytes) : Prop :=
  StopPoint rows b ∧ b <+: x ∧ ∀ b', StopPoint rows b' → b' <+: x → b'.length ≤ b.length

/-- `r` is the table's answer for the text `x`. If a row has this text, the answer is its `whole` pattern, if any. Otherwise the longest stop
point that `x` begins with decides: the empty one asks the patterns that begin with a parser, one with a continuing pattern asks this pattern
only, and any other one answers "no match". -/
def Table.Answer (t : Table) (x : Bytes) (r : Option MatchResult) : Prop :=
  (∀ row ∈ t.rows, row.text = x → r = row.whole.map fun p => { pattern := { p with pattern := [] }, values := [] }) ∧
  ((∀ row ∈ t.rows, row.text ≠ x) → ∃ b, Deepest t.rows x b ∧
    (b = [] → FirstAnswer t.parserLed x r) ∧
    (b ≠ [] → ∀ row ∈ t.rows, row.text = b → ∀ p, row.more = some p → FirstAnswer [p] x r) ∧
    (b ≠ [] → (∀ row ∈ t.rows, row.text = b → row.more = none) → r = none))

/-- No literal follows directly after the literal the pattern begins with (true of every pattern the grammar produces). -/
def SplitLiterals (p : Pattern) : Prop := ∀ l rest, p.pattern = .literal l :: rest → ∀ l', rest.head? ≠ some (.literal l')

end Verif.Spec
