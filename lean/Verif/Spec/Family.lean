import Verif.Spec.Table
/-! Lists of patterns whose additions do not disturb each other, and the answers of the trie matcher for them, in terms of the patterns. -/
namespace Verif.Spec

/-- No addition removes or drops a pattern: a later pattern that begins with the same literal as an earlier one is the literal alone where the
other one has more tokens, or the other way round; a later pattern with more tokens does not begin with a shorter text of what an earlier one
begins with; and no two patterns begin with the same parser. -/
def Undisturbed (ps : List Pattern) : Prop :=
  ps.Pairwise fun p q =>
    (∀ l rest l' rest', p.pattern = .literal l :: rest → q.pattern = .literal l' :: rest' →
      (l' = l → (rest = [] ↔ rest' ≠ [])) ∧ (rest' ≠ [] → l' <+: l → l' = l)) ∧
    ∀ a rest b rest', p.pattern = .parser a :: rest → q.pattern = .parser b :: rest' → a ≠ b

/-- `p` is a pattern of the list that consists of the literal `l`. -/
def Alone (ps : List Pattern) (l : Bytes) (p : Pattern) : Prop := p ∈ ps ∧ p.pattern = [.literal l]

/-- `p` is a pattern of the list that begins with the literal `l` and goes on. -/
def Continuing (ps : List Pattern) (l : Bytes) (p : Pattern) : Prop := p ∈ ps ∧ ∃ rest, rest ≠ [] ∧ p.pattern = .literal l :: rest

/-- Some pattern of the list begins with the literal `l`. -/
def Leading (ps : List Pattern) (l : Bytes) : Prop := ∃ p ∈ ps, ∃ rest, p.pattern = .literal l :: rest

/-- The patterns that begin with a parser. -/
def parserLed (ps : List Pattern) : List Pattern :=
  ps.filter fun p => match p.pattern with | .parser _ :: _ => true | _ => false

/-- The search can stop at the empty text, at the leading literals after which a pattern goes on, and where two leading literals part. -/
def FamilyStop (ps : List Pattern) (b : Bytes) : Prop :=
  b = [] ∨ (∃ p, Continuing ps b p) ∨ ∃ l l', Leading ps l ∧ Leading ps l' ∧ l ≠ l' ∧ CommonStart l l' b

/-- `r` is the answer for the text `x`. A text that some pattern begins with is answered by the pattern that is this literal alone, if any. For
any other text the longest stop the text begins with decides: the empty one asks the patterns that begin with a parser in the order of the
list, a leading literal after which a pattern goes on asks this pattern only, any other stop answers "no match". -/
def FamilyAnswer (ps : List Pattern) (x : Bytes) (r : Option MatchResult) : Prop :=
  (∀ p, Alone ps x p → r = some { pattern := { p with pattern := [] }, values := [] }) ∧
  (Leading ps x → (∀ p, ¬ Alone ps x p) → r = none) ∧
  (¬ Leading ps x → ∃ b, FamilyStop ps b ∧ b <+: x ∧ (∀ b', FamilyStop ps b' → b' <+: x → b'.length ≤ b.length) ∧
    (b = [] → FirstAnswer (parserLed ps) x r) ∧
    (b ≠ [] → ∀ p, Continuing ps b p → FirstAnswer [p] x r) ∧
    (b ≠ [] → (∀ p, ¬ Continuing ps b p) → r = none))

end Verif.Spec
