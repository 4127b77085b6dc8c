import Verif.Spec.PatternDbXml
/-! Which patterns a patterndb offers for matching. -/
namespace Verif.Spec
open Perl

/-- Under the id `id` the patterndb has, as number `i`, a pattern that stands for the elements `es`.  Rules with the same id are taken together, and `key` is the
ruleset of the last one; the ruleset must have a program. -/
structure Offers (db : PatternDb) (read : List Char → List Char → Option (List Elem)) (key id : List Char) (i : Nat) (es : List Elem) : Prop where
  last : ∃ A x B, db.allRules = A ++ x :: B ∧ x.1 = key ∧ x.2.id = id ∧ ∀ y ∈ B, y.2.id ≠ id
  pattern : ∃ prog src, (db.programsOf key).head? = some prog ∧ ((db.rulesWith id).flatMap (·.patterns))[i]? = some src ∧ read prog src = some es

/-- Every example of rules with an offered pattern has values.  (Rules with the same id are taken together.) -/
def ExamplesHaveValues (db : PatternDb) (read : List Char → List Char → Option (List Elem)) : Prop :=
  ∀ key id i es, Offers db read key id i es → ∀ e ∈ (db.rulesWith id).flatMap (·.examples), e.values ≠ []

/-- Different parsers that start offered patterns have different hashes. -/
def NoDbCollision (sip : Bytes → UInt64) (db : PatternDb) (read : List Char → List Char → Option (List Elem)) : Prop :=
  ∀ a b, (∃ key id i es, Offers db read key id i es ∧ (meant es).head? = some (.parser a)) →
    (∃ key id i es, Offers db read key id i es ∧ (meant es).head? = some (.parser b)) → a.hashOs sip = b.hashOs sip → a = b

end Verif.Spec
