import Verif.Model.Pattern
/-! Patterns that take the same place in a matcher. -/
namespace Verif.Spec

/-- The two patterns begin with the same token and, if it is a literal, both or none of them consist of this literal alone. -/
def SamePlace (p q : Pattern) : Prop :=
  p.pattern.head? = q.pattern.head? ∧ ((∃ l, p.pattern.head? = some (.literal l)) → (p.pattern.length = 1 ↔ q.pattern.length = 1))

/-- `qs` is a choice of patterns of `ps`, none of them twice and no two of them for the same place. -/
def Choice (ps qs : List Pattern) : Prop := (∀ q ∈ qs, q ∈ ps) ∧ qs.Pairwise fun p q => ¬ SamePlace p q

end Verif.Spec
