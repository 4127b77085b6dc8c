import Verif.Spec.Table
/-! When the order of two additions matters, and lists of patterns that differ only in the order of additions for which it does not. -/
namespace Verif.Spec

/-- The order in which the two patterns are added to a trie can matter.  For patterns that begin with literals: if the literals are the same and both
or none of the patterns are the literal alone, or if one with more tokens begins with a shorter text of what the other one begins with.  For patterns
that begin with parsers: if the parsers are different, or if both or none of the patterns are the parser alone. -/
def OrderMatters (p q : Pattern) : Prop :=
  match p.pattern, q.pattern with
  | .literal l :: rest, .literal l' :: rest' =>
    (l = l' ∧ (rest = [] ↔ rest' = [])) ∨ (l <+: l' ∧ l ≠ l' ∧ rest ≠ []) ∨ (l' <+: l ∧ l ≠ l' ∧ rest' ≠ [])
  | .parser a :: rest, .parser b :: rest' => a = b → (rest = [] ↔ rest' = [])
  | _, _ => False

/-- The order in which the two patterns are added to a suffix array can matter: they begin with the same literal and both or none of them are the literal
alone; or they begin with parsers, which are different, or both or none of the patterns are the parser alone. -/
def SuffixOrderMatters (p q : Pattern) : Prop :=
  match p.pattern, q.pattern with
  | .literal l :: rest, .literal l' :: rest' => l = l' ∧ (rest = [] ↔ rest' = [])
  | .parser a :: rest, .parser b :: rest' => a = b → (rest = [] ↔ rest' = [])
  | _, _ => False

/-- The two lists hold the same patterns (each the same number of times), and any two patterns related by `D` stand in the same order in both. -/
def SameOrder (D : Pattern → Pattern → Prop) (ps qs : List Pattern) : Prop :=
  ps.Perm qs ∧ ∀ p q, D p q → (ps.filter fun s => decide (s = p ∨ s = q)) = qs.filter fun s => decide (s = p ∨ s = q)

end Verif.Spec
