import Verif.Spec.Matching
/-! Which patterns can match at all. -/
namespace Verif.Spec

/-- There can be values for the token: a SET or INT needs a non-empty set and limits that allow a non-empty value. -/
def Possible : Token → Prop
  | .literal _ => True
  | .parser (.greedy _) => True
  | .parser (.set p) | .parser (.int p) =>
    p.characterSet ≠ [] ∧ p.maxLength ≠ some 0 ∧ ∀ mn ∈ p.minLength, ∀ mx ∈ p.maxLength, mn ≤ mx

/-- There can be text for the second token behind the text for the first.  A SET or INT takes all the characters of its set that follow: what comes
behind it has to begin with another character.  A GREEDY without an end string takes everything: only further ones, with empty values, can follow it. -/
def CanFollow : Token → Token → Prop
  | .literal _, _ => True
  | .parser (.greedy g), b => g.endString = none → ∃ h, b = .parser (.greedy h) ∧ h.endString = none
  | .parser (.set p), b | .parser (.int p), b =>
    match b with
    | .literal l => ∀ c ∈ l.head?, c ∉ p.characterSet
    | .parser (.set q) | .parser (.int q) => ∃ c ∈ q.characterSet, c ∉ p.characterSet
    | .parser (.greedy _) => True

/-- Each token alone and each pair of neighbours is possible. -/
def Satisfiable (toks : List Token) : Prop :=
  (∀ t ∈ toks, Possible t) ∧ ∀ before a b after, toks = before ++ a :: b :: after → CanFollow a b

end Verif.Spec
