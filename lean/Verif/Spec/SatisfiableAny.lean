import Verif.Spec.Satisfiable
import Verif.Spec.Panics
/-! Which patterns can match at all, for sets and literals in any script. -/
namespace Verif.Spec

/-- A text of whole characters that a SET or INT could take: not empty, all its bytes are in the set, and its length is within the limits. -/
structure ValueOf (p : SetParser) (v : Bytes) : Prop where
  whole : Utf8 v
  nonempty : v ≠ []
  inSet : ∀ b ∈ v, b ∈ p.characterSet
  atLeast : ∀ n ∈ p.minLength, n ≤ v.length
  atMost : ∀ n ∈ p.maxLength, v.length ≤ n

/-- There is a value for the token. -/
def HasValue : Token → Prop
  | .literal _ => True
  | .parser (.greedy _) => True
  | .parser (.set p) | .parser (.int p) => ∃ v, ValueOf p v

/-- There is text for the second token that can stand behind text for the first: as `CanFollow`, with a whole value for the second one. -/
def FollowsWhole : Token → Token → Prop
  | .literal _, _ => True
  | .parser (.greedy g), b => g.endString = none → ∃ h, b = .parser (.greedy h) ∧ h.endString = none
  | .parser (.set p), b | .parser (.int p), b =>
    match b with
    | .literal l => ∀ c ∈ l.head?, c ∉ p.characterSet
    | .parser (.set q) | .parser (.int q) => ∃ c v, ValueOf q (c :: v) ∧ c ∉ p.characterSet
    | .parser (.greedy _) => True

/-- Each token alone and each pair of neighbours is possible. -/
def SatisfiableAny (toks : List Token) : Prop :=
  (∀ t ∈ toks, HasValue t) ∧ ∀ before a b after, toks = before ++ a :: b :: after → FollowsWhole a b

/-- The same for the suffix array, where a literal behind a SET or INT that does not stand there is ignored: then the SET or INT is the last parser, or
what comes behind the literal can stand in its place. -/
def SatisfiableLoosely (toks : List Token) : Prop :=
  (∀ t ∈ toks, HasValue t) ∧ ∀ before a b after, toks = before ++ a :: b :: after →
    FollowsWhole a b ∨ ((∃ l, b = .literal l) ∧ ∀ u ∈ after.head?, FollowsWhole a u)

end Verif.Spec
