import Verif.Spec.ActAlike
/-! Parsers with looser length limits. -/
namespace Verif.Spec
open Verif

/-- The second parser takes runs of the same characters, and of all the lengths the first one takes; or both take everything up to the same end string. -/
inductive Looser : Parser → Parser → Prop
  | runs (a b : Parser) (p q : SetParser) : TakesRuns a p → TakesRuns b q → (∀ c, c ∈ p.characterSet ↔ c ∈ q.characterSet) →
      (∀ n, RunLength p n → RunLength q n) → Looser a b
  | greedy (n n' e : Option Bytes) : Looser (.greedy ⟨n, e⟩) (.greedy ⟨n', e⟩)

/-- `g` exchanges parsers in patterns, as `φ` says, for looser ones with the same name, and otherwise changes at most what describes the pattern. -/
structure Loosens (φ : Parser → Parser) (g : Pattern → Pattern) : Prop where
  looser : ∀ a, Looser a (φ a)
  name : ∀ a, nameOf (φ a) = nameOf a
  tokens : ∀ p, (g p).pattern = p.pattern.map (replaceToken φ)

/-- What becomes of the answer `m` if patterns `ps` are loosened: it is the same; or, if the pattern begins with a parser, there is an answer of another
such pattern that did not match before (`M` says what matches). -/
def KeptOrOvertaken (M : List Token → Bytes → List (Parser × Bytes) → Prop) (g : Pattern → Pattern) (ps : List Pattern) (x : Bytes)
    (m m' : MatchResult) : Prop :=
  ∃ p ∈ ps, m.pattern = { p with pattern := [] } ∧
    ((m'.pattern = { g p with pattern := [] } ∧ m'.values = m.values) ∨
     (∃ a, p.pattern.head? = some (.parser a)) ∧ ∃ q ∈ ps, (∃ a, q.pattern.head? = some (.parser a)) ∧ (¬∃ caps, M q.pattern x caps) ∧
       ∃ caps, M (g q).pattern x caps ∧ IsResult m' (g q) caps)

end Verif.Spec
