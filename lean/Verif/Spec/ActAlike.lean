import Verif.Spec.Parsers
import Verif.Spec.Relabel
/-! Parsers that do the same on every text. -/
namespace Verif.Spec
open Verif

/-- The lengths of the runs the parser takes. -/
def RunLength (p : SetParser) (n : Nat) : Prop := 1 ≤ n ∧ (∀ m, p.minLength = some m → m ≤ n) ∧ (∀ m, p.maxLength = some m → n ≤ m)

/-- The parser takes runs of characters of a set: it is a `SET` or an `INT`. -/
def TakesRuns (a : Parser) (p : SetParser) : Prop := a = .set p ∨ a = .int p

/-- The parsers have the same kind of task: runs of the same characters of the same lengths, or none at all, or everything up to the same end string. -/
inductive ActAlike : Parser → Parser → Prop
  | runs (a b : Parser) (p q : SetParser) : TakesRuns a p → TakesRuns b q → (∀ c, c ∈ p.characterSet ↔ c ∈ q.characterSet) →
      (∀ n, RunLength p n ↔ RunLength q n) → ActAlike a b
  | never (a b : Parser) (p q : SetParser) : TakesRuns a p → TakesRuns b q → (p.characterSet = [] ∨ ∀ n, ¬ RunLength p n) →
      (q.characterSet = [] ∨ ∀ n, ¬ RunLength q n) → ActAlike a b
  | greedy (n n' e : Option Bytes) : ActAlike (.greedy ⟨n, e⟩) (.greedy ⟨n', e⟩)

/-- `g` exchanges parsers in patterns, as `φ` says, for parsers with the same name and the same task, and otherwise changes at most what describes the
pattern. -/
structure Exchanges (φ : Parser → Parser) (g : Pattern → Pattern) : Prop where
  alike : ∀ a, ActAlike a (φ a)
  name : ∀ a, nameOf (φ a) = nameOf a
  tokens : ∀ p, (g p).pattern = p.pattern.map (replaceToken φ)

/-- No match for either, the same values for a pattern of the list and its counterpart, or the same panic. -/
def SameAnswer (g : Pattern → Pattern) (ps : List Pattern) : Except Panic (Option MatchResult) → Except Panic (Option MatchResult) → Prop
  | .ok none, .ok none => True
  | .ok (some m), .ok (some m') => ∃ p ∈ ps, m.pattern = { p with pattern := [] } ∧ m'.pattern = { g p with pattern := [] } ∧ m'.values = m.values
  | .error e, .error e' => e = e'
  | _, _ => False

end Verif.Spec
