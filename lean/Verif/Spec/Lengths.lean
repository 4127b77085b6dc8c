import Verif.Spec.Matching
/-! How long the texts of a pattern are. -/
namespace Verif.Spec

/-- The parser can take a value of `n` bytes: a SET or INT takes at least one and keeps to its limits, a GREEDY takes any number. -/
def TakesLength : Parser → Nat → Prop
  | .set p, n | .int p, n => 1 ≤ n ∧ (∀ k, p.minLength = some k → k ≤ n) ∧ ∀ k, p.maxLength = some k → n ≤ k
  | .greedy _, _ => True

/-- `n` is a sum of the lengths of the literals and of lengths the parsers can take. -/
inductive HasLength : List Token → Nat → Prop
  | nil : HasLength [] 0
  | literal (l : Bytes) (toks : List Token) (n : Nat) : HasLength toks n → HasLength (.literal l :: toks) (l.length + n)
  | parser (a : Parser) (k : Nat) (toks : List Token) (n : Nat) : TakesLength a k → HasLength toks n → HasLength (.parser a :: toks) (k + n)

/-- The least of these sums. -/
def shortest : List Token → Nat
  | [] => 0
  | .literal l :: toks => l.length + shortest toks
  | .parser (.set p) :: toks | .parser (.int p) :: toks => max 1 (p.minLength.getD 1) + shortest toks
  | .parser (.greedy _) :: toks => shortest toks

/-- The greatest of these sums, if there is one. -/
def longest : List Token → Option Nat
  | [] => some 0
  | .literal l :: toks => (longest toks).map (l.length + ·)
  | .parser (.set p) :: toks | .parser (.int p) :: toks => do return (← p.maxLength) + (← longest toks)
  | .parser (.greedy _) :: _ => none

/-- There is no GREEDY among the tokens. -/
def NoGreedy (toks : List Token) : Prop := ∀ g, Token.parser (.greedy g) ∉ toks

end Verif.Spec
