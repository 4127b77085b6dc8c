import Verif.Spec.Matching
/-! The same text in front of patterns. -/
namespace Verif.Spec
open Verif

/-- The pattern begins with a literal. -/
def StartsLiteral (p : Pattern) : Prop := ∃ l rest, p.pattern = .literal l :: rest

/-- The pattern with the text `P` in front of its first literal. -/
def front (P : Bytes) (p : Pattern) : Pattern :=
  { p with pattern := match p.pattern with
    | .literal l :: rest => .literal (P ++ l) :: rest
    | toks => toks }

end Verif.Spec
