import Verif.Spec.Matching
/-! The first characters of patterns. -/
namespace Verif.Spec

/-- The pattern begins with a literal whose first byte is in the set. -/
def BeginsIn (f : UInt8 → Bool) (p : Pattern) : Bool :=
  match p.pattern with
  | .literal (c :: _) :: _ => f c
  | _ => false

/-- The pattern begins with a literal. -/
def BeginsLiterally (p : Pattern) : Prop := ∃ l, p.pattern.head? = some (.literal l)

/-- The patterns that begin with a literal. -/
def literalLed (ps : List Pattern) : List Pattern :=
  ps.filter fun p => match p.pattern with | .literal _ :: _ => true | _ => false

end Verif.Spec
