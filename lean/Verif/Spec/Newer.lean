import Verif.Spec.Table
/-! When a pattern takes the place of another one. -/
namespace Verif.Spec

/-- `p` is of the same kind as `q`: it begins with the same token, and both of them are this token alone or neither is.  (Two patterns with the same tokens
are of the same kind.) -/
def SameKind (p q : Pattern) : Prop := ∃ first rest rest', p.pattern = first :: rest ∧ q.pattern = first :: rest' ∧ (rest = [] ↔ rest' = [])

end Verif.Spec
