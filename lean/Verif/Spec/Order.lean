import Verif.Rust.Std
/-! Specification vocabulary for ordered containers. -/
namespace Verif.Spec

/-- A list is in non-decreasing order w.r.t. the comparison `c`. -/
def Ascending {α : Type} (c : α → α → Ordering) (l : List α) : Prop := l.Pairwise fun x y => c x y ≠ .gt

/-- The public operations that change a sorted vector. -/
inductive VecOp (α : Type) where
  | push (x : α)
  | remove (index : Nat)

/-- All values pushed by a sequence of operations. -/
def pushed {α : Type} : List (VecOp α) → List α
  | [] => []
  | .push x :: ops => x :: pushed ops
  | .remove _ :: ops => pushed ops

end Verif.Spec
