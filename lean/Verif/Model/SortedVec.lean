import Verif.Rust.Std
/-! Model of /repo/src/utils/sortedvec.rs and /repo/src/utils/mod.rs.

A `SortedVec<T>` (sortedvec.rs:3-6) is its `array : Vec<T>`, here a list.  The order of `T: Ord` is passed as the (possibly
panicking) comparison function `cmp`. -/
namespace Verif.SortedVec

variable {α : Type}

/-- `SortedVec::new`, /repo/src/utils/sortedvec.rs:9-11 -/
def new : List α := []

/-- `push`, /repo/src/utils/sortedvec.rs:13-16: append, then sort. -/
def push (cmp : α → α → M Ordering) (v : List α) (x : α) : M (List α) := stableSort cmp (v ++ [x])

/-- The `while low < high` loop of `binary_search`, /repo/src/utils/sortedvec.rs:60-68 -/
def searchLoop (cmp : α → α → M Ordering) (v : List α) (needle : α) (low high : Nat) : M (Option Nat) :=
  if _h : low < high then
    let mid := (low + high) / 2
    match v[mid]? with
    | none => .error .index
    | some y =>
      match cmp y needle with
      | .error e => .error e
      | .ok .lt => searchLoop cmp v needle (mid + 1) high
      | .ok .gt => searchLoop cmp v needle low mid
      | .ok .eq => .ok (some mid)
  else .ok none
termination_by high - low
decreasing_by all_goals omega

/-- `binary_search`, /repo/src/utils/sortedvec.rs:56-71 -/
def binarySearch (cmp : α → α → M Ordering) (v : List α) (needle : α) : M (Option Nat) :=
  searchLoop cmp v needle 0 v.length

/-- `find_pos`, /repo/src/utils/sortedvec.rs:18-20 -/
def findPos (cmp : α → α → M Ordering) (v : List α) (x : α) : M (Option Nat) := binarySearch cmp v x

/-- `find`, /repo/src/utils/sortedvec.rs:22-28 -/
def find (cmp : α → α → M Ordering) (v : List α) (x : α) : M (Option α) :=
  match binarySearch cmp v x with
  | .error e => .error e
  | .ok (some i) => .ok v[i]?
  | .ok none => .ok none

/-- `remove`, /repo/src/utils/sortedvec.rs:30-32 -/
def remove (v : List α) (i : Nat) : M (α × List α) := vecRemove v i

/-- `get`, /repo/src/utils/sortedvec.rs:34-36 -/
def get (v : List α) (i : Nat) : Option α := v[i]?

/-- `get_mut`, /repo/src/utils/sortedvec.rs:38-40, followed by an assignment of `x` through the reference. -/
def setAt (v : List α) (i : Nat) (x : α) : List α := v.set i x

/-- `len`, /repo/src/utils/sortedvec.rs:42-44 -/
def len (v : List α) : Nat := v.length

/-- `is_empty`, /repo/src/utils/sortedvec.rs:46-48 -/
def isEmpty (v : List α) : Bool := v.isEmpty

/-- `binary_search_by`, /repo/src/utils/sortedvec.rs:50-54 -/
def binarySearchBy (f : α → M Ordering) (v : List α) : M SearchRes := Verif.binarySearchBy f v

end Verif.SortedVec
