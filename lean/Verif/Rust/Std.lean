import Verif.Rust.Str
/-
Models of the Rust standard library collections and slice algorithms the code relies on
(2016 toolchain).  Not part of /repo.
-/
namespace Verif

/-- The `Result<usize, usize>` of `binary_search_by`. -/
inductive SearchRes where
  | ok (i : Nat)
  | err (i : Nat)
  deriving DecidableEq, Repr

/-- `<[T]>::binary_search_by` (std 2016): repeatedly split the slice `s` in the middle; `base` is the offset of
`s` in the whole slice.

```text
loop {
    let (head, tail) = s.split_at(s.len() >> 1);
    if tail.is_empty() { return Err(base) }
    match f(&tail[0]) {
        Less    => { base += head.len() + 1; s = &tail[1..]; }
        Greater => s = head,
        Equal   => return Ok(base + head.len())
    }
}
```
The comparator may panic. -/
def binarySearchLoop {α : Type} (f : α → M Ordering) (base : Nat) (s : List α) : M SearchRes :=
  match _h : s.drop (s.length / 2) with
  | [] => .ok (.err base)
  | x :: tail =>
    match f x with
    | .error e => .error e
    | .ok .lt => binarySearchLoop f (base + s.length / 2 + 1) tail
    | .ok .gt => binarySearchLoop f base (s.take (s.length / 2))
    | .ok .eq => .ok (.ok (base + s.length / 2))
termination_by s.length
decreasing_by
  all_goals
    have hl := congrArg List.length _h
    simp at hl ⊢
    omega

/-- `<[T]>::binary_search_by` -/
def binarySearchBy {α : Type} (f : α → M Ordering) (s : List α) : M SearchRes := binarySearchLoop f 0 s

/-- One step of a stable insertion sort: put `x` in front of the first element that is greater. -/
def insertStable {α : Type} (cmp : α → α → M Ordering) (x : α) : List α → M (List α)
  | [] => .ok [x]
  | y :: ys =>
    match cmp x y with
    | .error e => .error e
    | .ok .lt => .ok (x :: y :: ys)
    | .ok _ =>
      match insertStable cmp x ys with
      | .error e => .error e
      | .ok r => .ok (y :: r)

/-- `<[T]>::sort`: std promises a stable sort; the model is a stable insertion sort that inserts the elements from left
to right.  (Simplification: std uses merge sort for long slices; for a lawful order every stable sort gives the
same result.) -/
def stableSort {α : Type} (cmp : α → α → M Ordering) (l : List α) : M (List α) :=
  l.foldlM (fun acc x => insertStable cmp x acc) []

/-- `Vec::insert(index, x)` -/
def vecInsert {α : Type} (l : List α) (i : Nat) (x : α) : M (List α) :=
  if i ≤ l.length then .ok (l.take i ++ x :: l.drop i) else .error .index

/-- `Vec::remove(index)`: the removed element and the remaining vector. -/
def vecRemove {α : Type} (l : List α) (i : Nat) : M (α × List α) :=
  match l[i]? with
  | none => .error .index
  | some x => .ok (x, l.take i ++ l.drop (i + 1))

/-- `usize` subtraction `a - b`, which panics on underflow (debug builds). -/
def checkedSub (a b : Nat) : M Nat := if b ≤ a then .ok (a - b) else .error .arith

/-- `Option::unwrap` / `expect` -/
def unwrap {α : Type} : Option α → M α
  | some a => .ok a
  | none => .error .unwrap

/-- A `BTreeMap<String, String>` (or `<&str,&str>`) as association list in ascending key order. -/
abbrev BMap := List (Bytes × Bytes)

/-- `BTreeMap::get` -/
def BMap.get? : BMap → Bytes → Option Bytes
  | [], _ => none
  | (k, v) :: m, x => if k = x then some v else BMap.get? m x

/-- `BTreeMap::insert`: replaces the value of an existing key. -/
def BMap.insert : BMap → Bytes → Bytes → BMap
  | [], x, y => [(x, y)]
  | (k, v) :: m, x, y =>
    match cmpBytes x k with
    | .lt => (x, y) :: (k, v) :: m
    | .eq => (x, y) :: m
    | .gt => (k, v) :: BMap.insert m x y

/-- `BTreeSet<u8>::insert` on the ascending list of the elements. -/
def bsetInsert (x : UInt8) : List UInt8 → List UInt8
  | [] => [x]
  | y :: ys => match cmpU8 x y with
    | .lt => x :: y :: ys
    | .eq => y :: ys
    | .gt => y :: bsetInsert x ys

/-- `BTreeSet::from_iter` -/
def bsetFromIter (l : List UInt8) : List UInt8 := l.foldl (fun s x => bsetInsert x s) []

/-- decidable equality of `Result`s and of panicking computations (used to evaluate concrete runs) -/
instance instDecEqExcept {ε α : Type} [DecidableEq ε] [DecidableEq α] : DecidableEq (Except ε α) := fun a b =>
  match a, b with
  | .ok x, .ok y => if h : x = y then isTrue (by rw [h]) else isFalse (by simpa using h)
  | .error x, .error y => if h : x = y then isTrue (by rw [h]) else isFalse (by simpa using h)
  | .ok _, .error _ => isFalse (by simp)
  | .error _, .ok _ => isFalse (by simp)

end Verif
