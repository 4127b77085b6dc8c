/-
Rust's `str` on the level of bytes.  This file models the operations of the Rust standard library
(2016, as used by /repo) that the code calls on `str`; it is not part of /repo itself.
-/
namespace Verif

/-- The contents of a Rust `str`/`String`: its UTF-8 bytes. -/
abbrev Bytes := List UInt8

/-- `b!"text"` is the list of the UTF-8 bytes of the literal, expanded at elaboration time. -/
macro:max "b!" s:str : term => do
  let bs := s.getString.toUTF8.data.toList.map fun u => Lean.Syntax.mkNumLit (toString u.toNat)
  let arr := bs.toArray
  `(([$(arr),*] : Verif.Bytes))

/-- The ways in which the modelled Rust code can panic (or loop forever). -/
inductive Panic where
  /-- `&s[a..b]` where an end is out of range or not on a character boundary -/
  | slice
  /-- `unwrap`/`expect` on `None`/`Err` -/
  | unwrap
  /-- `unreachable!()` -/
  | unreachable
  /-- index out of bounds, `Vec::remove`/`Vec::insert` out of range -/
  | index
  /-- arithmetic underflow -/
  | arith
  /-- a `loop` did not finish within the fuel of the model -/
  | diverge
  deriving DecidableEq, Repr

/-- A computation that may panic. -/
abbrev M := Except Panic

/-- A byte that continues a multi-byte character (`0b10xxxxxx`). -/
def isCont (b : UInt8) : Bool := 128 ≤ b.toNat && b.toNat < 192

/-- `str::is_char_boundary`: 0, the length, or an index whose byte is not a continuation byte
(std: `(b as i8) >= -0x40`). -/
def isCharBoundary (s : Bytes) (i : Nat) : Bool :=
  if i = 0 ∨ i = s.length then true
  else match s[i]? with
    | none => false
    | some b => !isCont b

/-- `&s[..n]` -/
def sliceTo (s : Bytes) (n : Nat) : M Bytes :=
  if isCharBoundary s n then .ok (s.take n) else .error .slice

/-- `&s[n..]` -/
def sliceFrom (s : Bytes) (n : Nat) : M Bytes :=
  if isCharBoundary s n then .ok (s.drop n) else .error .slice

/-- `&s[a..b]` -/
def slice (s : Bytes) (a b : Nat) : M Bytes :=
  if a ≤ b ∧ isCharBoundary s a ∧ isCharBoundary s b then .ok ((s.take b).drop a) else .error .slice

/-- `str::find(&str)`: byte offset of the first occurrence of `needle`. -/
def strFind (hay needle : Bytes) : Option Nat :=
  match hay with
  | [] => if needle.isPrefixOf [] then some 0 else none
  | b :: t => if needle.isPrefixOf (b :: t) then some 0 else (strFind t needle).map (· + 1)

/-- `str::replace(from, to)` for a non-empty `from`: non-overlapping occurrences from left to right
are replaced.  (The code only calls it with a non-empty constant `from`; with an empty `from` the model
returns the string unchanged.) -/
def strReplace (s frm to : Bytes) : Bytes :=
  match s with
  | [] => []
  | b :: t =>
    if frm ≠ [] ∧ frm.isPrefixOf (b :: t) then to ++ strReplace ((b :: t).drop (max frm.length 1)) frm to
    else b :: strReplace t frm to
termination_by s.length
decreasing_by all_goals (simp; try omega)

/-- `Ord::cmp` on `u8`. -/
def cmpU8 (a b : UInt8) : Ordering := if a.toNat < b.toNat then .lt else if a.toNat = b.toNat then .eq else .gt

/-- `Ord::cmp` on `str`: lexicographic comparison of the bytes. -/
def cmpBytes : Bytes → Bytes → Ordering
  | [], [] => .eq
  | [], _ :: _ => .lt
  | _ :: _, [] => .gt
  | a :: s, b :: t => match cmpU8 a b with
    | .eq => cmpBytes s t
    | o => o

/-- The bytes are valid UTF-8: the encoding of some sequence of characters.  This is the type invariant
of Rust's `str`. -/
def Utf8 (b : Bytes) : Prop := ∃ cs : List Char, b = cs.flatMap String.utf8EncodeChar

/-- All bytes are ASCII. -/
def Ascii (b : Bytes) : Prop := ∀ x ∈ b, x.toNat < 128

instance (b : Bytes) : Decidable (Ascii b) := by unfold Ascii; infer_instance

end Verif
