import Verif.Rust.Str
/-! Model of `std::path::Path::extension` (Unix).  Not part of /repo. -/
namespace Verif

/-- Split at every `/`. -/
def splitSlash : Bytes → List Bytes
  | [] => [[]]
  | c :: s =>
    if c = 47 then [] :: splitSlash s
    else match splitSlash s with
      | [] => [[c]]
      | x :: xs => (c :: x) :: xs

/-- `Path::file_name`: the last component, unless it is the root, `.` or `..`; empty components and `.` components (except a leading one, which is
no file name either) are skipped by `Path::components`. -/
def pathFileName (path : Bytes) : Option Bytes :=
  match ((splitSlash path).filter fun c => c ≠ [] ∧ c ≠ b!".").getLast? with
  | some c => if c = b!".." then none else some c
  | none => none

/-- Split at the last `.`: the text before and after it. -/
def splitLastDot (name : Bytes) : Option (Bytes × Bytes) :=
  match name with
  | [] => none
  | c :: s =>
    match splitLastDot s with
    | some (before, after) => some (c :: before, after)
    | none => if c = 46 then some ([], s) else none

/-- `Path::extension`: what follows the last `.` of the file name, if the file name has a `.` that is not its first character. -/
def pathExtension (path : Bytes) : Option Bytes :=
  match pathFileName path with
  | none => none
  | some name =>
    match splitLastDot name with
    | none => none
    | some (before, after) => if before = [] then none else some after

end Verif
