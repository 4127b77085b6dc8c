import Verif.Rust.Str
/-! File names and their extensions. -/
namespace Verif.Spec

/-- What may follow the file name in a path without changing its meaning: slashes and `.` components. -/
inductive Trailing : Bytes → Prop
  | nil : Trailing []
  | slash (t : Bytes) : Trailing t → Trailing (b!"/" ++ t)
  | dot (t : Bytes) : Trailing t → Trailing (b!"/." ++ t)

/-- `name` is the file name of the path: what remains if everything up to the last slash is removed, trailing slashes and `.` components being
ignored.  A path that ends in `..` has no file name. -/
def FileName (path name : Bytes) : Prop :=
  ∃ dir tail, path = dir ++ name ++ tail ∧ (dir = [] ∨ ∃ up, dir = up ++ b!"/") ∧ Trailing tail ∧
    (47 : UInt8) ∉ name ∧ name ≠ [] ∧ name ≠ b!"." ∧ name ≠ b!".."

/-- `ext` is the extension of the path: what follows the last dot of the file name, if this is not the first character of the file name. -/
def HasExt (path ext : Bytes) : Prop := ∃ stem, FileName path (stem ++ b!"." ++ ext) ∧ stem ≠ [] ∧ (46 : UInt8) ∉ ext

end Verif.Spec
