import Verif.Rust.Str
/-! Model of /repo/src/utils/common_prefix.rs -/
namespace Verif

/-- The `for i in 0..min_len` loop of /repo/src/utils/common_prefix.rs:26-37; `fuel` is the number of remaining
iterations (`min_len - i`), `last` is `last_valid_character_boundary`.  `a[i]? ≠ b[i]?` is the comparison of
`a_i.next()` with `b_i.next()`. -/
def cplLoop (a b : Bytes) (minLen : Nat) (last : Nat) : Nat → Nat
  | 0 => minLen
  | fuel + 1 =>
    let i := minLen - (fuel + 1)
    let last := if isCharBoundary a i then i else last
    if a[i]? ≠ b[i]? then last else cplLoop a b minLen last fuel

/-- `common_prefix_len`, /repo/src/utils/common_prefix.rs:20-39 -/
def commonPrefixLen (a b : Bytes) : Nat :=
  let minLen := min a.length b.length
  cplLoop a b minLen 0 minLen

/-- `has_common_prefix`, /repo/src/utils/common_prefix.rs:4-12 -/
def hasCommonPrefix (a b : Bytes) : Option Nat :=
  let cpl := commonPrefixLen a b
  if cpl > 0 then some cpl else none

/-- `ltrunc`, /repo/src/utils/common_prefix.rs:41-43 -/
def ltrunc (s : Bytes) (len : Nat) : M Bytes := sliceFrom s len

/-- `rtrunc`, /repo/src/utils/common_prefix.rs:44-47; the subtraction underflows (and panics) if `len` is larger than
the string. -/
def rtrunc (s : Bytes) (len : Nat) : M Bytes :=
  if s.length < len then .error .arith else sliceTo s (s.length - len)

end Verif
