import Verif.Props.C134_CompileWork
import Verif.Instances.Basic
/-! C134, applied to concrete pattern strings. -/
namespace Verif.Instances.CompileWork
open Verif

/-- Plain text: two looks for each byte and seven more. -/
example : (compileC b!"login from").2 = 27 := C134_plain (by decide) (by decide)

/-- The counts of a string that compiles, of one with options, and of one that does not compile. -/
example : (compileC b!"a%{INT:x}b%{GREEDY:y}c").2 = 33 := by decide +kernel
example : (compileC b!"a%{SET(\"abc\", min_len=2):x}").2 = 36 := by decide +kernel
example : (compileC b!"%{INT(min_len=1,max_len=2,min_len=3,max_len=5").2 = 35 := by decide +kernel
example : (compileC b!"").2 = 4 := by decide +kernel

/-- The theorem for the first of them. -/
example : ∃ n, compileC b!"a%{INT:x}b%{GREEDY:y}c" = (compile b!"a%{INT:x}b%{GREEDY:y}c", n) ∧ n ≤ 980 := C134_linear _

end Verif.Instances.CompileWork
