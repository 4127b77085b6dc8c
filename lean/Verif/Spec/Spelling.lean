import Verif.Spec.Grammar
import Verif.Spec.Documents
/-! Different spellings of the same pattern. -/
namespace Verif.Spec

/-- The elements differ at most in how they are spelled: the order and number of occurrences of the characters of a `SET`, and length options that have no
effect because of later ones.  (How numbers and the space between options are written is not part of an element.) -/
inductive SpelledAlike : Elem → Elem → Prop
  | literal (raw : Bytes) : SpelledAlike (.literal raw) (.literal raw)
  | greedy (name : Option Bytes) : SpelledAlike (.greedy name) (.greedy name)
  | int (os os' : List LenOpt) (name : Option Bytes) : (∀ n, lastMin os = some n ↔ lastMin os' = some n) →
      (∀ n, lastMax os = some n ↔ lastMax os' = some n) → SpelledAlike (.int os name) (.int os' name)
  | set (cs cs' : Bytes) (os os' : List LenOpt) (name : Option Bytes) : (∀ c, c ∈ cs ↔ c ∈ cs') → (∀ n, lastMin os = some n ↔ lastMin os' = some n) →
      (∀ n, lastMax os = some n ↔ lastMax os' = some n) → SpelledAlike (.set cs os name) (.set cs' os' name)

end Verif.Spec
