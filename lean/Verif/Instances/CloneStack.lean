import Verif.Props.C132_CloneStack
import Verif.Instances.Change
/-! C132, applied to concrete patterns. -/
namespace Verif.Instances
open Verif Spec Samples

example := C132_trie sip stackSample stackSample_utf8 _ (okOf_eq _ stack_built) 29 (by decide) (by decide +kernel)
example := C132_suffix_array sip stackSample _ (okOf_eq _ stack_array) 11 (by decide) (by decide +kernel)

/-- `a%{INT:x}b` needs nine frames. -/
def threeTokens : Pattern := Samples.pat 1 [.literal b!"a", .parser (Samples.int b!"x"), .literal b!"b"]
example (t : SuffixTree) (h : SuffixTree.build sip [threeTokens] = .ok t) : t.cloneS 8 = none ∧ t.dropS 8 = none ∧ t.cloneS 9 = some t := by
  have h8 := C132_trie_needed sip threeTokens (by decide) t h 8
  have h9 := C132_trie_needed sip threeTokens (by decide) t h 9
  refine ⟨Classical.byContradiction fun hn => absurd (h8.1.mp hn) (by decide), Classical.byContradiction fun hn => absurd (h8.2.mp hn) (by decide), ?_⟩
  cases e : t.cloneS 9 with
  | none => exact absurd e (h9.1.mpr (by decide))
  | some t' => rw [(C132_trie_any_stack t 9).1 t' e]
example (t : SuffixTable) (h : SuffixTable.build sip [threeTokens] = .ok t) : t.cloneS 8 = none ∧ t.dropS 9 = some t.entries := by
  have h8 := C132_suffix_array_needed sip threeTokens (by decide) t h 8
  have h9 := C132_suffix_array_needed sip threeTokens (by decide) t h 9
  refine ⟨Classical.byContradiction fun hn => absurd (h8.1.mp hn) (by decide), ?_⟩
  cases e : t.dropS 9 with
  | none => exact absurd e (h9.2.mpr (by decide))
  | some n => rw [(C132_suffix_array_any_stack t 9).2.1 n e]

end Verif.Instances
