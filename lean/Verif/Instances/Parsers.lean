import Verif.Instances.Basic
import Verif.Props.C01_C02_CommonPrefix
import Verif.Props.C03_C04_SortedVec
import Verif.Props.C05_C10_Parsers
import Verif.Props.C49_Hash
import Verif.Props.C84_Settings
/-! The theorems about common prefixes, sorted vectors and parsers, applied to concrete cases. -/
namespace Verif.Instances
open Verif.Spec

example := C01_common_prefix_len_greatest b!"naïve" b!"naífe" u8!"naïve" u8!"naífe"
example := C02_common_prefix_symmetric b!"naïve" b!"naífe" u8!"naïve" u8!"naífe"
example := C02_truncation b!"naïve" b!"naïf" u8!"naïve" u8!"naïf"

def vecOps : List (VecOp Nat) := [.push 5, .push 3, .push 5, .push 1, .remove 1, .push 4]

theorem vecOps_run : runVec compare SortedVec.new [] vecOps = .ok ([1, 4, 5, 5], [3]) := by decide +kernel
theorem vec_ascending : Ascending (compare (α := Nat)) [1, 4, 5, 5] := by unfold Ascending; decide

example := C03_sortedvec_sorted_and_complete compare vecOps _ _ vecOps_run
example := C03_push_never_panics compare vecOps _ _ vecOps_run 2
example := C04_find_pos compare _ vec_ascending 4
example := C04_find compare _ vec_ascending 2
example := C04_binary_search_by compare _ vec_ascending 5

theorem setMatch_sample : SetMatch b!"0123" (some 3) (some 7) b!"11230almafa" b!"11230" :=
  ((C05_set_parser none b!"0123" (some 3) (some 7) b!"11230almafa").1 b!"11230").mp (by decide +kernel) |>.1

example := C05_set_match_unique _ _ _ _ _ _ setMatch_sample setMatch_sample
example := C06_int_parser (some b!"n") (some 2) none b!"1234é" u8!"1234é"
example := C07_greedy_with_end (some b!"g") b!"é" b!"caf é foo" u8!"é" u8!"caf é foo"
example := C08_parsers_never_panic (.greedy ⟨none, some b!"é"⟩) trivial (by intro e h; cases h; exact u8!"é") b!"caf é foo" u8!"caf é foo"
example := C08_parsers_never_panic (.set (mkSet none b!"abc" none none)) (by decide) trivial b!"cabé" u8!"cabé"
example := C09_set_never_panics_partial none b!"abc" (some 2) none b!"cabé" u8!"cabé" (.inl (by decide))
example := C09_set_never_panics_partial none b!"é" none none b!"cab" u8!"cab" (.inr (by decide))
example := C10_set_is_regex_partial none b!"abc" 1 4 b!"cabé" b!"cab" (by decide) u8!"cabé" (by decide) (prefixes (by decide +kernel))
example := C10_agree_iff none b!"abc" 2 2 b!"cabé" b!"cab" (by decide) u8!"cabé" (by decide) (by decide) (prefixes (by decide +kernel))

example := C49_constructed_parsers (some b!"é") b!"cba" (some 3) (some 7) (by intro n h; cases h; exact u8!"é") (by decide) (by decide)
example := C49_hash_stream_injective _ _
  (C49_constructed_parsers (some b!"x") b!"cba" (some 3) none (by intro n h; cases h; exact u8!"x") (by decide) (by decide)).1
  (C49_constructed_parsers (some b!"x") b!"abc" (some 3) none (by intro n h; cases h; exact u8!"x") (by decide) (by decide)).1 (by decide +kernel)

example := C84_int none [.minLength (some 3), .name (some b!"n"), .maxLength (some 4), .minLength (some 2)] b!"1234é" u8!"1234é"
example := C84_greedy none [.endString (some b!"x"), .name (some b!"n"), .endString (some b!"é")] b!"caf é foo" u8!"caf é foo"
  (by intro e h; cases h; exact u8!"é")
example := C84_greedy_from_str b!"n" b!"x" [.endString (some b!"é"), .name (some b!"m")] b!"caf é foo" u8!"caf é foo"
  (by intro e h; cases h; exact u8!"é")

end Verif.Instances
