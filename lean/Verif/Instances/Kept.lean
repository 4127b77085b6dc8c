import Verif.Instances.Answers
import Verif.Props.C118_SuffixKept
import Verif.Props.C119_Tested
import Verif.Props.C120_EveryText
import Verif.Props.C121_AnyHash
/-! The theorems about the patterns a matcher keeps, applied to concrete cases. -/
namespace Verif.Instances
open Verif.Spec Samples

/-! ### The trie -/

theorem noneGoesOn {ps : List Pattern} {l : Bytes} (h : (ps.all fun q => (firstLiteral q).all fun l' => decide (l' <+: l → ¬ GoesOn q l')) = true) :
    ∀ q ∈ ps, ∀ l', l' <+: l → ¬ GoesOn q l' := by
  intro q hq l' hp hg
  have := List.all_eq_true.mp h q hq
  simp only [goesOn_first hg, Option.all_some, decide_eq_true_eq] at this
  exact this hp hg

theorem notLate {ps : List Pattern} {p : Pattern}
    (h : ((List.range ps.length).all fun n => (firstLiteral p).all fun l => decide ((ps.drop n).head? = some p → ¬ LongerLed (ps.take n) l)) = true) : ¬ Late ps p := by
  rintro ⟨A, B, l, rfl, hg, hl⟩
  have := List.all_eq_true.mp h A.length (by simp)
  simp only [goesOn_first hg, Option.all_some, decide_eq_true_eq, List.drop_left, List.take_left, List.head?_cons] at this
  exact this trivial hl

/-- `a%{INT:z}`, `ab%{INT:x}`, `abc`, `abc%{INT:y}` -/
def kept : List Pattern := [keptSample4, keptSample1, keptSample2, keptSample3]
/-- the same in an order in which the shortest is lost -/
def keptLate : List Pattern := [keptSample1, keptSample2, keptSample3, keptSample4]
def again : Pattern := pat 5 [.literal b!"ab", .parser (int b!"w")]

theorem kept_proper : Proper sip kept := proper (by decide +kernel)
theorem late_proper : Proper sip keptLate := proper (by decide +kernel)
def ab7 : Option MatchResult := some ⟨pat 1 [], [(b!"x", b!"7")]⟩

example := C116_found sip [keptSample4] keptSample1 (proper (by decide +kernel)) b!"ab" (by decide +kernel) (by decide +kernel) b!"ab7" u8!"ab7" [(int b!"x", b!"7")]
  (strict (by decide +kernel)) ab7 (by decide +kernel)
example := C116_lost sip [keptSample1, keptSample2] keptSample4 (proper (by decide +kernel)) (by decide +kernel) b!"a" (by decide +kernel) (noneGoesOn (by decide +kernel))
  (by decide +kernel) b!"ab7" u8!"ab7" ⟨pat 1 [], [(b!"x", b!"7")]⟩ (by decide +kernel)
example := C116_all_or_nothing sip [keptSample4] keptSample1 (proper (by decide +kernel)) (by decide +kernel) b!"ab" (by decide +kernel)
example := C116_replaced sip [keptSample4] [keptSample2] [] keptSample1 again (proper (by decide +kernel)) (by decide +kernel) b!"ab" (by decide +kernel) (by decide +kernel)
  (by decide +kernel) b!"ab7" u8!"ab7" ⟨pat 5 [], [(b!"w", b!"7")]⟩ (by decide +kernel)
example := C116_stays sip [keptSample4] [keptSample2, keptSample3] keptSample1 kept_proper b!"ab" (by decide +kernel) (by decide +kernel) (noneGoesOn (by decide +kernel))
  b!"ab7" u8!"ab7" (by decide +kernel) [(int b!"x", b!"7")] (strict (by decide +kernel)) ab7 (by decide +kernel)
example := C116_whole_or_not_at_all sip keptLate late_proper (by decide +kernel) keptSample4 (by decide +kernel) b!"a" (by decide +kernel)
example := C117_found sip kept kept_proper (by decide +kernel) keptSample1 (by decide +kernel) b!"ab" (by decide +kernel) (notLate (by decide +kernel)) b!"ab7" u8!"ab7"
  (by decide +kernel) [(int b!"x", b!"7")] (strict (by decide +kernel)) ab7 (by decide +kernel)
example := C117_late_never sip keptLate late_proper (by decide +kernel) (by decide +kernel) keptSample4 (by decide +kernel)
  ⟨[keptSample1, keptSample2, keptSample3], [], b!"a", rfl, by decide +kernel, by decide +kernel⟩ b!"ab7" u8!"ab7" ⟨pat 1 [], [(b!"x", b!"7")]⟩ (by decide +kernel)
example := C117_literals sip kept kept_proper (by decide +kernel) b!"abc" (by decide +kernel) (some ⟨pat 2 [], []⟩) (by decide +kernel)

/-! ### The suffix array -/

def lasts : List Pattern := [orderSample1, pat 2 [.literal b!"ab"], orderSample3]
theorem lasts_lits : ∀ p ∈ lasts, Utf8Lits p := utf8Lits (by decide +kernel)
theorem last3 : LastOfKind lasts b!"ab" orderSample3 := ⟨[orderSample1, pat 2 [.literal b!"ab"]], [], _, rfl, rfl, by simp⟩
theorem last2 : LastOfKind lasts b!"ab" (pat 2 [.literal b!"ab"]) := by
  refine ⟨[orderSample1], [orderSample3], [], rfl, rfl, ?_⟩
  intro q hq rest' e
  simp only [List.mem_singleton] at hq
  subst hq
  simp only [orderSample3, pat, List.cons.injEq, true_and] at e
  simp [← e]

example := C118_found sip lasts lasts_lits (by decide +kernel) orderSample3 b!"ab" last3 b!"ab7;" u8!"ab7;" [(int b!"x", b!"7")] (strict (by decide +kernel))
  (far (by decide +kernel)) (some ⟨pat 3 [], [(b!"x", b!"7")]⟩) (by decide +kernel)
example := C118_literal sip lasts lasts_lits (by decide +kernel) _ b!"ab" last2 rfl (some ⟨pat 2 [], []⟩) (by decide +kernel)
example := C118_only_last sip lasts lasts_lits (by decide +kernel) ⟨b!"ab", by decide +kernel⟩ b!"ab7" u8!"ab7" ⟨pat 3 [], [(b!"x", b!"7")]⟩ (by decide +kernel)
example := C118_parser_led sip orders orders_proper.utf8 orders_proper.hashes (by decide +kernel) orderSample4 (by decide +kernel) _ _ rfl ⟨b!"ab", by decide +kernel⟩
  b!"xy7" u8!"xy7" ⟨pat 2 [], [(b!"x", b!"7")]⟩ (by decide +kernel)
example := C118_replaced sip lasts lasts_lits (by decide +kernel) (by decide +kernel) orderSample1 orderSample3 (by decide +kernel) b!"ab" _ _ rfl rfl (by decide) last3 (by decide)
  b!"ab7" u8!"ab7" ⟨pat 3 [], [(b!"x", b!"7")]⟩ (by decide +kernel)

/-! ### Test messages -/

def tested : List Pattern := [testedSample1, keptSample2, testedSample3]
theorem tested_proper : Proper sip tested := proper (by decide +kernel)
theorem tested_ok : isMatcher (fromSource (trieMatcher sip) (tested.map .ok)) = true := by decide +kernel
def ab55 : Option MatchResult := some ⟨loaded { testedSample1 with pattern := [] }, [(b!"x", b!"55")]⟩
theorem tested_answer : (matcherOf _ tested_ok).parse b!"ab55" = .ok ab55 := matcherOf_parse tested_ok _ (by decide +kernel)
theorem tested_message : (matcherOf _ tested_ok).parse b!"ab7" = .ok (some ⟨loaded { testedSample1 with pattern := [] }, [(b!"x", b!"7")]⟩) :=
  matcherOf_parse tested_ok _ (by decide +kernel)
def tested7 : TestMessage := msg b!"ab7" [(b!"x", b!"7")] none

example := C119_file goodDeps good_utf8 sip b!"p.json" _ good_trie
example := C119_kept sip [] [keptSample2, testedSample3] testedSample1 tested_proper (by decide +kernel) _ _ (matcherOf_eq _ tested_ok) b!"ab" (by decide +kernel) tested7
  (by decide +kernel) u8!"ab7" (noneGoesOn (by decide +kernel)) b!"ab55" u8!"ab55" (by decide +kernel) [(int b!"x", b!"55")] (strict (by decide +kernel)) _ tested_answer
example := C119_kept_passes sip [] [keptSample2, testedSample3] testedSample1 tested_proper (by decide +kernel) _ _ (matcherOf_eq _ tested_ok) b!"ab" (by decide +kernel)
  (noneGoesOn (by decide +kernel)) tested7 (by decide +kernel) u8!"ab7" (by decide +kernel) _ tested_message
example := C119_kept_when_added sip [] [keptSample2, testedSample3] testedSample1 tested_proper (by decide +kernel) _ _ (matcherOf_eq _ tested_ok) b!"ab" (by decide +kernel)
  tested7 (by decide +kernel) u8!"ab7" b!"ab55" u8!"ab55" [(int b!"x", b!"55")] (strict (by decide +kernel)) ab55 (by decide +kernel)
example := C119_none_lost sip tested tested_proper (by decide +kernel) (by decide +kernel) _ _ (matcherOf_eq _ tested_ok) testedSample1 (by decide +kernel) b!"ab" (by decide +kernel)
  tested7 (by decide +kernel) u8!"ab7" b!"ab55" u8!"ab55" (by decide +kernel) [(int b!"x", b!"55")] (strict (by decide +kernel)) _ tested_answer
example := C119_still_passes sip tested tested_proper (by decide +kernel) (by decide +kernel) _ _ (matcherOf_eq _ tested_ok) testedSample1 (by decide +kernel) b!"ab" (by decide +kernel)
  tested7 (by decide +kernel) u8!"ab7" (by decide +kernel) _ tested_message
example := C119_late_rejected sip (tested ++ [testedSample4]) (proper (by decide +kernel)) (by decide +kernel) (by decide +kernel) testedSample4
  ⟨tested, [], b!"a", rfl, by decide +kernel, by decide +kernel⟩ (msg b!"a9" [(b!"z", b!"9")] none) (by decide +kernel) u8!"a9"

/-! ### Every text, every hash function -/

example := C120_every_text b!"100\\%\\{é}" (by decide) u8!"100\\%\\{é}"
example := C120_literal b!"100\\%\\{é}" u8!"100\\%\\{é}"
example := C120_empty sip b!"%{GREEDY:x}" u8!"%{GREEDY:x}" (pat 1 [.parser (greedy b!"x" none)]) (by decide +kernel) ⟨pat 1 [], [(b!"x", [])]⟩ (by decide +kernel) b!"éa" u8!"éa"

/-- two parsers with which a hash function without collisions and one with collisions can be told apart -/
def hashed : List Pattern := [pat 1 [.parser (int b!"i")], pat 2 [.parser (greedy b!"longer" (some b!"x")), .literal b!"x"]]
theorem hashed_built : isOk (SuffixTree.build (fun _ => 0) hashed) = true := by decide +kernel

example := C121_replacement sip hashed (by decide +kernel)
example := C121_trie_same sip (fun b => UInt64.ofNat b.length) hashed (by decide +kernel) (by decide +kernel)
example := C121_suffix_array_same sip (fun b => UInt64.ofNat b.length) hashed (by decide +kernel) (by decide +kernel)
/-- all hashes are equal -/
example := C121_trie_sound (fun _ => 0) hashed (utf8Lits (by decide +kernel)) _ (okOf_eq _ hashed_built) b!"12x" u8!"12x" ⟨pat 2 [], [(b!"i", b!"12")]⟩
  (okOf_bind (f := fun t : SuffixTree => t.parse b!"12x") hashed_built (by decide +kernel))
example := C121_suffix_array_answer (fun _ => 0) hashed (utf8Lits (by decide +kernel))

end Verif.Instances
