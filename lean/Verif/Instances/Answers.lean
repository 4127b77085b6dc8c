import Verif.Instances.Change
import Verif.Instances.Files
import Verif.Props.C105_PatternApi
import Verif.Props.C106_Pieces
import Verif.Props.C108_Description
import Verif.Props.C110_Filled
import Verif.Props.C111_AnyScript
import Verif.Props.C112_Additional
import Verif.Props.C113_AnyScript
import Verif.Props.C114_CostAdd
import Verif.Props.C115_Labels
/-! The theorems about the answers of a loaded matcher, applied to concrete cases. -/
namespace Verif.Instances
open Verif.Spec Samples

/-! ### Test messages and the suffix array -/

theorem suffixValidated_ok : isMatcher (fromSource (suffixArrayMatcher sip) (suffixValidatedSample.map .ok)) = true := by decide +kernel
theorem suffixValidated_lits : ∀ p ∈ suffixValidatedSample, Utf8Lits p := utf8LitsOf ["app", "apple ", "é"] (by decide +kernel)
theorem suffixValidated_unrivalled : Unrivalled (suffixValidatedSample.take 1) (suffixValidatedSample.drop 1) :=
  unrivalled_of_literal ⟨b!"app", leads (by decide +kernel)⟩ _

theorem matcherOf_array {m : M (Except BuildError SuffixTable × List BuildResult)} (h : isMatcher m = true) (text : Bytes) {r : Option MatchResult}
    (e : (m >>= fun x => match x.1 with | .ok t => t.parse text | .error _ => .ok none) = .ok r) : (matcherOf m h).parse text = .ok r := by
  match m, h with
  | .ok (.ok t, []), _ => exact e

/-- `applx` is not matched any more. -/
example := C99_validated sip suffixValidatedSample suffixValidated_lits (by decide +kernel) _ (validated suffixValidated_ok) [] _ (suffixValidatedSample.drop 1) rfl
  suffixValidated_unrivalled (msg b!"applx" [] none) (by decide +kernel) u8!"applx" none (matcherOf_array suffixValidated_ok b!"applx" (by decide +kernel))

/-- without the second pattern `app é` is still matched by the first -/
def stillValidated : List Pattern := [suffixValidatedSample[0], pat 3 [.literal b!"é"]]
theorem stillValidated_ok : isMatcher (fromSource (suffixArrayMatcher sip) (stillValidated.map .ok)) = true := by decide +kernel

example := C99_still_passes sip stillValidated (utf8LitsOf ["app", "é"] (by decide +kernel)) (by decide +kernel) _ (validated stillValidated_ok) [] _ (stillValidated.drop 1) rfl
  (msg b!"app é" [(b!"g", b!" é")] none) (by decide +kernel) u8!"app é" b!"app" b!"app" (leads (by decide +kernel)) (longest u8!"app" (by decide +kernel)) (fartherAll (by decide +kernel))
example := C99_from_file goodDeps good_utf8 sip b!"p.json" _ good_array

/-! ### The calls of a pattern -/

example := C105_tokens (pat 1 [.literal b!"a", .parser (int b!"i")]) [.popTestMessage, .popFirstToken] [.popFirstToken, .popTestMessage] [.literal b!"x", .literal b!"y"]
  (by intro c hc ts; simp only [List.mem_cons, List.not_mem_nil, or_false] at hc; rcases hc with rfl | rfl <;> simp)

/-! ### The values are pieces of the text -/

theorem piece_built : Builds pieceSample := by decide +kernel
theorem piece_array : isOk (SuffixTable.build sip pieceSample) = true := by decide +kernel

def pieces : MatchResult := ⟨pat 1 [], [(b!"i", b!"12"), (b!"s", b!"xy")]⟩
theorem piece_answer : (trie pieceSample piece_built).parse b!"a12 bxy7" = .ok (some pieces) := answers piece_built _ (some pieces) (by decide +kernel)
theorem piece_array_answer : (table pieceSample piece_array).parse b!"a12 xy7" = .ok (some pieces) := tableAnswers piece_array _ (some pieces) (by decide +kernel)

example := C106_trie _ _ _ piece_answer
example := C106_suffix _ _ _ piece_array_answer
example := C106_size _ _ (.inl ⟨_, piece_answer⟩)
example := C106_size _ _ (.inr ⟨_, piece_array_answer⟩)
example := C106_utf8 _ u8!"a12 bxy7" _ (.inl ⟨_, piece_answer⟩) (b!"s", b!"xy") (by decide)

/-! ### Error texts -/

example (F : ErrorFacts) := C108_kind F (.testMessage (.keyNotFound 1 b!"k")) .notUtf8FileName trivial trivial
example (L : ErrorTexts) (F : ErrorFacts) := C109_text_partial L F (.testMessage (.keyNotFound 1 b!"k")) trivial (by intro u m h; cases h) (by intro h; cases h)

/-! ### Answers tell the text -/

theorem filled_built : Builds filledSample := by decide +kernel
theorem filled_lits : ∀ p ∈ filledSample, Utf8Lits p := utf8Lits (by decide +kernel)
theorem filled_answer : (trie filledSample filled_built).parse b!"user 7 from a:é" = .ok (some ⟨pat 1 [], [(b!"host", b!"a:é"), (b!"uid", b!"7")]⟩) :=
  answers filled_built _ _ (by decide +kernel)

example := C110_filled sip filledSample filled_lits (by decide +kernel) (by decide +kernel) _ (okOf_eq _ filled_built) b!"user 7 from a:é" u8!"user 7 from a:é" _ filled_answer
example := C110_injective sip filledSample filled_lits (by decide +kernel) (by decide +kernel) (by decide +kernel) _ (okOf_eq _ filled_built) b!"user 7 from a:é" b!"user 7 from a:é"
  u8!"user 7 from a:é" u8!"user 7 from a:é" _ _ filled_answer filled_answer rfl rfl
example := C112_keys_partial sip filledSample filled_lits (by decide +kernel) _ (okOf_eq _ filled_built) b!"user 7 from a:é" u8!"user 7 from a:é" _ filled_answer
example := C112_merged_partial additionalAnswer (by decide +kernel) (by intro vs h; cases h; decide +kernel) b!"service" b!"ssh"

/-! ### Patterns that can match -/

/-- a SET of Greek letters, and texts that end inside a letter of it -/
def greekSet : Bytes := b!"x%{SET(\"αβ\"):a}"
theorem greekSet_utf8 : Utf8 greekSet := u8!"x%{SET(\"αβ\"):a}"
theorem greekSet_compiles : compile greekSet = .ok (.ok (patternOf greekSet).pattern) := by decide +kernel
theorem greekSet_lits : Utf8Lits (patternOf greekSet) := utf8LitsOf ["x"] (ps := [patternOf greekSet]) (by decide +kernel) _ (List.mem_singleton_self _)

example := C52_exactly sip greekSet greekSet_utf8 (patternOf greekSet) greekSet_compiles b!"xαη" u8!"xαη"
example := C29_exactly sip (patternOf greekSet) greekSet_lits (by decide +kernel) b!"xαη" u8!"xαη"

def twoInts : Pattern := pat 2 [.parser (int b!"a"), .parser (int b!"b")]
theorem twoInts_unsatisfiable : ¬ Satisfiable twoInts.pattern := by decide +kernel
def besides : List Pattern := [twoInts, pat 3 [.parser (greedy b!"g" none)]]
theorem besides_built : Builds besides := by decide +kernel

/-- `%{GREEDY:g}` answers, `%{INT:a}%{INT:b}` never does. -/
example := C111_never sip besides (utf8Lits (by decide +kernel)) (by decide +kernel) _ (okOf_eq _ besides_built) b!"77" u8!"77" _
  (answers besides_built _ (some ⟨pat 3 [], [(b!"g", b!"77")]⟩) (by decide +kernel)) b!"%{INT:a}%{INT:b}" u8!"%{INT:a}%{INT:b}" twoInts (by decide +kernel) twoInts_unsatisfiable
  (by decide +kernel)

def satisfied : Bytes := b!"%{INT:a}-%{SET(\"0ab\"):b}%{GREEDY:c}; %{INT:d}"
example := C111_suffix sip satisfied (by decide) (patternOf satisfied) (by decide +kernel) (by decide +kernel)

/-! ### Longer texts -/

example := C113_any_script sip greekSet greekSet_utf8 (patternOf greekSet) greekSet_compiles b!"xα" b!"β" u8!"xα" u8!"xαβ" ⟨pat 1 [], [(b!"a", b!"α")]⟩ (by decide +kernel)
  [(.set { name := some b!"a", characterSet := [177, 178, 206], minLength := none, maxLength := none }, b!"α")] (strict (by decide +kernel)) (by decide +kernel)
  (.parser (.set { name := some b!"a", characterSet := [177, 178, 206], minLength := none, maxLength := none })) (by decide +kernel)
example := C113_single sip b!"uid %{INT:n}" (by decide) (pat 1 [.literal b!"uid ", .parser (int b!"n")]) (by decide +kernel) b!"uid 12" b!"34" (by decide) (by decide)
  [(int b!"n", b!"12")] (strict (by decide +kernel)) (by decide +kernel) (.parser (int b!"n")) rfl

/-- `a%{INT:n}b` does not match both `a1b` and a longer text that begins with it. -/
def endsB : List Pattern := [pat 1 [.literal b!"a", .parser (int b!"n"), .literal b!"b"], pat 2 [.parser (greedy b!"g" none)]]
theorem endsB_built : Builds endsB := by decide +kernel
theorem endsB_answer : (trie endsB endsB_built).parse b!"a1b" = .ok (some ⟨pat 1 [], [(b!"n", b!"1")]⟩) := answers endsB_built _ _ (by decide +kernel)

example := C113_literal_end sip endsB (utf8Lits (by decide +kernel)) (by decide +kernel) (by decide +kernel) _ (okOf_eq _ endsB_built) endsB[0] (by decide +kernel) b!"b"
  rfl (by decide) b!"a1b" [] u8!"a1b" u8!"a1b" _ _ endsB_answer endsB_answer rfl rfl

/-! ### The work of an addition -/

theorem many_built : Builds many := by decide +kernel
example := C114_trie_parser sip many (utf8Lits (by decide +kernel)) _ (okOf_eq _ many_built) (pat 7 [.parser (int b!"z"), .literal b!"ab"]) (by decide)

/-! ### Other names -/

def orders : List Pattern := [orderSample1, orderSample2, orderSample3, orderSample4]
theorem orders_proper : Proper sip orders := orderSample_plain.proper
theorem orders_answer : (SuffixTree.build sip orders >>= fun t => t.parse b!"77") = .ok (some ⟨pat 4 [], [(b!"y", b!"77")]⟩) := by decide +kernel

theorem keepsApart {φ : Parser → Parser} {ps : List Pattern} (h : ∀ a ∈ ps.filterMap firstParser, ∀ b ∈ ps.filterMap firstParser, φ a = φ b → a = b) : KeepsApart φ ps := by
  rintro a b ⟨p, hp, ha⟩ ⟨q, hq, hb⟩
  exact h a (List.mem_filterMap.mpr ⟨p, hp, firstParser_iff.mpr ha⟩) b (List.mem_filterMap.mpr ⟨q, hq, firstParser_iff.mpr hb⟩)

example := C115_descriptions sip orders orders_proper (fun p => { p with uuid := p.uuid + 100, name := some b!"é" }) (fun _ => rfl) b!"77" u8!"77" _ orders_answer
example := C115_renamed sip orders orders_proper (fun n => n ++ b!"1") (fun _ _ h => List.append_cancel_right h) relabelSample (fun _ => rfl) (by decide +kernel) b!"77" u8!"77" _ orders_answer
example := C115_trie sip orders orders_proper (Option.map fun n => n ++ b!"1") relabelSample (fun _ => rfl) (keepsApart (by decide +kernel)) (by decide +kernel) b!"77" u8!"77"
example := C115_suffix sip orders orders_proper.utf8 orders_proper.hashes (Option.map fun n => n ++ b!"1") relabelSample (fun _ => rfl) (keepsApart (by decide +kernel))
  (by decide +kernel) b!"77" u8!"77"

end Verif.Instances
