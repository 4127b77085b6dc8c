import Verif.Instances.Trie
import Verif.Props.C49_Merge
import Verif.Props.C66_Panics
import Verif.Props.C73_C74_SuffixAnswer
import Verif.Props.C75_C76_Panics
import Verif.Props.C101_Again
import Verif.Props.C102_Local
/-! The theorems about the suffix array, the tables and the families of patterns, applied to concrete cases. -/
namespace Verif.Instances
open Verif.Spec Samples

theorem array_built : isOk (SuffixTable.build sip tableSample) = true := by decide +kernel

/-! ### The suffix array -/

example := C23_empty_pattern_suffix_array sip (table tableSample array_built) (pat 10 []) rfl
example := C24_readd_replaces_suffix_array sip tableSample (pat 10 [.literal b!"né", .parser (int b!"k")]) (pat 11 [.literal b!"né", .parser (int b!"k")]) rfl
example := C25_literal_map sip tableSample greek (pat 12 [.literal b!"né"]) b!"né" u8!"né" rfl (by decide +kernel)
example := C27_longest_common_prefix sip tableSample table_lits b!"appé" u8!"appé"

theorem litFree {ps : List Pattern} (h : ∀ p ∈ ps, literalsOf p.pattern = []) : ∀ p ∈ ps, ∀ l, Token.literal l ∉ p.pattern := by
  intro p hp l hl
  have := mem_literalsOf.mpr hl
  rw [h p hp] at this
  cases this

/-- `%{INT:i}%{GREEDY:g}`, `%{SET:s:set="xyz"}`, `%{INT:j}` -/
def parsersOnly : List Pattern := [pat 1 [.parser (int b!"i"), .parser (greedy b!"g" none)], pat 2 [.parser (set b!"s" b!"xyz")], pat 3 [.parser (int b!"j")]]
theorem parsersOnly_array : isOk (SuffixTable.build sip parsersOnly) = true := by decide +kernel

example := C28_literal_free_partial sip parsersOnly (litFree (by decide +kernel)) (by decide +kernel) _ (okOf_eq _ parsersOnly_array) b!"7é" u8!"7é" _
  (tableAnswers parsersOnly_array _ (some ⟨pat 1 [], [(b!"g", b!"é"), (b!"i", b!"7")]⟩) (by decide +kernel))
example := C28_loose_partial sip tableSample table_lits table_hashes _ (okOf_eq _ array_built) b!"app5" u8!"app5" _
  (tableAnswers array_built _ (some ⟨pat 3 [], [(b!"j", b!"5")]⟩) (by decide +kernel))
example := C31_parsers_never_tried_refuted sip tableSample table_lits ⟨_, List.mem_cons_self .., _, rfl⟩ _ (okOf_eq _ array_built) b!"app5" u8!"app5" _
  (tableAnswers array_built _ (some ⟨pat 3 [], [(b!"j", b!"5")]⟩) (by decide +kernel))

/-- `né%{INT:i}!` -/
theorem single_supported : Supported single :=
  ⟨utf8LitsOf ["né", "!"] (ps := [single]) (by decide +kernel) single (by simp), fun a ha => by
    have h : ∀ a ∈ parsersOf single.pattern, AsciiParser a ∧ asciiStrings a = true := by decide +kernel
    exact ⟨(h a (mem_parsersOf.mpr ha)).1, utf8Parser (h a (mem_parsersOf.mpr ha)).2⟩⟩

example := C29_single_complete sip single single_supported (by decide) b!"né77!" u8!"né77!" [(int b!"i", b!"77")] (strict (by decide +kernel))
example := C29_single_exact sip single single_supported (by decide) b!"né77!" u8!"né77!"
example := C29_single_complete_ascii sip (pat 1 [.literal b!"n", .parser (int b!"i"), .literal b!"!"]) (by decide) (by decide) b!"n77!" (by decide)
  [(int b!"i", b!"77")] (strict (by decide +kernel))

example := C30_incomparable_partial sip incomparableAscii (supported (by decide +kernel)) (by decide +kernel) (by decide +kernel) (by decide +kernel) b!"y7!" (by decide)
  (pat 3 [.literal b!"y", .parser (int b!"i"), .literal b!"!"]) (by decide +kernel) [(int b!"i", b!"7")] (strict (by decide +kernel))
example := C30_literal_free_partial sip parsersOnly (litFree (by decide +kernel)) b!"7é"
example := C30_literals_partial sip words (by decide +kernel) words_all (pat 3 [.literal b!"apple"]) (by decide +kernel) b!"apple" rfl
example := C31_parser_led_partial sip [pat 1 [.parser (int b!"i"), .literal b!"!"], pat 3 [.parser (greedy b!"g" none)]] (supported (by decide +kernel)) (by decide +kernel)
  (by decide +kernel) b!"7é" u8!"7é"

/-! ### One node for each parser -/

theorem merge_runtime : ∀ a ∈ firstParsers mergeSample, RuntimeParser a := by
  intro a ha
  simp only [firstParsers, mergeSample, pat, List.filterMap_cons, List.filterMap_nil, List.mem_cons, List.not_mem_nil, or_false] at ha
  rcases ha with rfl | rfl | rfl | rfl
  · exact ⟨by intro n hn; cases hn; exact ascii_utf8 (by decide), bsetFromIter_sorted _, (by intro n hn; cases hn), (by intro n hn; cases hn)⟩
  · exact ⟨by intro n hn; cases hn; exact ascii_utf8 (by decide), bsetFromIter_sorted _, (by intro n hn; cases hn), (by intro n hn; cases hn)⟩
  · exact ⟨by intro n hn; cases hn; exact ascii_utf8 (by decide), by intro n hn; cases hn⟩
  · exact ⟨by intro n hn; cases hn; exact ascii_utf8 (by decide), bsetFromIter_sorted _, (by intro n hn; cases hn), (by intro n hn; cases hn)⟩

theorem merge_built : Builds mergeSample := by decide +kernel
theorem merge_array : isOk (SuffixTable.build sip mergeSample) = true := by decide +kernel

example := C49_trie_one_node_each sip mergeSample (utf8Lits (by decide +kernel)) merge_runtime (by unfold NoSipCollision; decide +kernel) _ (okOf_eq _ merge_built)
example := C49_suffix_array_one_node_each sip mergeSample merge_runtime (by unfold NoSipCollision; decide +kernel) _ (okOf_eq _ merge_array)

/-! ### The table -/

theorem table_nonempty : ∀ p ∈ tableSample, NonemptyLits p := by decide +kernel
theorem table_split : ∀ p ∈ tableSample, SplitLiterals p := by decide +kernel

theorem tableAnswer : (Table.of tableSample).Answer b!"xé" (some ⟨pat 9 [], [(b!"g", b!"xé")]⟩) := C65_table sip tableSample table_lits table_nonempty table_split table_hashes _ (okOf_eq _ table_built) b!"xé" u8!"xé" _ table_xé
example := C65_answer_unique _ _ _ _ tableAnswer tableAnswer
example := C65_table_ascii sip tableSample (by decide +kernel) table_nonempty table_split table_hashes b!"app12" (by decide)
example := C65_same_table sip order1 (order1.drop 1) (by decide +kernel) (by decide +kernel) (by decide +kernel) (by decide +kernel) (by decide +kernel) b!"ab7" (by decide)

/-- `app%{INT:i}x`, `%{GREEDY:g}`, `apple` and `app%{INT:j}`, as compiled -/
def compiled : List Pattern :=
  [pat 1 [.literal b!"app", .parser (.int (intDelegate (some b!"i"))), .literal b!"x"], pat 2 [.parser (greedy b!"g" none)], pat 3 [.literal b!"apple"],
   pat 4 [.literal b!"app", .parser (.int (intDelegate (some b!"j")))]]

theorem compiled_all : ∀ p ∈ compiled, CompiledAscii p := by
  intro p hp
  simp only [compiled, List.mem_cons, List.not_mem_nil, or_false] at hp
  rcases hp with rfl | rfl | rfl | rfl
  · exact ⟨b!"app%{INT:i}x", by decide, by decide +kernel⟩
  · exact ⟨b!"%{GREEDY:g}", by decide, by decide +kernel⟩
  · exact ⟨b!"apple", by decide, by decide +kernel⟩
  · exact ⟨b!"app%{INT:j}", by decide, by decide +kernel⟩

example := C65_table_compiled sip compiled compiled_all (by decide +kernel) b!"app7x" (by decide)
example := C66_panics_iff_compiled sip compiled compiled_all (by decide +kernel) b!"appé" u8!"appé"

/-- without the pattern that is replaced -/
theorem fewer_compiled : ∀ p ∈ compiled.reverse.take 3, CompiledAscii p := fun p hp => compiled_all p (List.mem_reverse.mp (List.mem_of_mem_take hp))
example := C75_family_compiled sip (compiled.reverse.take 3) (undisturbed (by decide +kernel)) fewer_compiled (by decide +kernel) b!"app7" (by decide)

/-! ### Panics -/

example := C66_no_literals_no_panic sip parsersOnly (litFree (by decide +kernel)) (by
    have h : ∀ p ∈ parsersOnly, ∀ a ∈ parsersOf p.pattern, AsciiParser a ∧ asciiStrings a = true := by decide +kernel
    exact fun p hp a ha => ⟨(h p hp a (mem_parsersOf.mpr ha)).1, utf8Parser (h p hp a (mem_parsersOf.mpr ha)).2⟩) (by decide +kernel) b!"é7" u8!"é7"

/-- a literal that begins with a letter outside ASCII -/
def accents : List Pattern := [pat 1 [.literal b!"é", .parser (int b!"i")], pat 2 [.parser (greedy b!"g" none)]]
theorem accents_built : Builds accents := by decide +kernel
theorem accents_proper : Proper sip accents := properOf ["é"] (by decide +kernel) (by decide +kernel)

example := C66_nonascii_literal_panics sip accents accents_proper.utf8 accents_proper.nonempty accents_proper.split accents_proper.hashes
  ⟨b!"é", none, some (pat 1 [.literal b!"é", .parser (int b!"i")])⟩ (by decide +kernel) ⟨_, _, rfl, by decide⟩ _ (okOf_eq _ accents_built) b!"x" u8!"x" (by decide)
example := C66_nonascii_start_panics sip tableSample table_lits table_nonempty table_split table_hashes ⟨_, List.mem_cons_self .., _, rfl⟩ _ (okOf_eq _ table_built)
  b!"éa" u8!"éa" ⟨_, _, rfl, by decide⟩
example := C66_panics_iff sip tableSample table_lits table_nonempty table_split table_hashes _ (okOf_eq _ table_built) b!"apé" u8!"apé"
example := C66_panics_iff_ascii sip tableSample (by decide +kernel) table_nonempty table_split table_hashes b!"apé" u8!"apé"

/-! ### Which answer the suffix array gives -/

example := C73_answer sip tableSample table_lits table_hashes
example := C73_chosen tableSample table_lits b!"appé" u8!"appé" ⟨_, _, List.mem_cons_self .., rfl⟩
theorem suffix_answer : SuffixAnswer tableSample b!"app5" (some ⟨pat 3 [], [(b!"j", b!"5")]⟩) := by
  obtain ⟨t, hb, h⟩ := C73_answer sip tableSample table_lits table_hashes
  have e : (SuffixTable.build sip tableSample >>= fun t => t.parse b!"app5") = .ok (some ⟨pat 3 [], [(b!"j", b!"5")]⟩) := by decide +kernel
  rw [hb] at e
  exact h b!"app5" u8!"app5" _ e
example := C73_answer_unique tableSample table_lits b!"app5" u8!"app5" _ _ suffix_answer suffix_answer
example := C74_ascii sip tableSample table_lits table_hashes b!"app5" (by decide)
example := C74_compiled sip compiled (fun p hp => by obtain ⟨s, h, e⟩ := compiled_all p hp; exact ⟨s, ascii_utf8 h, e⟩) (by decide +kernel) b!"appé" u8!"appé"
example := C74_panics_iff sip troubleSample (utf8Lits (by decide +kernel)) (by decide +kernel) b!"aÃ" u8!"aÃ"

/-! ### Families of patterns -/

theorem family_built : Builds familySample := by decide +kernel
theorem family_lits : ∀ p ∈ familySample, Utf8Lits p := utf8Lits familySample_lits.1

theorem family_answer (text : Bytes) (hx : Utf8 text) (r : Option MatchResult) (e : (SuffixTree.build sip familySample >>= fun t => t.parse text) = .ok r) :
    FamilyAnswer familySample text r :=
  C75_family sip familySample familySample_undisturbed family_lits familySample_lits.2.1 familySample_lits.2.2 familySample_hashes _ (okOf_eq _ family_built) text hx r
    (answers family_built _ _ e)

example := family_answer b!"xé" u8!"xé" (some ⟨pat 7 [], [(b!"g", b!"xé")]⟩) (by decide +kernel)
theorem family_app7 : FamilyAnswer familySample b!"app7" (some ⟨pat 1 [], [(b!"i", b!"7")]⟩) := family_answer b!"app7" u8!"app7" (some ⟨pat 1 [], [(b!"i", b!"7")]⟩) (by decide +kernel)
theorem family_xyz : FamilyAnswer familySample b!"xyz" (some ⟨pat 7 [], [(b!"g", b!"xyz")]⟩) := family_answer b!"xyz" u8!"xyz" (some ⟨pat 7 [], [(b!"g", b!"xyz")]⟩) (by decide +kernel)
example := C75_answer_unique _ _ _ _ family_app7 family_app7

/-- the places where the search can stop are not longer than `n` -/
theorem stops {ps : List Pattern} {text : Bytes} {n : Nat}
    (h : (((ps.filterMap firstLiteral).all fun l => (decide (l <+: text → ps.all (fun p => decide (¬ GoesOn p l)) = true ∨ l.length ≤ n)) &&
      (ps.filterMap firstLiteral).all fun l' => decide (l = l') ||
        (List.range (l.length + 1)).all fun k => decide (l.take k <+: l' → l.take k <+: text → (l.take k).length ≤ n))) = true) :
    ∀ b, FamilyStop ps b → b <+: text → b.length ≤ n := by
  simp only [List.all_eq_true, Bool.and_eq_true, Bool.or_eq_true, decide_eq_true_eq] at h
  rintro b (rfl | ⟨p, hp, rest, hne, e⟩ | ⟨l, l', hl, hl', hne, hc⟩) hb
  · simp
  · have hf := firstLiteral_iff.mpr ⟨rest, e⟩
    rcases (h b (List.mem_filterMap.mpr ⟨p, hp, hf⟩)).1 hb with h1 | h1
    · exact absurd ⟨rest, hne, e⟩ (h1 p hp)
    · exact h1
  · rcases (h l (leading_iff.mp hl)).2 l' (leading_iff.mp hl') with h1 | h1
    · exact absurd h1 hne
    · have e := List.prefix_iff_eq_take.mp hc.1
      have := h1 b.length (by have := hc.1.length_le; simp; omega)
      rw [← e] at this
      exact this hc.2.1 hb

example := C76_literal_led familySample b!"app7" _ family_app7 b!"app" (by decide) (pat 1 [.literal b!"app", .parser (int b!"i")])
  ⟨by decide +kernel, _, by decide, rfl⟩ (by decide +kernel) (stops (by decide +kernel)) [(int b!"i", b!"7")] (strict (by decide +kernel))
example := C76_parser_led familySample b!"xyz" _ family_xyz (by decide +kernel)
  (fun b hb hp => List.eq_nil_of_length_eq_zero (Nat.le_zero.mp (stops (n := 0) (by decide +kernel) b hb hp)))

/-- the same patterns in another order -/
def familyReordered : List Pattern := familySample.drop 3 ++ familySample.take 3
def familyMoved : List Pattern :=
  [pat 3 [.parser (int b!"i"), .literal b!"!"], pat 1 [.literal b!"app", .parser (int b!"i")], pat 6 [.literal b!"a"], pat 4 [.literal b!"app"],
   pat 2 [.literal b!"apple ", .parser (greedy b!"g" none)], pat 7 [.parser (greedy b!"g" none)], pat 5 [.literal b!"apricot"]]

theorem same_members {ps qs : List Pattern} (h : (∀ p ∈ ps, p ∈ qs) ∧ ∀ p ∈ qs, p ∈ ps) : ∀ p, p ∈ ps ↔ p ∈ qs := fun p => ⟨h.1 p, h.2 p⟩

example := C76_order sip familySample familyMoved familySample_undisturbed (undisturbed (by decide +kernel)) (same_members (by decide +kernel)) (by decide +kernel)
  familySample_lits.1 familySample_lits.2.1 familySample_lits.2.2 familySample_hashes b!"apple 7" (by decide)

theorem greekSample_built : Builds greekSample := by decide +kernel
theorem greekReverse_built : Builds greekSample.reverse := by decide +kernel

example := C75_family_panics sip greekSample greekSample_undisturbed.1 greekSample_lits.1 greekSample_lits.2.1 greekSample_lits.2.2 greekSample_hashes _
  (okOf_eq _ greekSample_built) b!"xψ" u8!"xψ"
example := C76_order_any_script sip greekSample greekSample.reverse greekSample_undisturbed.1 greekSample_undisturbed.2 (fun _ => List.mem_reverse.symm) (by decide +kernel)
  greekSample_lits.1 greekSample_lits.2.1 greekSample_lits.2.2 greekSample_hashes _ _ (okOf_eq _ greekSample_built) (okOf_eq _ greekReverse_built) b!"xbψ" u8!"xbψ"

/-! ### Order, repetition, locality -/

theorem loose {p : Pattern} (hu : Utf8Lits p) {text : Bytes} (caps : List (Parser × Bytes)) (h : strict? p.pattern text = some caps) : ∃ caps, LooseMatches p.pattern text caps :=
  ⟨caps, strict_loose (strict h) hu⟩

theorem ab_lits : ∀ s ∈ [ab1, ab2], Utf8Lits s := utf8Lits (by decide +kernel)

example := C100_order_counts sip ab1 ab2 ab_lits (by decide +kernel) (by decide +kernel) (by decide +kernel) b!"ab7" (by decide)
  (loose (ab_lits _ (by simp)) [(int b!"i", b!"7")] (by decide +kernel)) (loose (ab_lits _ (by simp)) [(greedy b!"g" none, b!"7")] (by decide +kernel))

theorem aβ_lits : ∀ s ∈ [αβ1, αβ2], Utf8Lits s := utf8LitsOf ["aβ"] (by decide +kernel)

example := C100_order_counts_utf8 sip αβ1 αβ2 aβ_lits (by decide +kernel) (by decide +kernel) (by decide +kernel) b!"aβ7" u8!"aβ7"
  (loose (aβ_lits _ (by simp)) [(int b!"i", b!"7")] (by decide +kernel)) (loose (aβ_lits _ (by simp)) [(greedy b!"g" none, b!"7")] (by decide +kernel))
  (some ⟨pat 2 [], [(b!"g", b!"7")]⟩) (some ⟨pat 1 [], [(b!"i", b!"7")]⟩) (by decide +kernel) (by decide +kernel)

example := C101_nonascii_panics sip accents accents_proper _ (List.mem_cons_self ..) ⟨_, rfl⟩ ⟨_, rfl, _, _, rfl, by decide⟩
example := C101_suffix sip tableSample table_lits table_hashes 2 b!"appé" u8!"appé"
example := C101_trie sip tableSample table_plain 2 b!"appé" u8!"appé"
example := C101_trie_utf8 sip greek (properOf ["xα", "yβ"] (by decide +kernel) (by decide +kernel)) 2 _ _ (okOf_eq _ (by decide +kernel)) (okOf_eq _ greek_built) b!"yβ" u8!"yβ"
example := C102_others_do_not_count sip order1 (order1 ++ [pat 9 [.literal b!"zz"]]) (plain (by decide +kernel)) (plain (by decide +kernel)) 97 (by decide) (by decide +kernel)
  b!"b7" u8!"ab7"

end Verif.Instances
