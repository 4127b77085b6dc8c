import Verif.Instances.Suffix
import Verif.Props.C80_Agree
import Verif.Props.C83_Lines
import Verif.Props.C85_Calls
import Verif.Props.C87_Size
import Verif.Props.C95_Cost
import Verif.Props.C96_AddPanics
import Verif.Props.C97_AnyStack
import Verif.Props.C99_SuffixValidated
/-! The theorems about added patterns, costs and the stack, applied to concrete cases. -/
namespace Verif.Instances
open Verif.Spec Samples

/-! ### A pattern is added to the trie -/

def newInt : Pattern := pat 3 [.literal b!"bő", .parser (int b!"i")]
def newFruit : Pattern := pat 3 [.literal b!"apricot"]
def newGreedy : Pattern := pat 3 [.parser (greedy b!"g" none), .literal b!"!"]
def newSet : Pattern := pat 4 [.parser (set b!"s" b!"xyz"), .literal b!"!"]

theorem change_newInt : Proper sip (changeSample ++ [newInt]) := properOf ["app", "bő"] (by decide +kernel) (by decide +kernel)

/-- `bő5` was captured whole; now the pattern with the number answers. -/
example := C79_literal_led sip changeSample newInt change_newInt b!"bő" _ rfl b!"bő5" u8!"bő5" (some ⟨pat 2 [], [(b!"g", b!"bő5")]⟩) (some ⟨pat 3 [], [(b!"i", b!"5")]⟩)
  (by decide +kernel) (by decide +kernel)
/-- `ape` is lost, because of `app`. -/
example := C79_other_texts sip changeSample newFruit (proper (by decide +kernel)) b!"apricot" [] rfl b!"ape" u8!"ape" (by decide) (some ⟨pat 2 [], [(b!"g", b!"ape")]⟩) none
  (by decide +kernel) (by decide +kernel)
example := C79_parser_led sip changeSample newGreedy (proper (by decide +kernel)) (greedy b!"g" none) _ rfl b!"axe" u8!"axe" (some ⟨pat 2 [], [(b!"g", b!"axe")]⟩) none
  (by decide +kernel) (by decide +kernel)
example := C79_new_parser sip [pat 1 [.literal b!"app"]] newSet (proper (by decide +kernel)) (set b!"s" b!"xyz") _ rfl (by decide +kernel) b!"yx!" u8!"yx!"
  none (some ⟨pat 4 [], [(b!"s", b!"yx")]⟩) (by decide +kernel) (by decide +kernel)

theorem newParsers {ps qs : List Pattern}
    (h : (List.range qs.length).all (fun n => (qs.drop n).head?.all fun q => (firstParser q).all fun a => (ps ++ qs.take n).all fun p => decide (firstParser p ≠ some a)) = true) :
    ∀ A q B a, qs = A ++ q :: B → q.pattern.head? = some (.parser a) → ∀ p ∈ ps ++ A, p.pattern.head? ≠ some (.parser a) := by
  rintro A q B a rfl hq p hp e
  have h := List.all_eq_true.mp h A.length (by simp)
  simp only [List.drop_left, List.take_left, List.head?_cons, Option.all_some, firstParser_iff.mpr hq] at h
  exact of_decide_eq_true (List.all_eq_true.mp h p hp) (firstParser_iff.mpr e)

example := C79_sequence sip changeSample [newInt, newSet] (properOf ["app", "bő", "!"] (by decide +kernel) (by decide +kernel)) (newParsers (by decide +kernel)) b!"bő5" u8!"bő5"
  (some ⟨pat 2 [], [(b!"g", b!"bő5")]⟩) (some ⟨pat 3 [], [(b!"i", b!"5")]⟩) (by decide +kernel) (by decide +kernel)

/-! ### Both matchers agree -/

theorem far {ps : List Pattern} {l text : Bytes}
    (h : ((ps.filterMap firstLiteral).all fun l' => decide (l' = l) || (List.range (l'.length + 1)).all fun n => decide (l'.take n <+: text → (l'.take n).length < l.length)) = true) :
    ∀ l', Leading ps l' → l' ≠ l → ∀ c, c <+: l' → c <+: text → c.length < l.length := by
  simp only [List.all_eq_true, Bool.or_eq_true, decide_eq_true_eq] at h
  intro l' hl' hne c hc ht
  rcases h l' (leading_iff.mp hl') with h | h
  · exact absurd h hne
  · have e := List.prefix_iff_eq_take.mp hc
    have := h c.length (by have := hc.length_le; simp; omega)
    rw [← e] at this
    exact this ht

def greedyApple : Pattern := pat 2 [.literal b!"apple ", .parser (greedy b!"g" none)]

example := C80_agree sip familySample (plain (by decide +kernel)) familySample_undisturbed b!"apple 1" (by decide) greedyApple (by decide +kernel) b!"apple " _ rfl
  [(greedy b!"g" none, b!"1")] (strict (by decide +kernel)) (far (by decide +kernel))
example := C80_agree_utf8 sip familySample (proper (by decide +kernel)) familySample_undisturbed b!"apple é" u8!"apple é" greedyApple (by decide +kernel) b!"apple " _ rfl
  [(greedy b!"g" none, b!"é")] (strict (by decide +kernel)) (far (by decide +kernel))

/-! ### Where an error is -/

def errorOf? : M (Except ParseError (List Token)) → Option ParseError
  | .ok (.error e) => some e
  | _ => none

theorem errorOf?_eq {m : M (Except ParseError (List Token))} (h : (errorOf? m).isSome = true) : m = .ok (.error ((errorOf? m).get h)) := by
  match m, h with
  | .ok (.error e), _ => rfl

theorem threeLines : (errorOf? (compile b!"é\r\nb\nc%{x")).isSome = true := by decide +kernel
theorem twoLines : (errorOf? (compile b!"é\nc%{x")).isSome = true := by decide +kernel

theorem noCrLf {s : Bytes} (h : ((List.range s.length).all fun n => decide (¬ [13, 10] <+: s.drop n)) = true) : ∀ a b, s ≠ a ++ 13 :: 10 :: b := by
  rintro a b rfl
  have := List.all_eq_true.mp h a.length (by simp)
  simp at this

example := C83_position_partial _ _ (errorOf?_eq threeLines)
example := C83_no_crlf_partial b!"é\nc%{x" u8!"é\nc%{x" _ (errorOf?_eq twoLines) (noCrLf (by decide +kernel)) (by decide)

/-! ### Calls, size, stack and comparisons -/

theorem call_built : Builds callSample := by decide +kernel
theorem call_array : isOk (SuffixTable.build sip callSample) = true := by decide +kernel
theorem size_built : Builds sizeSample := by decide +kernel
theorem size_array : isOk (SuffixTable.build sip sizeSample) = true := by decide +kernel
theorem stack_built : Builds stackSample := by decide +kernel
theorem stack_array : isOk (SuffixTable.build sip stackSample) = true := by decide +kernel
theorem word_built : Builds wordSample := by decide +kernel

example := C85_trie sip callSample callSample_utf8 _ (okOf_eq _ call_built) b!"xy7"
example := C85_suffix_array sip callSample _ (okOf_eq _ call_array) b!"xy7"
example := C87_trie sip sizeSample sizeSample_utf8 _ (okOf_eq _ size_built)
example := C87_suffix_array sip sizeSample _ (okOf_eq _ size_array)
example := C88_trie sip stackSample stackSample_utf8 _ (okOf_eq _ stack_built) 38 (by decide) (by decide +kernel) b!"alma12 x"
example := C88_trie_height sip stackSample stackSample_utf8 _ (okOf_eq _ stack_built) 9 (by decide +kernel)
example := C88_suffix_array sip stackSample _ (okOf_eq _ stack_array) 11 (by decide) (by decide +kernel) b!"alma12 x"
example := C88_suffix_array_height sip stackSample _ (okOf_eq _ stack_array) 3 (by decide +kernel)

/-- the result of a call that has enough stack -/
theorem enough {α : Type} {o : Option α} (h : o.isSome = true) : o = some (o.get h) := by simp

theorem trieStack : (SuffixTree.parseS 6 (trie stackSample stack_built) b!"alma12 x").isSome = true := by decide +kernel
theorem arrayStack : (SuffixTable.parseS 11 (table stackSample stack_array) b!"alma12 x").isSome = true := by decide +kernel
example := C88_trie_same (trie stackSample stack_built) b!"alma12 x" 6 _ (enough trieStack)
example := C88_suffix_array_same (table stackSample stack_array) b!"alma12 x" 11 _ (enough arrayStack)

theorem chain_built : Builds chain := by decide +kernel
theorem chain_array : isOk (SuffixTable.build sip chain) = true := by decide +kernel

def added? {α : Type} : Option (M α) → Bool
  | some (.ok _) => true
  | _ => false

def addedOf {α : Type} : (o : Option (M α)) → added? o = true → α
  | some (.ok a), _ => a

theorem addedOf_eq {α : Type} {o : Option (M α)} (h : added? o = true) : o = some (.ok (addedOf o h)) := by
  match o, h with
  | some (.ok a), _ => rfl

theorem chainTrie : added? (SuffixTree.addPatternS sip 6 (trie chain chain_built) chainLast) = true := by decide +kernel
theorem chainArray : added? (SuffixTable.addPatternS sip 5 (table chain chain_array) chainLast) = true := by decide +kernel
example := C97_trie_needed sip _ _ chainLast 6 (addedOf_eq chainTrie)
example := C97_trie_same sip _ chainLast 6 _ (addedOf_eq chainTrie)
example := C97_suffix_needed sip _ _ chainLast 5 (addedOf_eq chainArray)
example := C97_suffix_same sip _ chainLast 5 _ (addedOf_eq chainArray)
example := C97_suffix sip (table chain chain_array) chainLast 6 (by decide)

example := C95_trie sip callSample callSample_utf8 _ (okOf_eq _ call_built) b!"17 b" u8!"17 b"
example := C95_suffix_array sip callSample _ (okOf_eq _ call_array) b!"17 b"
example := C95_suffix_array_literal sip callSample _ (okOf_eq _ call_array) b!"17 b" 2 (by decide +kernel)
  ⟨pat 3 [.literal b!"a ", .parser (int b!"i")], by decide +kernel, b!"a ", rfl⟩
example := C95_trie_literals sip wordSample wordSample_utf8 (by
    have h : ∀ p ∈ wordSample, parsersOf p.pattern = [] := by decide +kernel
    intro p hp a ha
    have := mem_parsersOf.mpr ha
    rw [h p hp] at this
    cases this) _ (okOf_eq _ word_built) b!"apple pie" u8!"apple pie"

/-! ### When an addition panics -/

theorem panicky (strs : List String) {ps : List Pattern}
    (h : (ps.all fun p => (literalsOf p.pattern).all fun l => strs.any fun s => decide (l = s.toList.flatMap String.utf8EncodeChar)) = true) : ∀ p ∈ ps, Utf8Lits p :=
  utf8LitsOf strs h

example := C96_build_panics_iff sip [addSample b!"a", addSample b!"aé"] (panicky ["a", "aé"] (by decide +kernel)) (by decide +kernel) (by decide +kernel)
example := C96_build_panics_iff_compiled sip compiled (fun p hp => by obtain ⟨s, h, e⟩ := compiled_all p hp; exact ⟨s, ascii_utf8 h, e⟩)
/-- `x` and then `é`, with a pattern between them -/
example := C96_nonascii_literal_excludes_others sip [] [pat 7 [.parser (int b!"i")]] [] (addSample b!"x") (addSample b!"é") (panicky ["x", "é"] (by decide +kernel))
  (by decide +kernel) (by decide +kernel) ⟨_, rfl⟩ ⟨_, rfl⟩ (.inr ⟨_, rfl, _, _, rfl, by decide⟩)

theorem notLed {ps : List Pattern} (h : ∀ p ∈ ps, firstLiteral p = none) : ∀ s ∈ ps, ¬ LiteralLed s := by
  rintro s hs ⟨l, e⟩
  obtain ⟨rest, e⟩ := head_literal e
  have := firstLiteral_iff.mpr ⟨rest, e⟩
  rw [h s hs] at this
  cases this

example := C96_one_literal_never_panics sip [pat 7 [.parser (int b!"i"), .literal b!"é"]] [pat 8 [.parser (greedy b!"g" none)]] (addSample b!"é")
  (panicky ["é"] (by decide +kernel)) (by decide +kernel) (by decide +kernel) (notLed (by decide +kernel)) (notLed (by decide +kernel))

/-! ### A pattern is added to the suffix array -/

theorem longest {a b c : Bytes} (hc : Utf8 c) (h : c <+: a ∧ c <+: b ∧ ((List.range (a.length + 1)).all fun n => decide (a.take n <+: b → (a.take n).length ≤ c.length)) = true) :
    LongestCommonPrefix a b c := by
  refine ⟨hc, h.1, h.2.1, fun c' _ h1 h2 => ?_⟩
  have e := List.prefix_iff_eq_take.mp h1
  have := of_decide_eq_true (List.all_eq_true.mp h.2.2 c'.length (by have := h1.length_le; simp; omega))
  rw [← e] at this
  exact this h2

def arrayFruit : Pattern := pat 3 [.literal b!"apple"]
def arrayApp : Pattern := pat 3 [.literal b!"app 5"]
def arrayGreedy : Pattern := pat 3 [.parser (greedy b!"g" none)]

theorem leads {ps : List Pattern} {l : Bytes} (h : (ps.filterMap firstLiteral).contains l = true) : Leads ps l := by
  simp only [List.contains_iff_mem, List.mem_filterMap, firstLiteral_iff] at h
  obtain ⟨p, hp, rest, e⟩ := h
  exact ⟨p, hp, by rw [e]; rfl⟩

theorem noLeads {ps : List Pattern} (h : ∀ p ∈ ps, firstLiteral p = none) : ∀ l, ¬ Leads ps l := by
  rintro l ⟨p, hp, e⟩
  exact notLed h p hp ⟨l, e⟩

example := C73_answer_exists tableSample table_lits b!"appé" u8!"appé"
example := C98_farther sip suffixChangeSample arrayFruit (utf8Lits (by decide +kernel)) (by decide +kernel) b!"apple" [] rfl b!"egy7" u8!"egy7" b!"egy" [] b!"egy"
  (leads (by decide +kernel)) (longest ⟨[], rfl⟩ (by decide +kernel)) (longest u8!"egy" (by decide +kernel)) (by decide)

theorem fartherAll {qs : List Pattern} {text : Bytes} {n : Nat}
    (h : ((qs.filterMap firstLiteral).all fun l => (List.range (l.length + 1)).all fun k => decide (l.take k <+: text → (l.take k).length < n)) = true) :
    ∀ q ∈ qs, ∀ l, q.pattern.head? = some (.literal l) → ∀ c, LongestCommonPrefix l text c → c.length < n := by
  rintro q hq l hl c ⟨_, h1, h2, _⟩
  obtain ⟨rest, e⟩ := head_literal hl
  have h := List.all_eq_true.mp h l (List.mem_filterMap.mpr ⟨q, hq, firstLiteral_iff.mpr ⟨rest, e⟩⟩)
  have e := List.prefix_iff_eq_take.mp h1
  have := of_decide_eq_true (List.all_eq_true.mp h c.length (by have := h1.length_le; simp; omega))
  rw [← e] at this
  exact this h2

example := C98_farther_sequence sip suffixChangeSample [arrayFruit, arrayGreedy, newInt] (utf8LitsOf ["app ", "egy", "apple", "bő"] (by decide +kernel)) (by decide +kernel) b!"egy7"
  u8!"egy7" b!"egy" b!"egy" (leads (by decide +kernel)) (longest u8!"egy" (by decide +kernel)) (fartherAll (by decide +kernel))
example := C98_literal_led sip suffixChangeSample arrayApp (utf8Lits (by decide +kernel)) (by decide +kernel) b!"app 5" [] rfl b!"app 5" u8!"app 5"
  (some ⟨pat 1 [], [(b!"i", b!"5")]⟩) (some ⟨pat 3 [], []⟩) (by decide +kernel) (by decide +kernel)

/-- `%{INT:i}` alone, to which `x` and `%{INT:i} %{INT:j}` are added -/
def oneInt : List Pattern := [pat 1 [.parser (int b!"i")]]

example := C98_first_literal sip oneInt (pat 2 [.literal b!"x"]) (utf8Lits (by decide +kernel)) (by decide +kernel) b!"x" [] rfl (noLeads (by decide +kernel)) b!"x" u8!"x"
  (some ⟨pat 2 [], []⟩) (by decide +kernel)
example := C98_parser_led sip oneInt (pat 2 [.parser (int b!"i"), .literal b!" ", .parser (int b!"j")]) (utf8Lits (by decide +kernel)) (by decide +kernel) (int b!"i") _ rfl
  (noLeads (by decide +kernel)) b!"5" u8!"5" (some ⟨pat 1 [], [(b!"i", b!"5")]⟩) none (by decide +kernel) (by decide +kernel)
example := C98_parser_led_dead sip suffixChangeSample arrayGreedy (utf8Lits (by decide +kernel)) (by decide +kernel) (greedy b!"g" none) rfl
  ⟨b!"egy", leads (by decide +kernel)⟩ b!"x" u8!"x"
example := C98_sequence sip suffixChangeSample [arrayGreedy, arrayApp] (utf8Lits (by decide +kernel)) (by decide +kernel)
  (unrivalled_of_literal ⟨b!"egy", leads (by decide +kernel)⟩ _) b!"app 5" u8!"app 5" (some ⟨pat 1 [], [(b!"i", b!"5")]⟩) (some ⟨pat 3 [], []⟩) (by decide +kernel) (by decide +kernel)

end Verif.Instances
