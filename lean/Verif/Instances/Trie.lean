import Verif.Instances.Basic
import Verif.Props.C11_C14_TrieSound
import Verif.Props.C15_C24_Trie
import Verif.Props.C20_Order
import Verif.Props.C24_Readd
import Verif.Props.C53_Greedy
import Verif.Props.C100_SuffixOrder
/-! The theorems about the trie, applied to concrete cases. -/
namespace Verif.Instances
open Verif.Spec Samples

theorem table_lits : ∀ p ∈ tableSample, Utf8Lits p := utf8Lits (by decide +kernel)
theorem table_hashes : NoCollision sip tableSample := by decide +kernel
theorem table_built : Builds tableSample := by decide +kernel
theorem table_plain : Plain sip tableSample := plain (by decide +kernel)

/-- the answer to a text none of the literals begins with -/
theorem table_xé : (trie tableSample table_built).parse b!"xé" = .ok (some ⟨pat 9 [], [(b!"g", b!"xé")]⟩) := answers table_built _ _ (by decide +kernel)
theorem table_app12 : (trie tableSample table_built).parse b!"app12" = .ok (some ⟨pat 3 [], [(b!"j", b!"12")]⟩) := answers table_built _ _ (by decide +kernel)

example := C11_trie_sound sip tableSample table_lits table_hashes _ (okOf_eq _ table_built) b!"xé" u8!"xé" _ table_xé
example := C12_values_are_captures sip tableSample table_lits table_hashes _ (okOf_eq _ table_built) b!"app12" u8!"app12" _ table_app12
example := C51_metadata sip tableSample table_lits table_hashes _ (okOf_eq _ table_built) b!"app12" u8!"app12" _ table_app12
example := C13_ascii_never_panics sip tableSample (by decide +kernel)
example := C14_no_panic_partial sip tableSample (by decide +kernel) b!"app12x" (by decide)

/-- `x%{GREEDY:g}%{INT:i}`, `y%{GREEDY:g}%{INT:j}` -/
def greedySet : List Pattern :=
  [pat 1 [.literal b!"x", .parser (greedy b!"g" none), .parser (int b!"i")], pat 2 [.literal b!"y", .parser (greedy b!"g" none), .parser (int b!"j")]]

theorem greedySet_all : ∀ p ∈ greedySet, GreedyThenSet p.pattern := by
  intro p hp
  simp only [greedySet, List.mem_cons, List.not_mem_nil, or_false] at hp
  rcases hp with rfl | rfl
  · exact ⟨[.literal b!"x"], _, _, [], rfl, rfl, _, .inr rfl⟩
  · exact ⟨[.literal b!"y"], _, _, [], rfl, rfl, _, .inr rfl⟩

theorem greedySet_built : Builds greedySet := by decide +kernel

example := C54_only_greedy_then_set sip greedySet (utf8Lits (by decide +kernel)) (by decide +kernel) greedySet_all _ (okOf_eq _ greedySet_built) b!"xé7" u8!"xé7" none
  (answers greedySet_built _ _ (by decide +kernel))

theorem greedyMore_built : Builds (greedySet ++ [pat 3 [.literal b!"z", .parser (int b!"i")]]) := by decide +kernel

example := C54_greedy_then_set_never sip (greedySet ++ [pat 3 [.literal b!"z", .parser (int b!"i")]]) (utf8Lits (by decide +kernel)) (by decide +kernel) _
  (okOf_eq _ greedyMore_built) b!"z7" u8!"z7" ⟨pat 3 [], [(b!"i", b!"7")]⟩ (answers greedyMore_built _ _ (by decide +kernel))
  (by
    have h : ∀ p ∈ greedySet ++ [pat 3 [.literal b!"z", .parser (int b!"i")]], ∀ q ∈ greedySet ++ [pat 3 [.literal b!"z", .parser (int b!"i")]],
      q.pattern ≠ p.pattern → q.uuid ≠ p.uuid := by decide +kernel
    exact fun p hp _ q hq => h p hp q hq) (pat 1 [.literal b!"x", .parser (greedy b!"g" none), .parser (int b!"i")]) (by decide +kernel)
  ⟨[.literal b!"x"], _, _, [], rfl, rfl, _, .inr rfl⟩

/-- literals with letters outside ASCII -/
def greek : List Pattern := [pat 1 [.literal b!"xα"], pat 2 [.literal b!"yβ"], pat 3 [.literal b!"xα"]]
theorem greek_lits : ∀ p ∈ greek, Utf8Lits p := utf8LitsOf ["xα", "yβ"] (by decide +kernel)
theorem greek_built : Builds greek := by decide +kernel

example := C15_literal_after_add sip [pat 1 [.literal b!"xα"], pat 2 [.literal b!"yβ"]] (pat 3 [.literal b!"xα"]) b!"xα" rfl greek_lits _
  (okOf_eq _ greek_built) _ (answers greek_built _ (some ⟨pat 3 [], []⟩) (by decide +kernel))
example := C15_literal_after_add_ascii sip tableSample (pat 10 [.literal b!"ap"]) b!"ap" rfl (by decide +kernel)
example := C16_literal_map sip greek greek_lits (by
    intro p hp; simp only [greek, List.mem_cons, List.not_mem_nil, or_false] at hp; rcases hp with rfl | rfl | rfl <;> exact ⟨_, rfl⟩) _
  (okOf_eq _ greek_built) b!"yβ" u8!"yβ" _ (answers greek_built _ (some ⟨pat 2 [], []⟩) (by decide +kernel))

def words : List Pattern := [pat 1 [.literal b!"app"], pat 2 [.literal b!"apricot"], pat 3 [.literal b!"apple"], pat 4 [.literal b!"a"]]
theorem words_all : ∀ p ∈ words, ∃ l, p.pattern = [.literal l] := by
  intro p hp; simp only [words, List.mem_cons, List.not_mem_nil, or_false] at hp; rcases hp with rfl | rfl | rfl | rfl <;> exact ⟨_, rfl⟩

example := C16_literal_map_ascii sip words (by decide +kernel) words_all b!"apple" (by decide)
example := C20_literals_partial sip words words.reverse (List.reverse_perm _).symm (by decide +kernel) words_all (by decide +kernel) b!"app" (by decide)

/-- what may be added after `apple` -/
def harmless : List Pattern := [pat 6 [.literal b!"apricot", .parser (int b!"i")], pat 7 [.parser (greedy b!"g" none)], pat 8 [.literal b!"app"]]

example := C17_literal_kept_partial sip (words.take 2 ++ pat 3 [.literal b!"apple"] :: [pat 4 [.literal b!"a"]]) harmless (by decide +kernel)
  (pat 3 [.literal b!"apple"]) b!"apple" rfl (words.take 2) [pat 4 [.literal b!"a"]] rfl (by decide +kernel)
example := C21_literal_precedence_ascii sip [pat 7 [.parser (greedy b!"g" none)]] harmless (pat 3 [.literal b!"apple"]) b!"apple" rfl (by decide +kernel)
  (by decide +kernel)

/-- a GREEDY pattern, the literal `xα`, and another one -/
def precedence : List Pattern := [pat 7 [.parser (greedy b!"g" none)]] ++ pat 3 [.literal b!"xα"] :: [pat 4 [.literal b!"yβ"]]
theorem precedence_built : Builds precedence := by decide +kernel

example := C21_literal_precedence sip [pat 7 [.parser (greedy b!"g" none)]] [pat 4 [.literal b!"yβ"]] (pat 3 [.literal b!"xα"]) b!"xα" rfl
  (utf8LitsOf ["xα", "yβ"] (by decide +kernel)) (by decide +kernel) _ (okOf_eq _ precedence_built) _
  (answers precedence_built _ (some ⟨pat 3 [], []⟩) (by decide +kernel))

/-- the list with a parser that is new in it -/
theorem newParser_built : Builds (tableSample ++ [pat 10 [.parser (int b!"new"), .literal b!"!"]]) := by decide +kernel

example := C17_new_parser_partial sip tableSample (pat 10 [.parser (int b!"new"), .literal b!"!"]) (utf8Lits (by decide +kernel)) (int b!"new") _ rfl
  (by
    have h : ∀ b ∈ tableSample.filterMap firstParser, b.hashOs sip ≠ (int b!"new").hashOs sip := by decide +kernel
    exact fun p hp b hb => h b (List.mem_filterMap.mpr ⟨p, hp, firstParser_iff.mpr hb⟩)) _ _
  (okOf_eq _ table_built) (okOf_eq _ newParser_built) b!"xé" u8!"xé" _ _ table_xé
  (answers newParser_built _ (some ⟨pat 9 [], [(b!"g", b!"xé")]⟩) (by decide +kernel))

theorem newLiteral_built : Builds (tableSample ++ [pat 10 [.literal b!"b", .parser (int b!"i")]]) := by decide +kernel

example := C17_other_first_byte_partial sip tableSample (pat 10 [.literal b!"b", .parser (int b!"i")]) (utf8Lits (by decide +kernel)) b!"b" _ rfl b!"xé" u8!"xé"
  (by decide) _ _ (okOf_eq _ table_built) (okOf_eq _ newLiteral_built) _ _ table_xé
  (answers newLiteral_built _ (some ⟨pat 9 [], [(b!"g", b!"xé")]⟩) (by decide +kernel))

/-- `né%{INT:i}!` -/
def single : Pattern := pat 1 [.literal b!"né", .parser (int b!"i"), .literal b!"!"]
theorem single_built : Builds [single] := by decide +kernel

example := C18_single_pattern sip single (by decide) (utf8LitsOf ["né", "!"] (ps := [single]) (by decide +kernel) single (by simp)) (by decide +kernel) _
  (okOf_eq _ single_built) b!"né77!" u8!"né77!" _ (answers single_built _ (some ⟨pat 1 [], [(b!"i", b!"77")]⟩) (by decide +kernel))
example := C18_single_pattern_ascii sip (pat 1 [.literal b!"n", .parser (int b!"i"), .literal b!"!"]) (by decide) (by decide) (by decide) b!"n77!" (by decide)

/-- `xα%{INT:i}`, `zβ%{GREEDY:g}`, `y%{INT:i}!` -/
def incomparable : List Pattern :=
  [pat 1 [.literal b!"xα", .parser (int b!"i")], pat 2 [.literal b!"zβ", .parser (greedy b!"g" none)], pat 3 [.literal b!"y", .parser (int b!"i"), .literal b!"!"]]
theorem incomparable_built : Builds incomparable := by decide +kernel

example := C19_incomparable sip incomparable (utf8LitsOf ["xα", "zβ", "y", "!"] (by decide +kernel)) (by decide +kernel) (by decide +kernel) _
  (okOf_eq _ incomparable_built) b!"zβé" u8!"zβé" _ (answers incomparable_built _ (some ⟨pat 2 [], [(b!"g", b!"é")]⟩) (by decide +kernel))

def incomparableAscii : List Pattern :=
  [pat 1 [.literal b!"xa", .parser (int b!"i")], pat 2 [.literal b!"xb", .parser (greedy b!"g" none)], pat 3 [.literal b!"y", .parser (int b!"i"), .literal b!"!"]]

example := C19_incomparable_ascii sip incomparableAscii (by decide +kernel) (by decide +kernel) (by decide +kernel) b!"y7!" (by decide)
example := C20_incomparable_partial sip incomparableAscii incomparableAscii.reverse (List.reverse_perm _).symm (by decide +kernel) (by decide +kernel)
  (by decide +kernel) b!"y7!" (by decide)

/-- `%{INT:i}!`, `%{INT:j}`, `%{GREEDY:g}` -/
def parserFirst : List Pattern := [pat 1 [.parser (int b!"i"), .literal b!"!"], pat 2 [.parser (int b!"j")], pat 3 [.parser (greedy b!"g" none)]]
theorem parserFirst_built : Builds parserFirst := by decide +kernel

example := C22_insertion_order sip parserFirst (utf8Lits (by decide +kernel)) (by decide +kernel) (by decide +kernel) (by decide +kernel) _
  (okOf_eq _ parserFirst_built) b!"é7" u8!"é7" _ (answers parserFirst_built _ (some ⟨pat 3 [], [(b!"g", b!"é7")]⟩) (by decide +kernel))
example := C22_insertion_order_ascii sip parserFirst (by decide +kernel) (by decide +kernel) (by decide +kernel) (by decide +kernel) b!"77" (by decide)

example := C23_new_matches_nothing b!"né" u8!"né"
example := C23_empty_pattern sip (trie tableSample table_built) (pat 1 []) rfl
example := C24_readd_replaces sip tableSample (pat 10 [.literal b!"ap", .parser (int b!"k")]) (pat 11 [.literal b!"ap", .parser (int b!"k")]) (by decide +kernel) rfl

theorem readd_built : Builds (greek ++ [pat 10 [.literal b!"xα", .parser (int b!"k")], pat 11 [.literal b!"xα", .parser (int b!"k")]]) := by decide +kernel

example := C24_readd_replaces_utf8 sip greek (pat 10 [.literal b!"xα", .parser (int b!"k")]) (pat 11 [.literal b!"xα", .parser (int b!"k")])
  (utf8LitsOf ["xα", "yβ"] (by decide +kernel)) (by decide +kernel) (by decide +kernel) rfl _ (okOf_eq _ readd_built)
example := C24_nonascii_panics sip [pat 7 [.parser (greedy b!"g" none)]] (pat 10 [.literal b!"éx"]) (pat 11 [.literal b!"éx"])
  (utf8LitsOf ["éx"] (by decide +kernel)) (by decide +kernel) (by decide +kernel) rfl ⟨_, rfl⟩ ⟨_, rfl, _, _, rfl, by decide⟩

example := C53_trailing_greedy_partial sip (pat 1 [.literal b!"app", .parser (greedy b!"g" none)]) b!"app" b!" store" ⟨some b!"g", none⟩ rfl rfl (by decide) (by decide)
  (by decide) (by decide)
example := C53_exact sip (pat 1 [.literal b!"né", .parser (greedy b!"g" none)]) b!"né" b!"é" ⟨some b!"g", none⟩ rfl rfl (by decide) u8!"né" u8!"é"

/-- `ab%{INT:i}` and `ab%{GREEDY:g}` -/
def ab1 : Pattern := pat 1 [.literal b!"ab", .parser (int b!"i")]
def ab2 : Pattern := pat 2 [.literal b!"ab", .parser (greedy b!"g" none)]

example := C20_order_counts sip ab1 ab2 (plain (by decide +kernel)) (by decide +kernel) (by intro l l' h h'; cases h; cases h'; rfl) (by decide +kernel) b!"ab7" (by decide)
  ⟨_, strict (caps := [(int b!"i", b!"7")]) (by decide +kernel)⟩ ⟨_, strict (caps := [(greedy b!"g" none, b!"7")]) (by decide +kernel)⟩

/-- the same with a letter outside ASCII -/
def αβ1 : Pattern := pat 1 [.literal b!"aβ", .parser (int b!"i")]
def αβ2 : Pattern := pat 2 [.literal b!"aβ", .parser (greedy b!"g" none)]

example := C20_order_counts_utf8 sip αβ1 αβ2 (properOf ["aβ"] (by decide +kernel) (by decide +kernel)) (by decide +kernel) (by intro l l' h h'; cases h; cases h'; rfl)
  (by decide +kernel) b!"aβ7" u8!"aβ7"
  ⟨_, strict (caps := [(int b!"i", b!"7")]) (by decide +kernel)⟩ ⟨_, strict (caps := [(greedy b!"g" none, b!"7")]) (by decide +kernel)⟩
  (some ⟨pat 2 [], [(b!"g", b!"7")]⟩) (some ⟨pat 1 [], [(b!"i", b!"7")]⟩) (by decide +kernel) (by decide +kernel)

example := C20_shorter_first sip (pat 1 [.literal b!"a", .parser (greedy b!"g" none)]) ab1 (plain (by decide +kernel)) b!"a" b!"ab" _ _ rfl rfl (by decide) (by decide) (by decide)
  b!"axe" (by decide) (by decide) [(greedy b!"g" none, b!"xe")] (strict (by decide +kernel))
example := C20_shorter_first_utf8 sip (pat 1 [.literal b!"a", .parser (greedy b!"g" none)]) (pat 2 [.literal b!"abé"]) (properOf ["a", "abé"] (by decide +kernel) (by decide +kernel)) b!"a" b!"abé" _ _
  rfl rfl (by decide) (by decide) (by decide) b!"axe" u8!"axe" (by decide) [(greedy b!"g" none, b!"xe")] (strict (by decide +kernel))
  (some ⟨pat 1 [], [(b!"g", b!"xe")]⟩) none (by decide +kernel) (by decide +kernel)

/-- two lists in which only patterns whose order does not matter change places -/
def order1 : List Pattern := [ab1, ab2, pat 3 [.literal b!"cd"], pat 4 [.parser (int b!"i")]]
def order2 : List Pattern := [ab1, pat 3 [.literal b!"cd"], ab2, pat 4 [.parser (int b!"i")]]
theorem order_same : SameOrder OrderMatters order1 order2 := sameOrder_swap (by decide +kernel) (by decide +kernel) [ab1] [_]
theorem order_same_suffix : SameOrder SuffixOrderMatters order1 order2 := sameOrder_swap (by decide +kernel) (by decide +kernel) [ab1] [_]

theorem order1_built : Builds order1 := by decide +kernel
theorem order2_built : Builds order2 := by decide +kernel

example := C20_same_order_ascii_partial sip order1 order2 (plain (by decide +kernel)) order_same b!"abé" u8!"abé"
example := C20_same_order_partial sip order1 order2 (proper (by decide +kernel)) order_same _ _ (okOf_eq _ order1_built) (okOf_eq _ order2_built) b!"abé" u8!"abé"
example := C65_same_table_utf8 sip order1 (order1.drop 1) (proper (by decide +kernel)) (proper (by decide +kernel)) (by decide +kernel) (trie order1 order1_built)
  (trie (order1.drop 1) (by decide +kernel)) (okOf_eq _ _) (okOf_eq _ _) b!"abé" u8!"abé"

example := C100_same_order sip order1 order2 (utf8Lits (by decide +kernel)) (by decide +kernel) order_same_suffix b!"abé" u8!"abé"

end Verif.Instances
