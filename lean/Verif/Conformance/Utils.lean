import Verif.Model.Trie
/-! The unit tests of /repo/src/utils and of /repo/src/matcher/trie/node/literal.rs, run on the model.  These are tests of the model, not proofs: they show that the model gives the
results the authors of the code expect. -/
namespace Verif.Conformance

/-! /repo/src/utils/common_prefix.rs -/

-- given_a_string_when_longest_common_prefix_is_calulated_then_the_result_is_right
example : hasCommonPrefix b!"alpha" b!"aleph" = some 2 ∧ hasCommonPrefix b!"alpha" b!"beta" = none ∧ commonPrefixLen b!"alpha" b!"aleph" = 2 := by
  decide +kernel

-- test_given_a_string_when_truncated_by_left_then_the_result_is_the_expected,
-- test_given_a_string_when_truncated_by_right_then_the_result_is_the_expected
example : rtrunc b!"alpha" 0 = .ok b!"alpha" ∧ rtrunc b!"alpha" 2 = .ok b!"alp" := by decide +kernel

-- test_given_a_string_with_multibyte_utf8_character_when_we_count_their_common_prefix_len_we_dont_split_the_multibyte_character
example : commonPrefixLen b!"¡alpha" b!"¡beta" = 2 := by decide +kernel

-- test_given_a_string_with_multibyte_utf8_character_when_there_is_an_other_multibyte_character_with_the_same_first_byte_then_we_dont_split_them
example : commonPrefixLen b!"\u00AEalpha" b!"\u00BEbeta" = 0 := by decide +kernel

/-! /repo/src/utils/sortedvec.rs -/

/-- `str::cmp` -/
def cmpStr (a b : Bytes) : M Ordering := .ok (cmpBytes a b)

/-- The values pushed one after the other. -/
def pushed (l : List Bytes) : M (List Bytes) := l.foldlM (SortedVec.push cmpStr) SortedVec.new

def greek : List Bytes := [b!"epsilon", b!"beta", b!"alpha", b!"delta", b!"zeta"]

-- test_given_sorted_vector_when_values_are_pushed_they_be_get
example : (pushed [b!"alpha"]).map (SortedVec.get · 0) = .ok (some b!"alpha") := by decide +kernel

-- test_given_sorted_vector_when_values_are_pushed_they_get_sorted
example : (pushed greek).map (fun sv => [0, 1, 2, 3, 4].map (SortedVec.get sv)) =
    .ok [some b!"alpha", some b!"beta", some b!"delta", some b!"epsilon", some b!"zeta"] := by decide +kernel

-- test_given_sorted_vector_when_values_are_searched_they_can_be_found
example : (do SortedVec.findPos cmpStr (← pushed greek) b!"beta") = .ok (some 1) ∧ (do SortedVec.findPos cmpStr (← pushed greek) b!"zeta") = .ok (some 4) := by
  decide +kernel

-- test_given_sorted_vector_when_length_is_queried_it_is_ok
example : (pushed [b!"epsilon", b!"beta"]).map SortedVec.len = .ok 2 := by decide +kernel

-- test_given_sorted_vector_when_values_are_found_then_their_references_are_returned
example : (do SortedVec.find cmpStr (← pushed greek) b!"beta") = .ok (some b!"beta") ∧
    (do SortedVec.find cmpStr (← pushed greek) b!"zeta") = .ok (some b!"zeta") ∧
    (do SortedVec.find cmpStr (← pushed greek) b!"<3 HL3") = .ok none := by decide +kernel

-- test_given_sorted_vector_when_values_are_searched_by_custom_cmp_func_they_can_be_found
example : (do SortedVec.binarySearchBy (fun x => cmpStr x b!"iota") (← pushed greek)) = .ok (.err 4) ∧
    (do SortedVec.binarySearchBy (fun x => cmpStr x b!"beta") (← pushed greek)) = .ok (.ok 1) := by decide +kernel

-- test_given_sorted_vector_of_literal_nodes_when_binary_search_by_are_used_the_right_node_is_found
example : (do
    let sv ← [LiteralNode.new b!"a", LiteralNode.new b!""].foldlM (SortedVec.push LiteralNode.cmp) SortedVec.new
    SortedVec.binarySearchBy (fun probe : LiteralNode => probe.cmpStr b!"a") sv) = .ok (.ok 1) := by decide +kernel

/-! /repo/src/matcher/trie/node/literal.rs -/

-- given_literal_node_when_its_leafness_is_checked_the_right_result_is_returned
example : (LiteralNode.new b!"aleph").isLeaf = true := by decide +kernel

-- given_literal_node_when_it_is_compared_to_an_other_literal_node_then_only_their_first_chars_are_checked
example : (LiteralNode.new b!"alpha").cmp (.new b!"beta") = .ok .lt ∧ (LiteralNode.new b!"alpha").cmp (.new b!"aleph") = .ok .eq ∧
    (LiteralNode.new b!"beta").cmp (.new b!"alpha") = .ok .gt ∧ (LiteralNode.new b!"alpha").cmp (.new b!"") = .ok .gt ∧
    (LiteralNode.new b!"").cmp (.new b!"alpha") = .ok .lt ∧ (LiteralNode.new b!"").cmp (.new b!"a") = .ok .lt ∧
    (LiteralNode.new b!"").cmpStr b!"a" = .ok .lt ∧ (LiteralNode.new b!"a").cmp (.new b!"") = .ok .gt := by decide +kernel

end Verif.Conformance
