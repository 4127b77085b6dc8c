import Verif.Model.Trie
import Verif.Model.SuffixTable
/-! The matchers of `Verif.Model.Trie` and `Verif.Model.SuffixTable` once more, now counting how often a stored literal is compared with the text:
each function returns what the function it is named after returns, and the number of comparisons made on the way.  A comparison is a call of
`cmp_str` or `cmp` by a binary search, a call of `common_prefix_len`, or the test whether a literal equals the text. -/
namespace Verif

/-- `binarySearchLoop`: one comparison for every probe. -/
def binarySearchLoopC {α : Type} (f : α → M Ordering) (base : Nat) (s : List α) : M SearchRes × Nat :=
  match _h : s.drop (s.length / 2) with
  | [] => (.ok (.err base), 0)
  | x :: tail =>
    match f x with
    | .error e => (.error e, 1)
    | .ok .lt =>
      let (r, c) := binarySearchLoopC f (base + s.length / 2 + 1) tail
      (r, c + 1)
    | .ok .gt =>
      let (r, c) := binarySearchLoopC f base (s.take (s.length / 2))
      (r, c + 1)
    | .ok .eq => (.ok (.ok (base + s.length / 2)), 1)
termination_by s.length
decreasing_by
  all_goals
    have hl := congrArg List.length _h
    simp at hl ⊢
    omega

namespace SuffixTree

/-- `search`, /repo/src/matcher/trie/node/mod.rs:90-108: the probes of the binary search, and for a hit the comparison of its literal in
`search_prefix_is_found_and_node_is_leaf` (:121-133) or `search_prefix_is_found_and_node_is_not_leaf` (:135-159) -/
def searchC (t : SuffixTree) (literal : Bytes) : M LiteralLookupResult × Nat :=
  match binarySearchLoopC (fun probe : LiteralNode => probe.cmpStr literal) 0 t.literalChildren with
  | (.error e, c) => (.error e, c)
  | (.ok (.ok pos), c) => (t.searchPrefixIsFound literal pos, c + 1)
  | (.ok (.err _), c) => (.ok .notFound, c)

/-- `lookup_literal`, /repo/src/matcher/trie/node/mod.rs:69-88 -/
def lookupLiteralC (t : SuffixTree) (literal : Bytes) : M LookupResult × Nat :=
  match t.searchC literal with
  | (.error e, c) => (.error e, c)
  | (.ok (.found pos), c) => (.ok (.ok t pos), c)
  | (.ok .notFound, c) => (.ok (.err t literal.length), c)
  | (.ok (.goDown pos truncated), c) =>
    match _h : t.literalChildren[pos]? with
    | none => (.error .unwrap, c)
    | some n =>
      match _hc : n.node with
      | none => (.error .unwrap, c)
      | some t' =>
        let (r, c') := t'.lookupLiteralC truncated
        (r, c + c')
termination_by sizeOf t
decreasing_by exact sizeOf_literal_child pos _h _hc

theorem lookupLiteralC_err_size {t : SuffixTree} {literal : Bytes} {node : SuffixTree} {n : Nat} :
    (t.lookupLiteralC literal).1 = .ok (.err node n) → sizeOf node ≤ sizeOf t := by
  fun_induction lookupLiteralC t literal with
  | case1 => simp
  | case2 => simp
  | case3 => simp; rintro rfl _; simp
  | case4 => simp
  | case5 => simp
  | case6 t literal pos truncated c hs n h t' hc r c' e ih =>
    intro hh
    rw [e] at ih
    have := ih hh
    have := sizeOf_literal_child pos h hc
    omega

end SuffixTree

mutual
/-- `SuffixTree.parse`, /repo/src/matcher/trie/node/mod.rs:161-178 -/
def SuffixTree.parseC (t : SuffixTree) (text : Bytes) : M (Option MatchResult) × Nat :=
  match _h : t.lookupLiteralC text with
  | (.error e, c) => (.error e, c)
  | (.ok (.ok node pos), c) =>
    match node.literalChildren[pos]? with
    | none => (.error .unwrap, c)
    | some child => (.ok (SuffixTree.createMatchResultIfChildIsLeaf child), c)
  | (.ok (.err node remainingLen), c) =>
    match checkedSub text.length remainingLen with
    | .error e => (.error e, c)
    | .ok off =>
      match ltrunc text off with
      | .error e => (.error e, c)
      | .ok text =>
        let (r, c') := parseWithParsersC node.parserChildren text
        (r, c + c')
termination_by 2 * sizeOf t
decreasing_by
  have h1 := SuffixTree.lookupLiteralC_err_size (congrArg Prod.fst _h)
  have h2 := SuffixTree.sizeOf_parserChildren node
  omega

/-- `parse_with_parsers`, /repo/src/matcher/trie/node/mod.rs:191-200 -/
def parseWithParsersC (ps : List ParserNode) (text : Bytes) : M (Option MatchResult) × Nat :=
  match ps with
  | [] => (.ok none, 0)
  | i :: rest =>
    match i.parseC text with
    | (.error e, c) => (.error e, c)
    | (.ok (some result), c) => (.ok (some result), c)
    | (.ok none, c) =>
      let (r, c') := parseWithParsersC rest text
      (r, c + c')
termination_by 2 * sizeOf ps
decreasing_by
  · simp; omega
  · simp; omega

/-- `ParserNode::parse`, /repo/src/matcher/trie/node/parser.rs:36-51 -/
def ParserNode.parseC (p : ParserNode) (text : Bytes) : M (Option MatchResult) × Nat :=
  match p.parser.parse text with
  | .error e => (.error e, 0)
  | .ok none => (.ok none, 0)
  | .ok (some value) =>
    match ltrunc text value.length with
    | .error e => (.error e, 0)
    | .ok text' =>
      match _h : p.node with
      | some node => parseThenPushKvpairC node text' p.parser value
      | none => (p.pushLastKvpair text' value, 0)
termination_by 2 * sizeOf p
decreasing_by
  have e2 : sizeOf p = 1 + sizeOf p.parser + sizeOf p.pattern + sizeOf p.node := by cases p; simp
  rw [_h] at e2; simp at e2; omega

/-- `parse_then_push_kvpair`, /repo/src/matcher/trie/node/mod.rs:202-212 -/
def parseThenPushKvpairC (t : SuffixTree) (text : Bytes) (parser : Parser) (value : Bytes) : M (Option MatchResult) × Nat :=
  match t.parseC text with
  | (.error e, c) => (.error e, c)
  | (.ok (some result), c) => (.ok (some (result.insert parser value)), c)
  | (.ok none, c) => (.ok none, c)
termination_by 2 * sizeOf t + 1
decreasing_by omega
end

namespace SuffixTable

/-- `longest_common_prefix_between_consecutive_entries`, /repo/src/matcher/suffix_array/impls.rs:26-39: two comparisons if there are two entries -/
def lcpBetweenConsecutiveC (t : SuffixTable) (value : Bytes) (pos : Nat) : Option LiteralE × Nat :=
  let firstOpt := t.literalEntries[pos]?
  let secondOpt := t.literalEntries[pos + 1]?
  match firstOpt with
  | none => (secondOpt, 0)
  | some first =>
    match secondOpt with
    | none => (firstOpt, 0)
    | some second =>
      (if commonPrefixLen first.literal value ≥ commonPrefixLen second.literal value then firstOpt else secondOpt, 2)

/-- `longest_common_prefix_around_pos`, /repo/src/matcher/suffix_array/impls.rs:41-47 -/
def lcpAroundPosC (t : SuffixTable) (value : Bytes) (pos : Nat) : Option LiteralE × Nat :=
  if pos = 0 then (t.literalEntries[pos]?, 0) else t.lcpBetweenConsecutiveC value (pos - 1)

/-- `longest_common_prefix`, /repo/src/matcher/suffix_array/impls.rs:85-94 -/
def longestCommonPrefixC (t : SuffixTable) (value : Bytes) : M (Option LiteralE) × Nat :=
  match binarySearchLoopC (fun probe : LiteralE => .ok (cmpBytes probe.literal value)) 0 t.literalEntries with
  | (.error e, c) => (.error e, c)
  | (.ok (.ok pos), c) => (.ok t.literalEntries[pos]?, c)
  | (.ok (.err pos), c) =>
    let (r, c') := t.lcpAroundPosC value pos
    (.ok r, c + c')

theorem binarySearchLoopC_fst {α : Type} (f : α → M Ordering) (base : Nat) (s : List α) :
    (binarySearchLoopC f base s).1 = binarySearchLoop f base s := by
  fun_induction binarySearchLoopC f base s with
  | case1 => unfold binarySearchLoop; split <;> simp_all
  | case2 => unfold binarySearchLoop; split <;> simp_all
  | case3 base s x tail h hf r c e ih => rw [e] at ih; unfold binarySearchLoop; split <;> simp_all
  | case4 base s x tail h hf r c e ih => rw [e] at ih; unfold binarySearchLoop; split <;> simp_all
  | case5 => unfold binarySearchLoop; split <;> simp_all

theorem lcpAroundPosC_fst (t : SuffixTable) (value : Bytes) (pos : Nat) : (t.lcpAroundPosC value pos).1 = t.lcpAroundPos value pos := by
  unfold lcpAroundPosC lcpAroundPos lcpBetweenConsecutiveC lcpBetweenConsecutive
  by_cases h : pos = 0
  · simp [h]
  · simp only [if_neg h]
    cases t.literalEntries[pos - 1]? with
    | none => rfl
    | some a => cases t.literalEntries[pos - 1 + 1]? <;> rfl

theorem longestCommonPrefixC_fst (t : SuffixTable) (value : Bytes) : (t.longestCommonPrefixC value).1 = t.longestCommonPrefix value := by
  have h1 := binarySearchLoopC_fst (fun probe : LiteralE => .ok (cmpBytes probe.literal value)) 0 t.literalEntries
  have h2 := lcpAroundPosC_fst t value
  unfold longestCommonPrefixC longestCommonPrefix binarySearchBy
  rw [← h1]
  rcases binarySearchLoopC (fun probe : LiteralE => .ok (cmpBytes probe.literal value)) 0 t.literalEntries with ⟨r, c⟩
  rcases r with e | r
  · rfl
  · cases r with
    | ok pos => rfl
    | err pos => simp [bind, Except.bind, pure, Except.pure, ← h2]

end SuffixTable

mutual
/-- `Matcher::parse` of `SuffixTable`, /repo/src/matcher/suffix_array/impls.rs:249-263 -/
def SuffixTable.parseC (t : SuffixTable) (value : Bytes) : M (Option MatchResult) × Nat :=
  match _h : t.longestCommonPrefixC value with
  | (.error e, c) => (.error e, c)
  | (.ok (some child), c) =>
    let cpl := commonPrefixLen child.literal value
    if cpl = value.length then
      (.ok (child.pattern.map MatchResult.new), c + 1)
    else if cpl < value.length then
      match ltrunc value cpl with
      | .error e => (.error e, c + 1)
      | .ok value =>
        match _hc : child.child with
        | none => (.ok none, c + 1)
        | some t' =>
          let (r, c') := t'.parseC value
          (r, c + 1 + c')
    else (.ok none, c + 1)
  | (.ok none, c) =>
    let (r, c') := sparseWithParsersC t.parserEntries value
    (r, c + c')
termination_by sizeOf t
decreasing_by
  · have h0 := List.sizeOf_lt_of_mem (SuffixTable.lcp_mem ((SuffixTable.longestCommonPrefixC_fst _ _).symm.trans (congrArg Prod.fst _h)))
    have e1 : sizeOf t = 1 + sizeOf t.literalEntries + sizeOf t.parserEntries := by cases t; simp
    have e2 : sizeOf child = 1 + sizeOf child.pattern + sizeOf child.literal + sizeOf child.child := by
      cases child; simp
    rw [_hc] at e2; simp at e2; omega
  · cases t; simp; omega

/-- `parse_with_parsers`, /repo/src/matcher/suffix_array/impls.rs:63-70 -/
def sparseWithParsersC (ps : List ParserE) (value : Bytes) : M (Option MatchResult) × Nat :=
  match ps with
  | [] => (.ok none, 0)
  | p :: rest =>
    match p.parseC value with
    | (.error e, c) => (.error e, c)
    | (.ok (some result), c) => (.ok (some result), c)
    | (.ok none, c) =>
      let (r, c') := sparseWithParsersC rest value
      (r, c + c')
termination_by sizeOf ps
decreasing_by
  · simp; omega
  · simp; omega

/-- `ParserEntry::parse` of `ParserE`, /repo/src/matcher/suffix_array/impls.rs:186-203 -/
def ParserE.parseC (p : ParserE) (value : Bytes) : M (Option MatchResult) × Nat :=
  match p.parser.parse value with
  | .error e => (.error e, 0)
  | .ok none => (.ok none, 0)
  | .ok (some v) =>
    match ltrunc value v.length with
    | .error e => (.error e, 0)
    | .ok value' =>
      match _h : p.child with
      | some child =>
        match child.parseC value' with
        | (.error e, c) => (.error e, c)
        | (.ok (some result), c) => (.ok (some (result.insert p.parser v)), c)
        | (.ok none, c) => (.ok none, c)
      | none => (if value'.isEmpty then .ok (p.createMatchResult v) else .ok none, 0)
termination_by sizeOf p
decreasing_by
  have e2 : sizeOf p = 1 + sizeOf p.pattern + sizeOf p.parser + sizeOf p.child := by cases p; simp
  rw [_h] at e2; simp at e2; omega
end

end Verif
