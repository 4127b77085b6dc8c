import Verif.Model.Trie
import Verif.Model.SuffixTable
/-! The matchers of `Verif.Model.Trie` and `Verif.Model.SuffixTable` once more, now recording every call of a parser: each function returns what
the function it is named after returns, and the list of the calls `parser.parse(text)` made on the way. -/
namespace Verif

/-- A call of a parser: the parser and the text it is given. -/
abbrev Call := Parser × Bytes

mutual
/-- `SuffixTree.parse`, /repo/src/matcher/trie/node/mod.rs:161-178 -/
def SuffixTree.parseT (t : SuffixTree) (text : Bytes) : M (Option MatchResult) × List Call :=
  match _h : t.lookupLiteral text with
  | .error e => (.error e, [])
  | .ok (.ok node pos) =>
    match node.literalChildren[pos]? with
    | none => (.error .unwrap, [])
    | some child => (.ok (SuffixTree.createMatchResultIfChildIsLeaf child), [])
  | .ok (.err node remainingLen) =>
    match checkedSub text.length remainingLen with
    | .error e => (.error e, [])
    | .ok off =>
      match ltrunc text off with
      | .error e => (.error e, [])
      | .ok text => parseWithParsersT node.parserChildren text
termination_by 2 * sizeOf t
decreasing_by
  have h1 := SuffixTree.lookupLiteral_err_size _h
  have h2 := SuffixTree.sizeOf_parserChildren node
  omega

/-- `parse_with_parsers`, /repo/src/matcher/trie/node/mod.rs:191-200 -/
def parseWithParsersT (ps : List ParserNode) (text : Bytes) : M (Option MatchResult) × List Call :=
  match ps with
  | [] => (.ok none, [])
  | i :: rest =>
    match i.parseT text with
    | (.error e, c) => (.error e, c)
    | (.ok (some result), c) => (.ok (some result), c)
    | (.ok none, c) =>
      let (r, c') := parseWithParsersT rest text
      (r, c ++ c')
termination_by 2 * sizeOf ps
decreasing_by
  · simp; omega
  · simp; omega

/-- `ParserNode::parse`, /repo/src/matcher/trie/node/parser.rs:36-51 -/
def ParserNode.parseT (p : ParserNode) (text : Bytes) : M (Option MatchResult) × List Call :=
  match p.parser.parse text with
  | .error e => (.error e, [(p.parser, text)])
  | .ok none => (.ok none, [(p.parser, text)])
  | .ok (some value) =>
    match ltrunc text value.length with
    | .error e => (.error e, [(p.parser, text)])
    | .ok text' =>
      match _h : p.node with
      | some node =>
        let (r, c) := parseThenPushKvpairT node text' p.parser value
        (r, (p.parser, text) :: c)
      | none => (p.pushLastKvpair text' value, [(p.parser, text)])
termination_by 2 * sizeOf p
decreasing_by
  have e2 : sizeOf p = 1 + sizeOf p.parser + sizeOf p.pattern + sizeOf p.node := by cases p; simp
  rw [_h] at e2; simp at e2; omega

/-- `parse_then_push_kvpair`, /repo/src/matcher/trie/node/mod.rs:202-212 -/
def parseThenPushKvpairT (t : SuffixTree) (text : Bytes) (parser : Parser) (value : Bytes) : M (Option MatchResult) × List Call :=
  match t.parseT text with
  | (.error e, c) => (.error e, c)
  | (.ok (some result), c) => (.ok (some (result.insert parser value)), c)
  | (.ok none, c) => (.ok none, c)
termination_by 2 * sizeOf t + 1
decreasing_by omega
end

mutual
/-- `Matcher::parse` of `SuffixTable`, /repo/src/matcher/suffix_array/impls.rs:249-263 -/
def SuffixTable.parseT (t : SuffixTable) (value : Bytes) : M (Option MatchResult) × List Call :=
  match _h : t.longestCommonPrefix value with
  | .error e => (.error e, [])
  | .ok (some child) =>
    let cpl := commonPrefixLen child.literal value
    if cpl = value.length then
      (.ok (child.pattern.map MatchResult.new), [])
    else if cpl < value.length then
      match ltrunc value cpl with
      | .error e => (.error e, [])
      | .ok value =>
        match _hc : child.child with
        | none => (.ok none, [])
        | some c => c.parseT value
    else (.ok none, [])
  | .ok none => sparseWithParsersT t.parserEntries value
termination_by sizeOf t
decreasing_by
  · have h0 := List.sizeOf_lt_of_mem (SuffixTable.lcp_mem _h)
    have e1 : sizeOf t = 1 + sizeOf t.literalEntries + sizeOf t.parserEntries := by cases t; simp
    have e2 : sizeOf child = 1 + sizeOf child.pattern + sizeOf child.literal + sizeOf child.child := by
      cases child; simp
    rw [_hc] at e2; simp at e2; omega
  · cases t; simp; omega

/-- `parse_with_parsers`, /repo/src/matcher/suffix_array/impls.rs:63-70 -/
def sparseWithParsersT (ps : List ParserE) (value : Bytes) : M (Option MatchResult) × List Call :=
  match ps with
  | [] => (.ok none, [])
  | p :: rest =>
    match p.parseT value with
    | (.error e, c) => (.error e, c)
    | (.ok (some result), c) => (.ok (some result), c)
    | (.ok none, c) =>
      let (r, c') := sparseWithParsersT rest value
      (r, c ++ c')
termination_by sizeOf ps
decreasing_by
  · simp; omega
  · simp; omega

/-- `ParserEntry::parse` of `ParserE`, /repo/src/matcher/suffix_array/impls.rs:186-203 -/
def ParserE.parseT (p : ParserE) (value : Bytes) : M (Option MatchResult) × List Call :=
  match p.parser.parse value with
  | .error e => (.error e, [(p.parser, value)])
  | .ok none => (.ok none, [(p.parser, value)])
  | .ok (some v) =>
    match ltrunc value v.length with
    | .error e => (.error e, [(p.parser, value)])
    | .ok value' =>
      match _h : p.child with
      | some child =>
        match child.parseT value' with
        | (.error e, c) => (.error e, (p.parser, value) :: c)
        | (.ok (some result), c) => (.ok (some (result.insert p.parser v)), (p.parser, value) :: c)
        | (.ok none, c) => (.ok none, (p.parser, value) :: c)
      | none => (if value'.isEmpty then .ok (p.createMatchResult v) else .ok none, [(p.parser, value)])
termination_by sizeOf p
decreasing_by
  have e2 : sizeOf p = 1 + sizeOf p.pattern + sizeOf p.parser + sizeOf p.child := by cases p; simp
  rw [_h] at e2; simp at e2; omega
end

end Verif
