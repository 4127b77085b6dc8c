import Verif.Model.Trie
import Verif.Model.SuffixTable
/-! The `parse` functions of `Verif.Model.Trie` and `Verif.Model.SuffixTable` once more, now with a bounded call stack: the first argument is the number of
stack frames that are left, `none` says that the stack was exhausted.  One frame is used for each call of one of the functions below; the helpers they call
(`search`, `ltrunc`, the parsers, ...) are not recursive, they need a constant number of further frames, which are not counted. -/
namespace Verif

/-- `lookup_literal`, /repo/src/matcher/trie/node/mod.rs:69-88 -/
def SuffixTree.lookupLiteralS : Nat → SuffixTree → Bytes → Option (M LookupResult)
  | 0, _, _ => none
  | frames + 1, t, literal =>
    match t.search literal with
    | .error e => some (.error e)
    | .ok (.found pos) => some (.ok (.ok t pos))
    | .ok .notFound => some (.ok (.err t literal.length))
    | .ok (.goDown pos truncated) =>
      match t.literalChildren[pos]? with
      | none => some (.error .unwrap)
      | some n =>
        match n.node with
        | none => some (.error .unwrap)
        | some c => c.lookupLiteralS frames truncated

/-- The loop `for i in .. { if let Some(result) = i.parse(text) { return Some(result); } } None` of /repo/src/matcher/trie/node/mod.rs:192-199 and
/repo/src/matcher/suffix_array/impls.rs:64-69. -/
def firstResult {α : Type} (parse : α → Option (M (Option MatchResult))) : List α → Option (M (Option MatchResult))
  | [] => some (.ok none)
  | i :: rest =>
    match parse i with
    | none => none
    | some (.error e) => some (.error e)
    | some (.ok (some result)) => some (.ok (some result))
    | some (.ok none) => firstResult parse rest

mutual
/-- `SuffixTree::parse`, /repo/src/matcher/trie/node/mod.rs:161-178 -/
def SuffixTree.parseS : Nat → SuffixTree → Bytes → Option (M (Option MatchResult))
  | 0, _, _ => none
  | frames + 1, t, text =>
    match t.lookupLiteralS frames text with
    | none => none
    | some (.error e) => some (.error e)
    | some (.ok (.ok node pos)) =>
      match node.literalChildren[pos]? with
      | none => some (.error .unwrap)
      | some child => some (.ok (SuffixTree.createMatchResultIfChildIsLeaf child))
    | some (.ok (.err node remainingLen)) =>
      match checkedSub text.length remainingLen with
      | .error e => some (.error e)
      | .ok off =>
        match ltrunc text off with
        | .error e => some (.error e)
        | .ok text => parseWithParsersS frames node.parserChildren text

/-- `parse_with_parsers`, /repo/src/matcher/trie/node/mod.rs:191-200 -/
def parseWithParsersS : Nat → List ParserNode → Bytes → Option (M (Option MatchResult))
  | 0, _, _ => none
  | frames + 1, ps, text => firstResult (fun i => ParserNode.parseS frames i text) ps

/-- `ParserNode::parse`, /repo/src/matcher/trie/node/parser.rs:36-51 -/
def ParserNode.parseS : Nat → ParserNode → Bytes → Option (M (Option MatchResult))
  | 0, _, _ => none
  | frames + 1, p, text =>
    match p.parser.parse text with
    | .error e => some (.error e)
    | .ok none => some (.ok none)
    | .ok (some value) =>
      match ltrunc text value.length with
      | .error e => some (.error e)
      | .ok text =>
        match p.node with
        | some node => parseThenPushKvpairS frames node text p.parser value
        | none => some (p.pushLastKvpair text value)

/-- `parse_then_push_kvpair`, /repo/src/matcher/trie/node/mod.rs:202-212 -/
def parseThenPushKvpairS : Nat → SuffixTree → Bytes → Parser → Bytes → Option (M (Option MatchResult))
  | 0, _, _, _, _ => none
  | frames + 1, t, text, parser, value =>
    match SuffixTree.parseS frames t text with
    | none => none
    | some (.error e) => some (.error e)
    | some (.ok (some result)) => some (.ok (some (result.insert parser value)))
    | some (.ok none) => some (.ok none)
end

mutual
/-- `Matcher::parse` of `SuffixTable`, /repo/src/matcher/suffix_array/impls.rs:249-263 (the closure of 257 is counted with the function) -/
def SuffixTable.parseS : Nat → SuffixTable → Bytes → Option (M (Option MatchResult))
  | 0, _, _ => none
  | frames + 1, t, value =>
    match t.longestCommonPrefix value with
    | .error e => some (.error e)
    | .ok (some child) =>
      let cpl := commonPrefixLen child.literal value
      if cpl = value.length then
        some (.ok (child.pattern.map MatchResult.new))
      else if cpl < value.length then
        match ltrunc value cpl with
        | .error e => some (.error e)
        | .ok value =>
          match child.child with
          | none => some (.ok none)
          | some c => SuffixTable.parseS frames c value
      else some (.ok none)
    | .ok none => sparseWithParsersS frames t.parserEntries value

/-- `parse_with_parsers`, /repo/src/matcher/suffix_array/impls.rs:63-70 -/
def sparseWithParsersS : Nat → List ParserE → Bytes → Option (M (Option MatchResult))
  | 0, _, _ => none
  | frames + 1, ps, value => firstResult (fun p => ParserE.parseS frames p value) ps

/-- `ParserEntry::parse` of `ParserE`, /repo/src/matcher/suffix_array/impls.rs:186-203 (its closures are counted with the function) -/
def ParserE.parseS : Nat → ParserE → Bytes → Option (M (Option MatchResult))
  | 0, _, _ => none
  | frames + 1, p, value =>
    match p.parser.parse value with
    | .error e => some (.error e)
    | .ok none => some (.ok none)
    | .ok (some v) =>
      match ltrunc value v.length with
      | .error e => some (.error e)
      | .ok value =>
        match p.child with
        | some child =>
          match SuffixTable.parseS frames child value with
          | none => none
          | some (.error e) => some (.error e)
          | some (.ok (some result)) => some (.ok (some (result.insert p.parser v)))
          | some (.ok none) => some (.ok none)
        | none => some (if value.isEmpty then .ok (p.createMatchResult v) else .ok none)
end

end Verif
