import Verif.Model.CommonPrefix
import Verif.Model.SortedVec
import Verif.Model.Pattern
/-! Model of the trie matcher: /repo/src/matcher/trie/node/{mod,literal,parser,interface}.rs and
/repo/src/matcher/trie/{matcher,factory}.rs.

`&mut` results: a Rust function returning a mutable reference into the tree takes here the update that the caller performs
through the reference (`f`, `onOk`, `onErr`) and returns the updated tree.  `trace!`/`info!` output is not modelled. -/
namespace Verif

mutual
/-- `SuffixTree`, /repo/src/matcher/trie/node/mod.rs:16-20 -/
structure SuffixTree where
  literalChildren : List LiteralNode
  parserChildren : List ParserNode
/-- `LiteralNode`, /repo/src/matcher/trie/node/literal.rs:9-15 -/
structure LiteralNode where
  literal : Bytes
  hasValue : Bool
  pattern : Option Pattern
  node : Option SuffixTree
/-- `ParserNode`, /repo/src/matcher/trie/node/parser.rs:8-13 -/
structure ParserNode where
  parser : Parser
  pattern : Option Pattern
  node : Option SuffixTree
end

/-- `LiteralLookupResult`, /repo/src/matcher/trie/node/mod.rs:22-26 -/
inductive LiteralLookupResult where
  | found (pos : Nat)
  | notFound
  | goDown (pos : Nat) (literal : Bytes)

/-- The `Result<(&SuffixTree, usize), (&SuffixTree, usize)>` of `lookup_literal`. -/
inductive LookupResult where
  | ok (node : SuffixTree) (pos : Nat)
  | err (node : SuffixTree) (remainingLen : Nat)

/-- `LiteralNode::new`, /repo/src/matcher/trie/node/literal.rs:18-25 -/
def LiteralNode.new (literal : Bytes) : LiteralNode :=
  { literal, hasValue := false, pattern := none, node := none }

/-- `LiteralNode::is_leaf`, /repo/src/matcher/trie/node/literal.rs:94-96 -/
def LiteralNode.isLeaf (n : LiteralNode) : Bool := n.node.isNone

/-- `LiteralNode::cmp_str`, /repo/src/matcher/trie/node/literal.rs:51-61 -/
def LiteralNode.cmpStr (n : LiteralNode) (other : Bytes) : M Ordering :=
  if n.literal.isEmpty && other.isEmpty then .ok .eq
  else if n.literal.isEmpty then .ok .lt
  else if other.isEmpty then .ok .gt
  else do
    let a ← slice n.literal 0 1
    let b ← slice other 0 1
    pure (cmpBytes a b)

/-- `LiteralNode::compare_first_chars` and the `Ord` impl, /repo/src/matcher/trie/node/literal.rs:98-100,140-150 -/
def LiteralNode.cmp (n other : LiteralNode) : M Ordering := n.cmpStr other.literal

/-- `ParserNode::new`, /repo/src/matcher/trie/node/parser.rs:16-22 -/
def ParserNode.new (parser : Parser) : ParserNode := { parser, pattern := none, node := none }

namespace SuffixTree

/-- `SuffixTree::new` / `default`, /repo/src/matcher/trie/node/mod.rs:29-31,288-303 -/
def new : SuffixTree := { literalChildren := [], parserChildren := [] }

/-- `add_literal_node`, /repo/src/matcher/trie/node/mod.rs:33-35 -/
def addLiteralNode (t : SuffixTree) (lnode : LiteralNode) : M SuffixTree := do
  let l ← SortedVec.push LiteralNode.cmp t.literalChildren lnode
  pure { t with literalChildren := l }

/-- `is_leaf`, /repo/src/matcher/trie/node/mod.rs:37-39 -/
def isLeaf (t : SuffixTree) : Bool := t.literalChildren.isEmpty && t.parserChildren.isEmpty

/-- `search_prefix_is_found_and_node_is_leaf`, /repo/src/matcher/trie/node/mod.rs:121-133 -/
def searchLeaf (t : SuffixTree) (literal : Bytes) (pos : Nat) : M LiteralLookupResult := do
  let n ← unwrap t.literalChildren[pos]?
  if n.literal = literal then pure (.found pos) else pure .notFound

/-- `search_prefix_is_found_and_node_is_not_leaf`, /repo/src/matcher/trie/node/mod.rs:135-159 -/
def searchNotLeaf (t : SuffixTree) (literal : Bytes) (pos : Nat) : M LiteralLookupResult := do
  let n ← unwrap t.literalChildren[pos]?
  let cpl := commonPrefixLen n.literal literal
  if cpl < n.literal.length then pure .notFound
  else if n.hasValue && (literal.isEmpty || cpl = literal.length) then pure (.found pos)
  else match n.node with
    | some _ => do
      let rest ← ltrunc literal cpl
      pure (.goDown pos rest)
    | none => .error .unreachable

/-- `search_prefix_is_found`, /repo/src/matcher/trie/node/mod.rs:110-119 -/
def searchPrefixIsFound (t : SuffixTree) (literal : Bytes) (pos : Nat) : M LiteralLookupResult := do
  let n ← unwrap t.literalChildren[pos]?
  if n.isLeaf then t.searchLeaf literal pos else t.searchNotLeaf literal pos

/-- `search`, /repo/src/matcher/trie/node/mod.rs:90-108 -/
def search (t : SuffixTree) (literal : Bytes) : M LiteralLookupResult := do
  match ← SortedVec.binarySearchBy (fun probe => probe.cmpStr literal) t.literalChildren with
  | .ok pos => t.searchPrefixIsFound literal pos
  | .err _ => pure .notFound

/-- the size of the child of a literal node is smaller than that of the tree (for termination) -/
theorem sizeOf_literal_child {t : SuffixTree} {n : LiteralNode} {c : SuffixTree} (pos : Nat)
    (h : t.literalChildren[pos]? = some n) (hc : n.node = some c) : sizeOf c < sizeOf t := by
  have h0 := List.sizeOf_lt_of_mem (List.mem_of_getElem? h)
  have e1 : sizeOf t = 1 + sizeOf t.literalChildren + sizeOf t.parserChildren := by cases t; simp
  have e2 : sizeOf n = 1 + sizeOf n.literal + sizeOf n.hasValue + sizeOf n.pattern + sizeOf n.node := by
    cases n; simp
  rw [hc] at e2; simp at e2; omega

/-- `lookup_literal`, /repo/src/matcher/trie/node/mod.rs:69-88 -/
def lookupLiteral (t : SuffixTree) (literal : Bytes) : M LookupResult :=
  match t.search literal with
  | .error e => .error e
  | .ok (.found pos) => .ok (.ok t pos)
  | .ok .notFound => .ok (.err t literal.length)
  | .ok (.goDown pos truncated) =>
    match _h : t.literalChildren[pos]? with
    | none => .error .unwrap
    | some n =>
      match _hc : n.node with
      | none => .error .unwrap
      | some c => c.lookupLiteral truncated
termination_by sizeOf t
decreasing_by exact sizeOf_literal_child pos _h _hc

/-- `lookup_literal_mut`, /repo/src/matcher/trie/node/mod.rs:47-66.  The caller's update of the returned
`&mut SuffixTree` is `onOk node pos` for `Ok((node, pos))` and `onErr node remaining_len` for `Err(..)`. -/
def lookupLiteralMut (t : SuffixTree) (literal : Bytes)
    (onOk onErr : SuffixTree → Nat → M SuffixTree) : M SuffixTree :=
  match t.search literal with
  | .error e => .error e
  | .ok (.found pos) => onOk t pos
  | .ok .notFound => onErr t literal.length
  | .ok (.goDown pos truncated) =>
    match _h : t.literalChildren[pos]? with
    | none => .error .unwrap
    | some n =>
      match _hc : n.node with
      | none => .error .unwrap
      | some c =>
        match c.lookupLiteralMut truncated onOk onErr with
        | .error e => .error e
        | .ok c' => .ok { t with literalChildren := t.literalChildren.set pos { n with node := some c' } }
termination_by sizeOf t
decreasing_by exact sizeOf_literal_child pos _h _hc

/-- The update of the literal child at `pos` with `f`: `literal_children.get_mut(pos).unwrap()` followed by the caller's
modification. -/
def updateLiteral (t : SuffixTree) (pos : Nat) (f : LiteralNode → M LiteralNode) : M SuffixTree := do
  let n ← unwrap t.literalChildren[pos]?
  let n' ← f n
  pure { t with literalChildren := t.literalChildren.set pos n' }

end SuffixTree

/-- `LiteralNode::split`, /repo/src/matcher/trie/node/literal.rs:63-92 -/
def LiteralNode.split (self : LiteralNode) (cpl : Nat) (literal : Bytes) : M LiteralNode := do
  let d ← checkedSub literal.length cpl
  let commonPrefix ← rtrunc literal d
  let newNode := SuffixTree.new
  let leftBranch ← ltrunc literal cpl
  let leftNode := LiteralNode.new leftBranch
  let rightBranch ← ltrunc self.literal cpl
  let rightNode := LiteralNode.new rightBranch
  let leftNode := { leftNode with hasValue := true }
  let rightNode := { rightNode with node := self.node, hasValue := self.hasValue, pattern := self.pattern }
  let newNode ← newNode.addLiteralNode leftNode
  let newNode ← newNode.addLiteralNode rightNode
  pure { literal := commonPrefix, hasValue := false, pattern := none, node := some newNode }

namespace SuffixTree

/-- `lookup_freshly_inserted_literal`, /repo/src/matcher/trie/node/mod.rs:254-259 -/
def lookupFreshlyInsertedLiteral (t : SuffixTree) (literal : Bytes) (f : LiteralNode → M LiteralNode) :
    M SuffixTree :=
  t.lookupLiteralMut literal (fun node pos => node.updateLiteral pos f) (fun _ _ => .error .unwrap)

/-- `insert_literal_tail`, /repo/src/matcher/trie/node/mod.rs:218-252; `f` is applied to the returned node. -/
def insertLiteralTail (t : SuffixTree) (tail : Bytes) (f : LiteralNode → M LiteralNode) : M SuffixTree := do
  match ← SortedVec.binarySearchBy (fun probe => probe.cmpStr tail) t.literalChildren with
  | .ok pos =>
    let hit ← unwrap t.literalChildren[pos]?
    match hasCommonPrefix hit.literal tail with
    | some cpl =>
      let hit ← hit.split cpl tail
      let suffix ← ltrunc tail cpl
      let c ← unwrap hit.node
      let c ← c.lookupFreshlyInsertedLiteral suffix f
      pure { t with literalChildren := t.literalChildren.set pos { hit with node := some c } }
    | none => .error .unreachable
  | .err pos =>
    let newNode := { LiteralNode.new tail with hasValue := true }
    let t ← t.addLiteralNode newNode
    t.updateLiteral pos f

/-- `insert_literal`, /repo/src/matcher/trie/node/mod.rs:261-275 -/
def insertLiteral (t : SuffixTree) (literal : Bytes) (f : LiteralNode → M LiteralNode) : M SuffixTree :=
  t.lookupLiteralMut literal (fun node index => node.updateLiteral index f)
    (fun node remLen => do
      let off ← checkedSub literal.length remLen
      let tail ← ltrunc literal off
      node.insertLiteralTail tail f)

/-- `lookup_parser`, /repo/src/matcher/trie/node/mod.rs:214-216 -/
def lookupParser (sip : Bytes → UInt64) (t : SuffixTree) (parser : Parser) : Option Nat :=
  t.parserChildren.findIdx? fun x => x.parser.hashOs sip == parser.hashOs sip

/-- `insert_parser`, /repo/src/matcher/trie/node/mod.rs:277-285; `f` is applied to the returned node. -/
def insertParser (sip : Bytes → UInt64) (t : SuffixTree) (parser : Parser) (f : ParserNode → M ParserNode) :
    M SuffixTree :=
  match t.lookupParser sip parser with
  | some item => do
    let n ← unwrap t.parserChildren[item]?
    let n' ← f n
    pure { t with parserChildren := t.parserChildren.set item n' }
  | none => do
    let n' ← f (ParserNode.new parser)
    pure { t with parserChildren := t.parserChildren ++ [n'] }

/-- `SuffixTree::insert`, /repo/src/matcher/trie/node/mod.rs:304-316, with `Entry::insert`,
/repo/src/matcher/trie/node/interface.rs:17-25, as the update of the entry: set the pattern if no tokens are left,
otherwise set a *new* child and insert the rest there. -/
def insert (sip : Bytes → UInt64) (t : SuffixTree) (pattern : Pattern) : M SuffixTree :=
  match _h : pattern.popFirstToken with
  | none => .ok t
  | some (.literal literal, p) =>
    t.insertLiteral literal fun entry =>
      if p.pattern.isEmpty then .ok { entry with pattern := some p }
      else
        match insert sip SuffixTree.new p with
        | .error e => .error e
        | .ok sa => .ok { entry with node := some sa }
  | some (.parser parser, p) =>
    t.insertParser sip parser fun entry =>
      if p.pattern.isEmpty then .ok { entry with pattern := some p }
      else
        match insert sip SuffixTree.new p with
        | .error e => .error e
        | .ok sa => .ok { entry with node := some sa }
termination_by pattern.pattern.length
decreasing_by
  all_goals
    simp only [Pattern.popFirstToken] at _h
    split at _h
    · simp at _h
    · rename_i heq
      simp at _h
      rw [heq, ← _h.2]
      simp

theorem lookupLiteral_err_size {t : SuffixTree} {literal : Bytes} {node : SuffixTree} {n : Nat} :
    t.lookupLiteral literal = .ok (.err node n) → sizeOf node ≤ sizeOf t := by
  fun_induction lookupLiteral t literal with
  | case1 => simp
  | case2 => simp
  | case3 => simp; rintro rfl _; simp
  | case4 => simp
  | case5 => simp
  | case6 t literal pos truncated hs n h c hc ih =>
    intro hh
    have := ih hh
    have := sizeOf_literal_child pos h hc
    omega

/-- `create_match_result_if_child_is_leaf`, /repo/src/matcher/trie/node/mod.rs:180-189 -/
def createMatchResultIfChildIsLeaf (child : LiteralNode) : Option MatchResult :=
  match child.pattern with
  | some pattern => some (MatchResult.new pattern)
  | none => none

theorem sizeOf_parserChildren (t : SuffixTree) : sizeOf t.parserChildren < sizeOf t := by
  cases t; simp; omega

end SuffixTree

/-- `push_last_kvpair`, /repo/src/matcher/trie/node/parser.rs:53-64 -/
def ParserNode.pushLastKvpair (p : ParserNode) (text : Bytes) (value : Bytes) : M (Option MatchResult) :=
  if text.isEmpty then do
    let pattern ← unwrap p.pattern
    pure (some ((MatchResult.new pattern).insert p.parser value))
  else pure none

mutual
/-- `parse`, /repo/src/matcher/trie/node/mod.rs:161-178 -/
def SuffixTree.parse (t : SuffixTree) (text : Bytes) : M (Option MatchResult) :=
  match _h : t.lookupLiteral text with
  | .error e => .error e
  | .ok (.ok node pos) =>
    match node.literalChildren[pos]? with
    | none => .error .unwrap
    | some child => .ok (SuffixTree.createMatchResultIfChildIsLeaf child)
  | .ok (.err node remainingLen) =>
    match checkedSub text.length remainingLen with
    | .error e => .error e
    | .ok off =>
      match ltrunc text off with
      | .error e => .error e
      | .ok text => parseWithParsers node.parserChildren text
termination_by 2 * sizeOf t
decreasing_by
  have h1 := SuffixTree.lookupLiteral_err_size _h
  have h2 := SuffixTree.sizeOf_parserChildren node
  omega

/-- `parse_with_parsers`, /repo/src/matcher/trie/node/mod.rs:191-200: the first parser child that succeeds. -/
def parseWithParsers (ps : List ParserNode) (text : Bytes) : M (Option MatchResult) :=
  match ps with
  | [] => .ok none
  | i :: rest =>
    match i.parse text with
    | .error e => .error e
    | .ok (some result) => .ok (some result)
    | .ok none => parseWithParsers rest text
termination_by 2 * sizeOf ps
decreasing_by
  · simp; omega
  · simp; omega

/-- `ParserNode::parse`, /repo/src/matcher/trie/node/parser.rs:36-51 (and the identical `ParserEntry::parse`, 87-102) -/
def ParserNode.parse (p : ParserNode) (text : Bytes) : M (Option MatchResult) :=
  match p.parser.parse text with
  | .error e => .error e
  | .ok none => .ok none
  | .ok (some value) =>
    match ltrunc text value.length with
    | .error e => .error e
    | .ok text =>
      match _h : p.node with
      | some node => parseThenPushKvpair node text p.parser value
      | none => p.pushLastKvpair text value
termination_by 2 * sizeOf p
decreasing_by
  have e2 : sizeOf p = 1 + sizeOf p.parser + sizeOf p.pattern + sizeOf p.node := by cases p; simp
  rw [_h] at e2; simp at e2; omega

/-- `parse_then_push_kvpair`, /repo/src/matcher/trie/node/mod.rs:202-212 -/
def parseThenPushKvpair (t : SuffixTree) (text : Bytes) (parser : Parser) (value : Bytes) : M (Option MatchResult) :=
  match t.parse text with
  | .error e => .error e
  | .ok (some result) => .ok (some (result.insert parser value))
  | .ok none => .ok none
termination_by 2 * sizeOf t + 1
decreasing_by omega
end

/-- `Matcher::add_pattern`, /repo/src/matcher/trie/matcher.rs:11-13 -/
def SuffixTree.addPattern (sip : Bytes → UInt64) (t : SuffixTree) (p : Pattern) : M SuffixTree := t.insert sip p

/-- A matcher after a history of `add_pattern` calls on `new_matcher()` (/repo/src/matcher/trie/factory.rs:8-11). -/
def SuffixTree.build (sip : Bytes → UInt64) (ps : List Pattern) : M SuffixTree :=
  ps.foldlM (fun t p => t.addPattern sip p) SuffixTree.new

end Verif
