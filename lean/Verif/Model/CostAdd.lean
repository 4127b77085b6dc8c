import Verif.Model.Cost
/-! The functions that add a pattern once more, now with a count of their work, as `Verif.Model.Cost` has it for `parse`: the comparisons of stored
literals and of hashes of stored parsers, and one for each element of a vector that is sorted.  Functions that return a mutable reference take the update
of the caller as an argument, as in `Verif.Model.Trie`; its work is counted, too.  (Simplification: moving the elements of a vector to make room for a new
one is not counted.) -/
namespace Verif

/-- A result, and the work it took. -/
abbrev Work (α : Type) := M α × Nat

/-- First `x`, then what `f` makes of its result; the work of both is added. -/
def Work.then {α β : Type} (x : Work α) (f : α → Work β) : Work β :=
  match x with
  | (.error e, c) => (.error e, c)
  | (.ok a, c) => ((f a).1, c + (f a).2)

namespace SuffixTree

/-- `lookup_literal_mut`, /repo/src/matcher/trie/node/mod.rs:47-66 -/
def lookupLiteralMutC (t : SuffixTree) (literal : Bytes) (onOk onErr : SuffixTree → Nat → Work SuffixTree) : Work SuffixTree :=
  match t.searchC literal with
  | (.error e, c) => (.error e, c)
  | (.ok (.found pos), c) => ((onOk t pos).1, c + (onOk t pos).2)
  | (.ok .notFound, c) => ((onErr t literal.length).1, c + (onErr t literal.length).2)
  | (.ok (.goDown pos truncated), c) =>
    match _h : t.literalChildren[pos]? with
    | none => (.error .unwrap, c)
    | some n =>
      match _hc : n.node with
      | none => (.error .unwrap, c)
      | some t' =>
        match t'.lookupLiteralMutC truncated onOk onErr with
        | (.error e, c') => (.error e, c + c')
        | (.ok t'', c') => (.ok { t with literalChildren := t.literalChildren.set pos { n with node := some t'' } }, c + c')
termination_by sizeOf t
decreasing_by exact sizeOf_literal_child pos _h _hc

/-- `add_literal_node`, /repo/src/matcher/trie/node/mod.rs:33-35: all children and the new one are sorted -/
def addLiteralNodeC (t : SuffixTree) (lnode : LiteralNode) : Work SuffixTree := (t.addLiteralNode lnode, t.literalChildren.length + 1)

/-- The update of the literal child at `pos`, see `SuffixTree.updateLiteral`. -/
def updateLiteralC (t : SuffixTree) (pos : Nat) (f : LiteralNode → Work LiteralNode) : Work SuffixTree :=
  Work.then (unwrap t.literalChildren[pos]?, 0) fun n =>
    (f n).then fun n' => (.ok { t with literalChildren := t.literalChildren.set pos n' }, 0)

/-- `lookup_freshly_inserted_literal`, /repo/src/matcher/trie/node/mod.rs:254-259 -/
def lookupFreshlyInsertedLiteralC (t : SuffixTree) (literal : Bytes) (f : LiteralNode → Work LiteralNode) : Work SuffixTree :=
  t.lookupLiteralMutC literal (fun node pos => node.updateLiteralC pos f) (fun _ _ => (.error .unwrap, 0))

end SuffixTree

/-- `LiteralNode::split`, /repo/src/matcher/trie/node/literal.rs:63-92: two literals are added to a new node, so one and then two elements are sorted -/
def LiteralNode.splitC (self : LiteralNode) (cpl : Nat) (literal : Bytes) : Work LiteralNode := (self.split cpl literal, 3)

namespace SuffixTree

/-- `insert_literal_tail`, /repo/src/matcher/trie/node/mod.rs:218-252 -/
def insertLiteralTailC (t : SuffixTree) (tail : Bytes) (f : LiteralNode → Work LiteralNode) : Work SuffixTree :=
  Work.then (binarySearchLoopC (fun probe : LiteralNode => probe.cmpStr tail) 0 t.literalChildren) fun r =>
    match r with
    | .ok pos =>
      Work.then (unwrap t.literalChildren[pos]?, 0) fun hit =>
        match hasCommonPrefix hit.literal tail with
        | some cpl =>
          Work.then (hit.splitC cpl tail) fun hit =>
            Work.then (ltrunc tail cpl, 1) fun suffix =>
              Work.then (unwrap hit.node, 0) fun c =>
                (c.lookupFreshlyInsertedLiteralC suffix f).then fun c =>
                  (.ok { t with literalChildren := t.literalChildren.set pos { hit with node := some c } }, 0)
        | none => (.error .unreachable, 1)
    | .err pos => (t.addLiteralNodeC { LiteralNode.new tail with hasValue := true }).then fun t => t.updateLiteralC pos f

/-- `insert_literal`, /repo/src/matcher/trie/node/mod.rs:261-275 -/
def insertLiteralC (t : SuffixTree) (literal : Bytes) (f : LiteralNode → Work LiteralNode) : Work SuffixTree :=
  t.lookupLiteralMutC literal (fun node index => node.updateLiteralC index f)
    (fun node remLen =>
      Work.then (checkedSub literal.length remLen, 0) fun off =>
        Work.then (ltrunc literal off, 0) fun tail => node.insertLiteralTailC tail f)

/-- `lookup_parser`, /repo/src/matcher/trie/node/mod.rs:214-216: the hashes of the parsers up to the one that is found are compared -/
def lookupParserC (sip : Bytes → UInt64) (t : SuffixTree) (parser : Parser) : Option Nat × Nat :=
  match t.lookupParser sip parser with
  | some item => (some item, item + 1)
  | none => (none, t.parserChildren.length)

/-- `insert_parser`, /repo/src/matcher/trie/node/mod.rs:277-285 -/
def insertParserC (sip : Bytes → UInt64) (t : SuffixTree) (parser : Parser) (f : ParserNode → Work ParserNode) : Work SuffixTree :=
  match t.lookupParserC sip parser with
  | (some item, c) =>
    Work.then (unwrap t.parserChildren[item]?, c) fun n =>
      (f n).then fun n' => (.ok { t with parserChildren := t.parserChildren.set item n' }, 0)
  | (none, c) =>
    Work.then (.ok (ParserNode.new parser), c) fun n =>
      (f n).then fun n' => (.ok { t with parserChildren := t.parserChildren ++ [n'] }, 0)

/-- `SuffixTree::insert`, /repo/src/matcher/trie/node/mod.rs:304-316, with `Entry::insert`, /repo/src/matcher/trie/node/interface.rs:17-25 -/
def insertC (sip : Bytes → UInt64) (t : SuffixTree) (pattern : Pattern) : Work SuffixTree :=
  match _h : pattern.popFirstToken with
  | none => (.ok t, 0)
  | some (.literal literal, p) =>
    t.insertLiteralC literal fun entry =>
      if p.pattern.isEmpty then (.ok { entry with pattern := some p }, 0)
      else (insertC sip SuffixTree.new p).then fun sa => (.ok { entry with node := some sa }, 0)
  | some (.parser parser, p) =>
    t.insertParserC sip parser fun entry =>
      if p.pattern.isEmpty then (.ok { entry with pattern := some p }, 0)
      else (insertC sip SuffixTree.new p).then fun sa => (.ok { entry with node := some sa }, 0)
termination_by pattern.pattern.length
decreasing_by
  all_goals
    simp only [Pattern.popFirstToken] at _h
    split at _h
    · simp at _h
    · rename_i heq
      simp at _h
      rw [heq, ← _h.2]
      simp

/-- `Matcher::add_pattern`, /repo/src/matcher/trie/matcher.rs:11-13 -/
def addPatternC (sip : Bytes → UInt64) (t : SuffixTree) (p : Pattern) : Work SuffixTree := t.insertC sip p

end SuffixTree

namespace SuffixTable

/-- `insert_literal`, /repo/src/matcher/suffix_array/impls.rs:49-61 -/
def insertLiteralC (t : SuffixTable) (literal : Bytes) (f : LiteralE → Work LiteralE) : Work SuffixTable :=
  Work.then (binarySearchLoopC (fun probe : LiteralE => .ok (cmpBytes probe.literal literal)) 0 t.literalEntries) fun r =>
    match r with
    | .ok pos =>
      Work.then (unwrap t.literalEntries[pos]?, 0) fun e =>
        (f e).then fun e' => (.ok { t with literalEntries := t.literalEntries.set pos e' }, 0)
    | .err pos =>
      Work.then (vecInsert t.literalEntries pos (LiteralE.new literal), 0) fun l =>
        Work.then (unwrap l[pos]?, 0) fun e =>
          (f e).then fun e' => (.ok { t with literalEntries := l.set pos e' }, 0)

/-- `insert_parser`, /repo/src/matcher/suffix_array/impls.rs:72-83: the hashes of the parsers up to the one that is found are compared -/
def insertParserC (sip : Bytes → UInt64) (t : SuffixTable) (parser : Parser) (f : ParserE → Work ParserE) : Work SuffixTable :=
  match t.parserEntries.findIdx? (fun x => x.parser.hashOs sip == parser.hashOs sip) with
  | some pos =>
    Work.then (unwrap t.parserEntries[pos]?, pos + 1) fun n =>
      (f n).then fun n' => (.ok { t with parserEntries := t.parserEntries.set pos n' }, 0)
  | none =>
    Work.then (.ok (ParserE.new parser), t.parserEntries.length) fun n =>
      (f n).then fun n' => (.ok { t with parserEntries := t.parserEntries ++ [n'] }, 0)

/-- `SuffixTable::insert`, /repo/src/matcher/suffix_array/impls.rs:111-123, with `Entry::insert`, /repo/src/matcher/suffix_array/interface.rs:17-25 -/
def insertC (sip : Bytes → UInt64) (t : SuffixTable) (pattern : Pattern) : Work SuffixTable :=
  match _h : pattern.popFirstToken with
  | none => (.ok t, 0)
  | some (.literal literal, p) =>
    t.insertLiteralC literal fun entry =>
      if p.pattern.isEmpty then (.ok { entry with pattern := some p }, 0)
      else (insertC sip SuffixTable.new p).then fun sa => (.ok { entry with child := some sa }, 0)
  | some (.parser parser, p) =>
    t.insertParserC sip parser fun entry =>
      if p.pattern.isEmpty then (.ok { entry with pattern := some p }, 0)
      else (insertC sip SuffixTable.new p).then fun sa => (.ok { entry with child := some sa }, 0)
termination_by pattern.pattern.length
decreasing_by
  all_goals
    simp only [Pattern.popFirstToken] at _h
    split at _h
    · simp at _h
    · rename_i heq
      simp at _h
      rw [heq, ← _h.2]
      simp

/-- `Matcher::add_pattern`, /repo/src/matcher/suffix_array/impls.rs:264-266 -/
def addPatternC (sip : Bytes → UInt64) (t : SuffixTable) (p : Pattern) : Work SuffixTable := t.insertC sip p

end SuffixTable

end Verif
