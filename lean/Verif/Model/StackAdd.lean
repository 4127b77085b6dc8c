import Verif.Model.Trie
import Verif.Model.SuffixTable
/-! The functions that add a pattern once more, now with a bounded call stack, as in `Verif.Model.Stack`: the first argument is the number of stack
frames that are left, `none` says that the stack was exhausted.  One frame is used for each call of one of the functions below.  Functions that return a
mutable reference take the update of the caller as an argument, as in `Verif.Model.Trie`; the caller performs it after they have returned, so the update
has the frames of the caller.  The helpers (`search`, `split`, `ltrunc`, `lookup_parser`, ...) are not recursive, they need a constant number of further
frames, which are not counted. -/
namespace Verif

namespace SuffixTree

/-- `lookup_literal_mut`, /repo/src/matcher/trie/node/mod.rs:47-66 -/
def lookupLiteralMutS : Nat → SuffixTree → Bytes → (SuffixTree → Nat → Option (M SuffixTree)) → (SuffixTree → Nat → Option (M SuffixTree)) →
    Option (M SuffixTree)
  | 0, _, _, _, _ => none
  | frames + 1, t, literal, onOk, onErr =>
    match t.search literal with
    | .error e => some (.error e)
    | .ok (.found pos) => onOk t pos
    | .ok .notFound => onErr t literal.length
    | .ok (.goDown pos truncated) =>
      match t.literalChildren[pos]? with
      | none => some (.error .unwrap)
      | some n =>
        match n.node with
        | none => some (.error .unwrap)
        | some c =>
          match c.lookupLiteralMutS frames truncated onOk onErr with
          | none => none
          | some (.error e) => some (.error e)
          | some (.ok c') => some (.ok { t with literalChildren := t.literalChildren.set pos { n with node := some c' } })

/-- The update of the literal child at `pos`, see `SuffixTree.updateLiteral`. -/
def updateLiteralS (t : SuffixTree) (pos : Nat) (f : LiteralNode → Option (M LiteralNode)) : Option (M SuffixTree) :=
  match t.literalChildren[pos]? with
  | none => some (.error .unwrap)
  | some n =>
    match f n with
    | none => none
    | some (.error e) => some (.error e)
    | some (.ok n') => some (.ok { t with literalChildren := t.literalChildren.set pos n' })

/-- `lookup_freshly_inserted_literal`, /repo/src/matcher/trie/node/mod.rs:254-259 -/
def lookupFreshlyInsertedLiteralS : Nat → SuffixTree → Bytes → (LiteralNode → Option (M LiteralNode)) → Option (M SuffixTree)
  | 0, _, _, _ => none
  | frames + 1, t, literal, f =>
    t.lookupLiteralMutS frames literal (fun node pos => node.updateLiteralS pos f) (fun _ _ => some (.error .unwrap))

/-- `insert_literal_tail`, /repo/src/matcher/trie/node/mod.rs:218-252 -/
def insertLiteralTailS : Nat → SuffixTree → Bytes → (LiteralNode → Option (M LiteralNode)) → Option (M SuffixTree)
  | 0, _, _, _ => none
  | frames + 1, t, tail, f =>
    match SortedVec.binarySearchBy (fun probe => probe.cmpStr tail) t.literalChildren with
    | .error e => some (.error e)
    | .ok (.ok pos) =>
      match t.literalChildren[pos]? with
      | none => some (.error .unwrap)
      | some hit =>
        match hasCommonPrefix hit.literal tail with
        | none => some (.error .unreachable)
        | some cpl =>
          match hit.split cpl tail with
          | .error e => some (.error e)
          | .ok hit =>
            match ltrunc tail cpl with
            | .error e => some (.error e)
            | .ok suffix =>
              match hit.node with
              | none => some (.error .unwrap)
              | some c =>
                match c.lookupFreshlyInsertedLiteralS frames suffix f with
                | none => none
                | some (.error e) => some (.error e)
                | some (.ok c) => some (.ok { t with literalChildren := t.literalChildren.set pos { hit with node := some c } })
    | .ok (.err pos) =>
      match t.addLiteralNode { LiteralNode.new tail with hasValue := true } with
      | .error e => some (.error e)
      | .ok t => t.updateLiteralS pos f

/-- `insert_literal`, /repo/src/matcher/trie/node/mod.rs:261-275 -/
def insertLiteralS : Nat → SuffixTree → Bytes → (LiteralNode → Option (M LiteralNode)) → Option (M SuffixTree)
  | 0, _, _, _ => none
  | frames + 1, t, literal, f =>
    t.lookupLiteralMutS frames literal (fun node index => node.updateLiteralS index f)
      (fun node remLen =>
        match checkedSub literal.length remLen with
        | .error e => some (.error e)
        | .ok off =>
          match ltrunc literal off with
          | .error e => some (.error e)
          | .ok tail => node.insertLiteralTailS frames tail f)

/-- `insert_parser`, /repo/src/matcher/trie/node/mod.rs:277-285 -/
def insertParserS (sip : Bytes → UInt64) : Nat → SuffixTree → Parser → (ParserNode → Option (M ParserNode)) → Option (M SuffixTree)
  | 0, _, _, _ => none
  | _ + 1, t, parser, f =>
    match t.lookupParser sip parser with
    | some item =>
      match t.parserChildren[item]? with
      | none => some (.error .unwrap)
      | some n =>
        match f n with
        | none => none
        | some (.error e) => some (.error e)
        | some (.ok n') => some (.ok { t with parserChildren := t.parserChildren.set item n' })
    | none =>
      match f (ParserNode.new parser) with
      | none => none
      | some (.error e) => some (.error e)
      | some (.ok n') => some (.ok { t with parserChildren := t.parserChildren ++ [n'] })

mutual
/-- `SuffixTree::insert`, /repo/src/matcher/trie/node/mod.rs:304-316 -/
def insertS (sip : Bytes → UInt64) : Nat → SuffixTree → Pattern → Option (M SuffixTree)
  | 0, _, _ => none
  | frames + 1, t, pattern =>
    match pattern.popFirstToken with
    | none => some (.ok t)
    | some (.literal literal, p) =>
      t.insertLiteralS frames literal fun entry =>
        match entryInsertS sip frames p with
        | none => none
        | some (.error e) => some (.error e)
        | some (.ok none) => some (.ok { entry with pattern := some p })
        | some (.ok (some sa)) => some (.ok { entry with node := some sa })
    | some (.parser parser, p) =>
      t.insertParserS sip frames parser fun entry =>
        match entryInsertS sip frames p with
        | none => none
        | some (.error e) => some (.error e)
        | some (.ok none) => some (.ok { entry with pattern := some p })
        | some (.ok (some sa)) => some (.ok { entry with node := some sa })

/-- `Entry::insert`, /repo/src/matcher/trie/node/interface.rs:17-25.  It does not look at the entry: the result is the new child, or `none` if the pattern
is to be stored in the entry itself. -/
def entryInsertS (sip : Bytes → UInt64) : Nat → Pattern → Option (M (Option SuffixTree))
  | 0, _ => none
  | frames + 1, p =>
    if p.pattern.isEmpty then some (.ok none)
    else
      match insertS sip frames SuffixTree.new p with
      | none => none
      | some (.error e) => some (.error e)
      | some (.ok sa) => some (.ok (some sa))
end

/-- `Matcher::add_pattern`, /repo/src/matcher/trie/matcher.rs:11-13 -/
def addPatternS (sip : Bytes → UInt64) : Nat → SuffixTree → Pattern → Option (M SuffixTree)
  | 0, _, _ => none
  | frames + 1, t, p => t.insertS sip frames p

end SuffixTree

namespace SuffixTable

/-- `insert_literal`, /repo/src/matcher/suffix_array/impls.rs:49-61 -/
def insertLiteralS : Nat → SuffixTable → Bytes → (LiteralE → Option (M LiteralE)) → Option (M SuffixTable)
  | 0, _, _, _ => none
  | _ + 1, t, literal, f =>
    match binarySearchBy (fun probe : LiteralE => .ok (cmpBytes probe.literal literal)) t.literalEntries with
    | .error e => some (.error e)
    | .ok (.ok pos) =>
      match t.literalEntries[pos]? with
      | none => some (.error .unwrap)
      | some e =>
        match f e with
        | none => none
        | some (.error e) => some (.error e)
        | some (.ok e') => some (.ok { t with literalEntries := t.literalEntries.set pos e' })
    | .ok (.err pos) =>
      match vecInsert t.literalEntries pos (LiteralE.new literal) with
      | .error e => some (.error e)
      | .ok l =>
        match l[pos]? with
        | none => some (.error .unwrap)
        | some e =>
          match f e with
          | none => none
          | some (.error e) => some (.error e)
          | some (.ok e') => some (.ok { t with literalEntries := l.set pos e' })

/-- `insert_parser`, /repo/src/matcher/suffix_array/impls.rs:72-83 -/
def insertParserS (sip : Bytes → UInt64) : Nat → SuffixTable → Parser → (ParserE → Option (M ParserE)) → Option (M SuffixTable)
  | 0, _, _, _ => none
  | _ + 1, t, parser, f =>
    match t.parserEntries.findIdx? (fun x => x.parser.hashOs sip == parser.hashOs sip) with
    | some pos =>
      match t.parserEntries[pos]? with
      | none => some (.error .unwrap)
      | some n =>
        match f n with
        | none => none
        | some (.error e) => some (.error e)
        | some (.ok n') => some (.ok { t with parserEntries := t.parserEntries.set pos n' })
    | none =>
      match f (ParserE.new parser) with
      | none => none
      | some (.error e) => some (.error e)
      | some (.ok n') => some (.ok { t with parserEntries := t.parserEntries ++ [n'] })

mutual
/-- `SuffixTable::insert`, /repo/src/matcher/suffix_array/impls.rs:111-123 -/
def insertS (sip : Bytes → UInt64) : Nat → SuffixTable → Pattern → Option (M SuffixTable)
  | 0, _, _ => none
  | frames + 1, t, pattern =>
    match pattern.popFirstToken with
    | none => some (.ok t)
    | some (.literal literal, p) =>
      t.insertLiteralS frames literal fun entry =>
        match entryInsertS sip frames p with
        | none => none
        | some (.error e) => some (.error e)
        | some (.ok none) => some (.ok { entry with pattern := some p })
        | some (.ok (some sa)) => some (.ok { entry with child := some sa })
    | some (.parser parser, p) =>
      t.insertParserS sip frames parser fun entry =>
        match entryInsertS sip frames p with
        | none => none
        | some (.error e) => some (.error e)
        | some (.ok none) => some (.ok { entry with pattern := some p })
        | some (.ok (some sa)) => some (.ok { entry with child := some sa })

/-- `Entry::insert`, /repo/src/matcher/suffix_array/interface.rs:17-25, see `SuffixTree.entryInsertS`. -/
def entryInsertS (sip : Bytes → UInt64) : Nat → Pattern → Option (M (Option SuffixTable))
  | 0, _ => none
  | frames + 1, p =>
    if p.pattern.isEmpty then some (.ok none)
    else
      match insertS sip frames SuffixTable.new p with
      | none => none
      | some (.error e) => some (.error e)
      | some (.ok sa) => some (.ok (some sa))
end

/-- `Matcher::add_pattern`, /repo/src/matcher/suffix_array/impls.rs:264-266 -/
def addPatternS (sip : Bytes → UInt64) : Nat → SuffixTable → Pattern → Option (M SuffixTable)
  | 0, _, _ => none
  | frames + 1, t, p => t.insertS sip frames p

end SuffixTable

end Verif
