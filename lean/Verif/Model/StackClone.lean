import Verif.Model.SuffixClone
/-! Cloning (as in `Verif.Model.Clone` and `Verif.Model.SuffixClone`) and dropping matchers with a bounded call stack: the first argument is the number of stack
frames that are left, `none` says that the stack was exhausted.  One frame is used for each call of one of the functions below; the code the compiler derives
for `Option` and for the field of `SortedVec` is counted with the function that calls it, and cloning or dropping patterns, parsers, strings and numbers, which
does not lead back to the functions below, needs a constant number of further frames, which are not counted. -/
namespace Verif

/-- The loop of `Vec`'s `Clone`. -/
def cloneEach {α : Type} (clone : α → Option α) : List α → Option (List α)
  | [] => some []
  | x :: xs =>
    match clone x with
    | none => none
    | some x =>
      match cloneEach clone xs with
      | none => none
      | some xs => some (x :: xs)

mutual
/-- derived `Clone` of `SuffixTree`, /repo/src/matcher/trie/node/mod.rs:16-20 -/
def SuffixTree.cloneS : Nat → SuffixTree → Option SuffixTree
  | 0, _ => none
  | frames + 1, t =>
    match cloneLitsS frames t.literalChildren with
    | none => none
    | some ls =>
      match cloneParsS frames t.parserChildren with
      | none => none
      | some ps => some ⟨ls, ps⟩
/-- derived `Clone` of `SortedVec<LiteralNode>`, /repo/src/utils/sortedvec.rs:3 -/
def cloneLitsS : Nat → List LiteralNode → Option (List LiteralNode)
  | 0, _ => none
  | frames + 1, ls => cloneEach (fun n => n.cloneS frames) ls
/-- derived `Clone` of `Vec<ParserNode>` -/
def cloneParsS : Nat → List ParserNode → Option (List ParserNode)
  | 0, _ => none
  | frames + 1, ls => cloneEach (fun n => n.cloneS frames) ls
/-- derived `Clone` of `LiteralNode`, /repo/src/matcher/trie/node/literal.rs:9-15 -/
def LiteralNode.cloneS : Nat → LiteralNode → Option LiteralNode
  | 0, _ => none
  | frames + 1, n =>
    match n.node with
    | none => some { literal := n.literal, hasValue := n.hasValue, pattern := n.pattern.map Pattern.clone, node := none }
    | some c =>
      match c.cloneS frames with
      | none => none
      | some c => some { literal := n.literal, hasValue := n.hasValue, pattern := n.pattern.map Pattern.clone, node := some c }
/-- `Clone for ParserNode`, /repo/src/matcher/trie/node/parser.rs:108-116 -/
def ParserNode.cloneS : Nat → ParserNode → Option ParserNode
  | 0, _ => none
  | frames + 1, n =>
    match n.node with
    | none => some { parser := n.parser.boxedClone, pattern := n.pattern.map Pattern.clone, node := none }
    | some c =>
      match c.cloneS frames with
      | none => none
      | some c => some { parser := n.parser.boxedClone, pattern := n.pattern.map Pattern.clone, node := some c }
end

mutual
/-- derived `Clone` of `SuffixTable`, /repo/src/matcher/suffix_array/impls.rs:19-23 -/
def SuffixTable.cloneS : Nat → SuffixTable → Option SuffixTable
  | 0, _ => none
  | frames + 1, t =>
    match scloneLitsS frames t.literalEntries with
    | none => none
    | some ls =>
      match scloneParsS frames t.parserEntries with
      | none => none
      | some ps => some ⟨ls, ps⟩
/-- derived `Clone` of `Vec<LiteralE>` -/
def scloneLitsS : Nat → List LiteralE → Option (List LiteralE)
  | 0, _ => none
  | frames + 1, ls => cloneEach (fun n => n.cloneS frames) ls
/-- derived `Clone` of `Vec<ParserE>` -/
def scloneParsS : Nat → List ParserE → Option (List ParserE)
  | 0, _ => none
  | frames + 1, ls => cloneEach (fun n => n.cloneS frames) ls
/-- derived `Clone` of `LiteralE`, /repo/src/matcher/suffix_array/impls.rs:206-211 -/
def LiteralE.cloneS : Nat → LiteralE → Option LiteralE
  | 0, _ => none
  | frames + 1, n =>
    match n.child with
    | none => some { pattern := n.pattern.map Pattern.clone, literal := n.literal, child := none }
    | some c =>
      match c.cloneS frames with
      | none => none
      | some c => some { pattern := n.pattern.map Pattern.clone, literal := n.literal, child := some c }
/-- `Clone for ParserE`, /repo/src/matcher/suffix_array/impls.rs:133-141 -/
def ParserE.cloneS : Nat → ParserE → Option ParserE
  | 0, _ => none
  | frames + 1, n =>
    match n.child with
    | none => some { pattern := n.pattern.map Pattern.clone, parser := n.parser.boxedClone, child := none }
    | some c =>
      match c.cloneS frames with
      | none => none
      | some c => some { pattern := n.pattern.map Pattern.clone, parser := n.parser.boxedClone, child := some c }
end

/-- The loop in which a `Vec` drops its elements; the result is how many nodes were freed. -/
def dropEach {α : Type} (drop : α → Option Nat) : List α → Option Nat
  | [] => some 0
  | x :: xs =>
    match drop x with
    | none => none
    | some a =>
      match dropEach drop xs with
      | none => none
      | some b => some (a + b)

mutual
/-- What the compiler derives for dropping the fields of a `SuffixTree`, /repo/src/matcher/trie/node/mod.rs:17-20; the result is how many nodes were freed. -/
def SuffixTree.dropS : Nat → SuffixTree → Option Nat
  | 0, _ => none
  | frames + 1, t =>
    match dropLitsS frames t.literalChildren with
    | none => none
    | some a =>
      match dropParsS frames t.parserChildren with
      | none => none
      | some b => some (a + b)
/-- dropping a `SortedVec<LiteralNode>`, /repo/src/utils/sortedvec.rs:4-6 -/
def dropLitsS : Nat → List LiteralNode → Option Nat
  | 0, _ => none
  | frames + 1, ls => dropEach (fun n => n.dropS frames) ls
/-- dropping a `Vec<ParserNode>` -/
def dropParsS : Nat → List ParserNode → Option Nat
  | 0, _ => none
  | frames + 1, ls => dropEach (fun n => n.dropS frames) ls
/-- dropping the fields of a `LiteralNode`, /repo/src/matcher/trie/node/literal.rs:10-15 -/
def LiteralNode.dropS : Nat → LiteralNode → Option Nat
  | 0, _ => none
  | frames + 1, n =>
    match n.node with
    | none => some 1
    | some c =>
      match c.dropS frames with
      | none => none
      | some k => some (1 + k)
/-- dropping the fields of a `ParserNode`, /repo/src/matcher/trie/node/parser.rs:9-13 -/
def ParserNode.dropS : Nat → ParserNode → Option Nat
  | 0, _ => none
  | frames + 1, n =>
    match n.node with
    | none => some 1
    | some c =>
      match c.dropS frames with
      | none => none
      | some k => some (1 + k)
end

mutual
/-- dropping the fields of a `SuffixTable`, /repo/src/matcher/suffix_array/impls.rs:20-23; the result is how many entries were freed -/
def SuffixTable.dropS : Nat → SuffixTable → Option Nat
  | 0, _ => none
  | frames + 1, t =>
    match sdropLitsS frames t.literalEntries with
    | none => none
    | some a =>
      match sdropParsS frames t.parserEntries with
      | none => none
      | some b => some (a + b)
/-- dropping a `Vec<LiteralE>` -/
def sdropLitsS : Nat → List LiteralE → Option Nat
  | 0, _ => none
  | frames + 1, ls => dropEach (fun n => n.dropS frames) ls
/-- dropping a `Vec<ParserE>` -/
def sdropParsS : Nat → List ParserE → Option Nat
  | 0, _ => none
  | frames + 1, ls => dropEach (fun n => n.dropS frames) ls
/-- dropping the fields of a `LiteralE`, /repo/src/matcher/suffix_array/impls.rs:207-211 -/
def LiteralE.dropS : Nat → LiteralE → Option Nat
  | 0, _ => none
  | frames + 1, n =>
    match n.child with
    | none => some 1
    | some c =>
      match c.dropS frames with
      | none => none
      | some k => some (1 + k)
/-- dropping the fields of a `ParserE`, /repo/src/matcher/suffix_array/impls.rs:127-131 -/
def ParserE.dropS : Nat → ParserE → Option Nat
  | 0, _ => none
  | frames + 1, n =>
    match n.child with
    | none => some 1
    | some c =>
      match c.dropS frames with
      | none => none
      | some k => some (1 + k)
end

end Verif
