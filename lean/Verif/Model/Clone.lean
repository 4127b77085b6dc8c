import Verif.Model.Trie
/-! Model of the `Clone` implementations behind `Matcher::boxed_clone` of the trie: /repo/src/matcher/trie/matcher.rs:14-16. -/
namespace Verif

/-- `boxed_clone` of the parsers: the derived `Clone` of the concrete type, /repo/src/parsers/set.rs:7,96-98,
/repo/src/parsers/int.rs:5,34-36, /repo/src/parsers/greedy.rs:4,69-71.  Strings, sets and numbers are copied by value. -/
def Parser.boxedClone : Parser → Parser
  | .set p => .set { name := p.name, characterSet := p.characterSet, minLength := p.minLength, maxLength := p.maxLength }
  | .int p => .int { name := p.name, characterSet := p.characterSet, minLength := p.minLength, maxLength := p.maxLength }
  | .greedy p => .greedy { name := p.name, endString := p.endString }

/-- `Clone for TokenType`, /repo/src/matcher/compiled_pattern.rs:11-22 -/
def Token.clone : Token → Token
  | .parser p => .parser p.boxedClone
  | .literal l => .literal l

/-- derived `Clone` of `Pattern`, /repo/src/matcher/pattern/pattern.rs:10 -/
def Pattern.clone (p : Pattern) : Pattern :=
  { name := p.name, uuid := p.uuid, pattern := p.pattern.map Token.clone, values := p.values, tags := p.tags, testMessages := p.testMessages }

mutual
/-- derived `Clone` of `SuffixTree`, /repo/src/matcher/trie/node/mod.rs:16 -/
def SuffixTree.clone : SuffixTree → SuffixTree
  | ⟨ls, ps⟩ => ⟨cloneLits ls, clonePars ps⟩
/-- derived `Clone` of `SortedVec<LiteralNode>`, /repo/src/utils/sortedvec.rs:3 -/
def cloneLits : List LiteralNode → List LiteralNode
  | [] => []
  | n :: ls => n.clone :: cloneLits ls
/-- derived `Clone` of `Vec<ParserNode>` -/
def clonePars : List ParserNode → List ParserNode
  | [] => []
  | n :: ls => n.clone :: clonePars ls
/-- derived `Clone` of `LiteralNode`, /repo/src/matcher/trie/node/literal.rs:9 -/
def LiteralNode.clone : LiteralNode → LiteralNode
  | ⟨l, v, p, n⟩ => ⟨l, v, p.map Pattern.clone, cloneOpt n⟩
/-- `Clone for ParserNode`, /repo/src/matcher/trie/node/parser.rs:108-116 -/
def ParserNode.clone : ParserNode → ParserNode
  | ⟨a, p, n⟩ => ⟨a.boxedClone, p.map Pattern.clone, cloneOpt n⟩
/-- derived `Clone` of `Option<SuffixTree>` -/
def cloneOpt : Option SuffixTree → Option SuffixTree
  | none => none
  | some t => some t.clone
end

end Verif
