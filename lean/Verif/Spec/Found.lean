import Verif.Spec.Matching
import Verif.Model.Trie
/-! Patterns that are found and patterns that are not. -/
namespace Verif.Spec

/-- The added pattern is the answer for every text it matches. -/
def FoundAfter (sip : Bytes → UInt64) (ps : List Pattern) (q : Pattern) : Prop :=
  ∀ text caps r, Utf8 text → MatchesStrict q.pattern text caps → (SuffixTree.build sip (ps ++ [q]) >>= fun t => t.parse text) = .ok r →
    ∃ res, r = some res ∧ IsResult res q caps

/-- The pattern is the answer for no text. -/
def NeverFound (sip : Bytes → UInt64) (ps : List Pattern) (q : Pattern) : Prop :=
  ∀ text res, Utf8 text → (SuffixTree.build sip ps >>= fun t => t.parse text) = .ok (some res) → res.pattern.uuid ≠ q.uuid

end Verif.Spec
