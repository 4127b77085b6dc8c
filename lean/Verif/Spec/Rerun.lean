import Verif.Spec.ConvertedFile
import Verif.Spec.Independent
/-! What two runs of the script /repo/utils/pdb2adb on the same patterndb have in common. -/
namespace Verif.Spec
open Verif Perl

/-- The patterns are the same but for the number in the name and, if both runs made it up, the uuid. -/
structure SameButLabels (made made' : Nat → Prop) (p p' : Pattern) : Prop where
  pattern : p'.pattern = p.pattern
  tags : p'.tags = p.tags
  values : p'.values = p.values
  testMessages : p'.testMessages = p.testMessages
  uuid : p'.uuid = p.uuid ∨ made p.uuid ∧ made' p'.uuid
  name : ∃ (ruleset : List Char) (n n' : Nat), p.name = some (encode (ruleset ++ '_' :: (toString n).toList)) ∧
    p'.name = some (encode (ruleset ++ '_' :: (toString n').toList))

/-- The uuid was made up. -/
def Made (uuidOf : List Char → Nat) (fresh : Nat → List Char) (u : Nat) : Prop := ∃ n, u = uuidOf (fresh n)

/-- The order of the patterns does not matter: no two of them are the same, and there are no two for which it can matter.  (`D` is `OrderMatters` for a trie and
`SuffixOrderMatters` for a suffix array.) -/
def AnyOrder (D : Pattern → Pattern → Prop) (ps : List Pattern) : Prop := ps.Pairwise fun p q => p.pattern ≠ q.pattern ∧ ¬ D p q

/-- The two answers (or panics) are the same, but the patterns may differ as `T` allows. -/
def SameAnswers (T : Pattern → Pattern → Prop) : Except Panic (Option MatchResult) → Except Panic (Option MatchResult) → Prop
  | .ok none, .ok none => True
  | .ok (some r), .ok (some r') => r'.values = r.values ∧ ∃ p p', T p p' ∧ r.pattern = { p with pattern := [] } ∧ r'.pattern = { p' with pattern := [] }
  | .error e, .error e' => e = e'
  | _, _ => False

end Verif.Spec
