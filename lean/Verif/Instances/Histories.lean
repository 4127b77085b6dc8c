import Verif.Instances.Files
import Verif.Props.C140_Histories
/-! Concrete cases for C140. -/
namespace Verif
open Spec
namespace Histories

def p1 : Pattern := Samples.pat 1 [.literal b!"n=", .parser (Samples.int b!"a")]
def p2 : Pattern := Samples.pat 2 [.literal b!"x"]

/-- A clone goes its own way: after the cloning each of the two gets another pattern, and the original is dropped. -/
def before : List MatcherCall := [.create .trie, .add 0 p1, .create .suffixArray, .clone 0, .add 2 p2, .add 1 p2, .parse 0 b!"x", .drop 0]
def program : List MatcherCall := before ++ [.parse 2 b!"x", .parse 2 b!"n=7", .parse 0 b!"n=7"]

example : held before = [none, some (.suffixArray, [p2]), some (.trie, [p1, p2])] := by decide +kernel

def answersOf : M (List (Option Boxed) × List (Option (Option MatchResult))) → Option (List (Option (Option MatchResult)))
  | .ok (_, as) => some as
  | .error _ => none

example : answersOf (runCalls Samples.sip [] program) = some [none, none, none, none, none, none, some none, none,
    some (some { pattern := Samples.pat 2 [], values := [] }), some (some { pattern := Samples.pat 1 [], values := [(b!"a", b!"7")] }), none] := by
  decide +kernel

/-- A program that panics. -/
def panicking : List MatcherCall := [.create .suffixArray, .create .trie, .add 1 (Samples.pat 1 [.literal b!"né"]), .add 0 p2, .add 1 (Samples.pat 2 [.literal b!"nx"])]

example : ∃ e, runCalls Samples.sip [] panicking = .error e := by
  have h : (match runCalls Samples.sip [] panicking with | .error _ => true | .ok _ => false) = true := by decide +kernel
  split at h
  · rename_i e he; exact ⟨e, he⟩
  · simp at h

end Histories
end Verif
