import Verif.Model.TestMessage
import Verif.Model.Trie
import Verif.Model.SuffixTable
/-! Model of /repo/src/matcher/pattern_source/mod.rs, /repo/src/matcher/pattern_source/error.rs and the iterator of
/repo/src/matcher/pattern/file/iter.rs. -/
namespace Verif

/-- Errors of deserialization: those the code of the repository creates (`serde::de::Error::custom` and `missing_field`), and all others, which
come from the libraries serde, serde_json, serde_yaml and uuid. -/
inductive DeError where
  | custom (msg : Bytes)
  | missingField (field : Bytes)
  | other (code : Nat)
  deriving DecidableEq, Repr

/-- `BuildError`, /repo/src/matcher/pattern_source/error.rs:9-17; an `io::Error` is a number. -/
inductive BuildError where
  | testMessage (e : TestError)
  | io (code : Nat)
  | deserJson (e : DeError)
  | deserYaml (e : DeError)
  | unsupportedFileExtension
  | notUtf8FileName
  deriving DecidableEq, Repr

/-- `BuildResult`, /repo/src/matcher/pattern/source.rs:4 -/
abbrev BuildResult := Except BuildError Pattern

/-- The traits `Matcher` (without `boxed_clone`), /repo/src/matcher/mod.rs:20-24, and `MatcherFactory`, /repo/src/matcher/factory.rs:3-6.
A matcher type `T`: its empty matcher, and adding a pattern and parsing a text, which may panic. -/
structure MatcherImpl (T : Type) where
  new : T
  addPattern : T → Pattern → M T
  parse : T → Bytes → M (Option MatchResult)

/-- `TrieMatcherFactory`, /repo/src/matcher/trie/factory.rs:4-12, and `impl Matcher for SuffixTree`, /repo/src/matcher/trie/matcher.rs:7-17 -/
def trieMatcher (sip : Bytes → UInt64) : MatcherImpl SuffixTree :=
  { new := .new, addPattern := SuffixTree.addPattern sip, parse := SuffixTree.parse }

/-- `SuffixArrayMatcherFactory`, /repo/src/matcher/suffix_array/mod.rs:13-21, and `impl Matcher for SuffixTable` -/
def suffixArrayMatcher (sip : Bytes → UInt64) : MatcherImpl SuffixTable :=
  { new := .new, addPattern := SuffixTable.addPattern sip, parse := SuffixTable.parse }

variable {T : Type}

/-- the loop of `extract_test_messages`, /repo/src/matcher/pattern_source/mod.rs:41-48: the messages collected so far are `messages`. -/
def extractTestMessagesLoop (pattern : Pattern) (messages : List TestMessage) : List TestMessage × Pattern :=
  match _h : pattern.popTestMessage with
  | some (testMessage, pattern') => extractTestMessagesLoop pattern' (messages ++ [testMessage])
  | none => (messages, pattern)
termination_by (pattern.testMessages.getD []).length
decreasing_by
  have h := _h
  unfold Pattern.popTestMessage at h
  split at h
  · simp at h
  · rename_i ms hms
    split at h
    · simp at h
    · rename_i m hm
      simp at h
      rw [← h.2, hms]
      have : ms ≠ [] := by rintro rfl; simp at hm
      have := List.length_pos_iff.mpr this
      simp
      omega

/-- `extract_test_messages`, /repo/src/matcher/pattern_source/mod.rs:41-48 -/
def extractTestMessages (pattern : Pattern) : List TestMessage × Pattern := extractTestMessagesLoop pattern []

/-- `check_test_message`, /repo/src/matcher/pattern_source/mod.rs:63-74 -/
def checkTestMessage (message : TestMessage) (result : MatchResult) (expectedUuid : Nat) : Except TestError Unit :=
  if result.pattern.uuid = expectedUuid then message.testResult result
  else .error (.matchedToOtherPattern expectedUuid result.pattern.uuid message.message)

/-- `check_test_messages`, /repo/src/matcher/pattern_source/mod.rs:50-61 -/
def checkTestMessages (I : MatcherImpl T) (matcher : T) (uuid : Nat) : List TestMessage → M (Except BuildError Unit)
  | [] => .ok (.ok ())
  | msg :: rest =>
    match I.parse matcher msg.message with
    | .error e => .error e
    | .ok none => .ok (.error (.testMessage (.testMessageDoesntMatch uuid msg.message)))
    | .ok (some result) =>
      match checkTestMessage msg result uuid with
      | .error e => .ok (.error (.testMessage e))
      | .ok () => checkTestMessages I matcher uuid rest

/-- `check_pattern`, /repo/src/matcher/pattern_source/mod.rs:32-39; the result contains the updated matcher. -/
def checkPattern (I : MatcherImpl T) (matcher : T) (result : BuildResult) : M (T × Except BuildError Unit) :=
  match result with
  | .error e => .ok (matcher, .error e)
  | .ok pattern =>
    let uuid := pattern.uuid
    let (testMessages, pattern) := extractTestMessages pattern
    match I.addPattern matcher pattern with
    | .error e => .error e
    | .ok matcher =>
      match checkTestMessages I matcher uuid testMessages with
      | .error e => .error e
      | .ok r => .ok (matcher, r)

/-- the loop of `from_source`, /repo/src/matcher/pattern_source/mod.rs:13-19.  The source is the list of the items it delivers when it is asked;
the result contains the items that were not asked for. -/
def fromSourceLoop (I : MatcherImpl T) (matcher : T) : List BuildResult → M (Except BuildError T × List BuildResult)
  | [] => .ok (.ok matcher, [])
  | pattern :: rest =>
    match checkPattern I matcher pattern with
    | .error e => .error e
    | .ok (_, .error e) => .ok (.error e, rest)
    | .ok (matcher, .ok ()) => fromSourceLoop I matcher rest

/-- `from_source`, /repo/src/matcher/pattern_source/mod.rs:13-19 -/
def fromSource (I : MatcherImpl T) (source : List BuildResult) : M (Except BuildError T × List BuildResult) := fromSourceLoop I I.new source

/-- the loop of `from_source_ignore_errors`, /repo/src/matcher/pattern_source/mod.rs:21-30; logging is not modelled. -/
def fromSourceIgnoreErrorsLoop (I : MatcherImpl T) (matcher : T) : List BuildResult → M T
  | [] => .ok matcher
  | pattern :: rest =>
    match checkPattern I matcher pattern with
    | .error e => .error e
    | .ok (matcher, _) => fromSourceIgnoreErrorsLoop I matcher rest

/-- `from_source_ignore_errors`, /repo/src/matcher/pattern_source/mod.rs:21-30 -/
def fromSourceIgnoreErrors (I : MatcherImpl T) (source : List BuildResult) : M T := fromSourceIgnoreErrorsLoop I I.new source

/-- `PatternFile`, /repo/src/matcher/pattern/file/file.rs:3-5 -/
structure PatternFile where
  patterns : List Pattern
  deriving DecidableEq, Repr

/-- `IntoIter::next`, /repo/src/matcher/pattern/file/iter.rs:22-29: pops from the end of the vector. -/
def fileNext (patterns : List Pattern) : Option (BuildResult × List Pattern) :=
  match patterns.getLast? with
  | some pattern => some (.ok pattern, patterns.dropLast)
  | none => none

/-- All items the iterator of a pattern file delivers, /repo/src/matcher/pattern/file/iter.rs:7-29. -/
def fileItems (patterns : List Pattern) : List BuildResult :=
  match _h : fileNext patterns with
  | some (r, rest) => r :: fileItems rest
  | none => []
termination_by patterns.length
decreasing_by
  have h := _h
  unfold fileNext at h
  split at h
  · rename_i p hp
    simp at h
    have : patterns ≠ [] := by rintro rfl; simp at hp
    have := List.length_pos_iff.mpr this
    rw [← h.2]
    simp
    omega
  · simp at h

end Verif
