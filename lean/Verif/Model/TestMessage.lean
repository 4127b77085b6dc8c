import Verif.Model.Pattern
/-! Model of /repo/src/matcher/pattern/testmessage/message.rs and of the error type in /repo/src/matcher/pattern/testmessage/error.rs. -/
namespace Verif

/-- `testmessage::Error`, /repo/src/matcher/pattern/testmessage/error.rs:8-34, built by the functions in lines 37-82.  The code stores the
hyphenated text of a uuid, the model the uuid itself. -/
inductive TestError where
  | valueNotMatch (patternUuid : Nat) (key expectedValue gotValue : Bytes)
  | keyNotFound (patternUuid : Nat) (key : Bytes)
  | testMessageDoesntMatch (patternUuid : Nat) (message : Bytes)
  | matchedToOtherPattern (expectedUuid gotUuid : Nat) (message : Bytes)
  | unexpectedTags (patternUuid : Nat) (expected got : Option (List Bytes))
  deriving DecidableEq, Repr

/-- `TestMessage::merge_values`, /repo/src/matcher/pattern/testmessage/message.rs:69-82 -/
def mergeValues (result : MatchResult) : BMap :=
  let merged : BMap := match result.pattern.values with
    | some values => values.foldl (fun m kv => m.insert kv.1 kv.2) []
    | none => []
  result.values.foldl (fun m kv => m.insert kv.1 kv.2) merged

/-- `TestMessage::test_value`, /repo/src/matcher/pattern/testmessage/message.rs:52-67 -/
def testValue (key value : Bytes) (values : BMap) (result : MatchResult) : Except TestError Unit :=
  match values.get? key with
  | some gotValue => if value = gotValue then .ok () else .error (.valueNotMatch result.pattern.uuid key value gotValue)
  | none => .error (.keyNotFound result.pattern.uuid key)

/-- the loop in `TestMessage::test_values`, /repo/src/matcher/pattern/testmessage/message.rs:46-48 -/
def testValuesLoop (merged : BMap) (result : MatchResult) : List (Bytes × Bytes) → Except TestError Unit
  | [] => .ok ()
  | (key, value) :: rest =>
    match testValue key value merged result with
    | .error e => .error e
    | .ok () => testValuesLoop merged result rest

/-- `TestMessage::test_values`, /repo/src/matcher/pattern/testmessage/message.rs:43-50; iteration over the map is in key order. -/
def TestMessage.testValues (msg : TestMessage) (result : MatchResult) : Except TestError Unit :=
  testValuesLoop (mergeValues result) result msg.values

/-- `TestMessage::report_unexpected_tags_error`, /repo/src/matcher/pattern/testmessage/message.rs:110-114 -/
def TestMessage.unexpectedTagsError (msg : TestMessage) (result : MatchResult) : TestError :=
  .unexpectedTags result.pattern.uuid msg.tags result.pattern.tags

/-- `TestMessage::test_expected_tags_can_be_found_in_got_tags`, /repo/src/matcher/pattern/testmessage/message.rs:97-108 -/
def TestMessage.testExpectedTags (msg : TestMessage) (result : MatchResult) (gotTags : List Bytes) : List Bytes → Except TestError Unit
  | [] => .ok ()
  | i :: rest => if ¬ i ∈ gotTags then .error (msg.unexpectedTagsError result) else msg.testExpectedTags result gotTags rest

/-- `TestMessage::test_tags`, /repo/src/matcher/pattern/testmessage/message.rs:84-95 -/
def TestMessage.testTags (msg : TestMessage) (result : MatchResult) : Except TestError Unit :=
  match msg.tags with
  | some expectedTags =>
    match result.pattern.tags with
    | some gotTags => msg.testExpectedTags result gotTags expectedTags
    | none => .error (msg.unexpectedTagsError result)
  | none => .ok ()

/-- `TestMessage::test_result`, /repo/src/matcher/pattern/testmessage/message.rs:38-41 -/
def TestMessage.testResult (msg : TestMessage) (result : MatchResult) : Except TestError Unit :=
  match msg.testTags result with
  | .error e => .error e
  | .ok () => msg.testValues result

end Verif
