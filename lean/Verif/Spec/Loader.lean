import Verif.Model.Loader
/-! What it means for a test message to be satisfied, and which patterns a successfully built matcher consists of. -/
namespace Verif.Spec

/-- The value of the key `k`: the captured values and the fixed values of the pattern together, the captured ones winning.  (The maps are lists
of pairs; the last pair with the key counts.  `valueOf_ordered` shows that for ordered maps this is the captured value if there is one and else
the fixed one.) -/
def valueOf (r : MatchResult) (k : Bytes) : Option Bytes :=
  ((r.pattern.values.getD [] ++ r.values).reverse.find? fun kv => decide (kv.1 = k)).map (·.2)

/-- If the message lists tags, the pattern has a list of tags which contains them all. -/
def TagsOk (msg : TestMessage) (r : MatchResult) : Prop :=
  ∀ expected, msg.tags = some expected → ∃ got, r.pattern.tags = some got ∧ ∀ t ∈ expected, t ∈ got

/-- Every expected value is there. -/
def ValuesOk (msg : TestMessage) (r : MatchResult) : Prop := ∀ kv ∈ msg.values, valueOf r kv.1 = some kv.2

/-- The error for a match result that does not satisfy the expectations: wrong tags first, then the first expected key that is missing or has
another value. -/
inductive Rejects (msg : TestMessage) (r : MatchResult) : TestError → Prop
  | tags : ¬ TagsOk msg r → Rejects msg r (.unexpectedTags r.pattern.uuid msg.tags r.pattern.tags)
  | key (A B : BMap) (k v : Bytes) : TagsOk msg r → msg.values = A ++ (k, v) :: B → (∀ kv ∈ A, valueOf r kv.1 = some kv.2) →
      valueOf r k = none → Rejects msg r (.keyNotFound r.pattern.uuid k)
  | value (A B : BMap) (k v w : Bytes) : TagsOk msg r → msg.values = A ++ (k, v) :: B → (∀ kv ∈ A, valueOf r kv.1 = some kv.2) →
      valueOf r k = some w → w ≠ v → Rejects msg r (.valueNotMatch r.pattern.uuid k v w)

/-- The answer `a` for the text of the test message `msg` of the pattern with this uuid is right: it is a match of a pattern with the uuid, with
the expected tags and values. -/
def Passes (uuid : Nat) (msg : TestMessage) (a : Option MatchResult) : Prop :=
  ∃ r, a = some r ∧ r.pattern.uuid = uuid ∧ TagsOk msg r ∧ ValuesOk msg r

/-- The answer `a` for the text of the test message `msg` of the pattern with this uuid is wrong, for the reason `e`. -/
inductive FailsWith (uuid : Nat) (msg : TestMessage) : Option MatchResult → TestError → Prop
  | noMatch : FailsWith uuid msg none (.testMessageDoesntMatch uuid msg.message)
  | other (r : MatchResult) : r.pattern.uuid ≠ uuid → FailsWith uuid msg (some r) (.matchedToOtherPattern uuid r.pattern.uuid msg.message)
  | rejected (r : MatchResult) (e : TestError) : r.pattern.uuid = uuid → Rejects msg r e → FailsWith uuid msg (some r) e

/-- The test messages of a pattern. -/
def testsOf (p : Pattern) : List TestMessage := p.testMessages.getD []

/-- The pattern without its test messages. -/
def loaded (p : Pattern) : Pattern := { p with testMessages := p.testMessages.map fun _ => [] }

/-- The matcher one gets by adding the patterns (without their test messages) to an empty matcher, in this order. -/
def built {T : Type} (I : MatcherImpl T) (ps : List Pattern) : M T := (ps.map loaded).foldlM I.addPattern I.new

/-- The matcher answers the text of the message, and the answer is right. -/
def PassesIn {T : Type} (I : MatcherImpl T) (m : T) (uuid : Nat) (msg : TestMessage) : Prop :=
  ∃ a, I.parse m msg.message = .ok a ∧ Passes uuid msg a

/-- `m` is built from the patterns `ps`, and all test messages of each of them pass in the matcher built from the patterns up to and including
this one. -/
def Validated {T : Type} (I : MatcherImpl T) (ps : List Pattern) (m : T) : Prop :=
  built I ps = .ok m ∧
  ∀ pre p post, ps = pre ++ p :: post → ∃ m1, built I (pre ++ [p]) = .ok m1 ∧ ∀ msg ∈ testsOf p, PassesIn I m1 p.uuid msg

/-- The item is no good for the matcher `m`: it is an error, or a pattern that can be added, but then not all its test messages pass.  The last
message (in the order of the list) that does not pass determines the error. -/
inductive Problem {T : Type} (I : MatcherImpl T) (m : T) : BuildResult → BuildError → Prop
  | item (e : BuildError) : Problem I m (.error e) e
  | message (p : Pattern) (m1 : T) (A B : List TestMessage) (msg : TestMessage) (a : Option MatchResult) (e : TestError) :
      I.addPattern m (loaded p) = .ok m1 → testsOf p = A ++ msg :: B → (∀ x ∈ B, PassesIn I m1 p.uuid x) → I.parse m1 msg.message = .ok a →
      FailsWith p.uuid msg a e → Problem I m (.ok p) (.testMessage e)

/-- Adding the pattern panics, or parsing one of its test messages does, all the ones that are checked before passing. -/
inductive Panics {T : Type} (I : MatcherImpl T) (m : T) (p : Pattern) : Panic → Prop
  | add (e : Panic) : I.addPattern m (loaded p) = .error e → Panics I m p e
  | message (m1 : T) (A B : List TestMessage) (msg : TestMessage) (e : Panic) :
      I.addPattern m (loaded p) = .ok m1 → testsOf p = A ++ msg :: B → (∀ x ∈ B, PassesIn I m1 p.uuid x) → I.parse m1 msg.message = .error e →
      Panics I m p e

/-- The patterns among the items of a source. -/
def delivered (items : List BuildResult) : List Pattern := items.filterMap fun i => match i with | .ok p => some p | .error _ => none

end Verif.Spec
