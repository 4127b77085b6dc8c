import Verif.Model.Parsers
/-! Model of /repo/src/matcher/compiled_pattern.rs, /repo/src/matcher/pattern/pattern.rs,
/repo/src/matcher/pattern/testmessage/message.rs (data) and /repo/src/matcher/result.rs. -/
namespace Verif

/-- `TokenType`, /repo/src/matcher/compiled_pattern.rs:5-9 -/
inductive Token where
  | parser (p : Parser)
  | literal (l : Bytes)
  deriving DecidableEq, Repr

/-- `CompiledPattern`, /repo/src/matcher/compiled_pattern.rs:3 -/
abbrev CompiledPattern := List Token

/-- `TestMessage`, /repo/src/matcher/pattern/testmessage/message.rs:7-12 -/
structure TestMessage where
  message : Bytes
  values : BMap
  tags : Option (List Bytes)
  deriving DecidableEq, Repr

/-- `Pattern`, /repo/src/matcher/pattern/pattern.rs:10-18.  A `Uuid` (128 bits) is a natural number; the code only compares
uuids for equality. -/
structure Pattern where
  name : Option Bytes
  uuid : Nat
  pattern : CompiledPattern
  values : Option BMap
  tags : Option (List Bytes)
  testMessages : Option (List TestMessage)
  deriving DecidableEq, Repr

/-- `Pattern::with_uuid`, /repo/src/matcher/pattern/pattern.rs:21-23 -/
def Pattern.withUuid (uuid : Nat) : Pattern :=
  { name := none, uuid, pattern := [], values := none, tags := none, testMessages := none }

/-- `Pattern::pop_first_token`, /repo/src/matcher/pattern/pattern.rs:74-80: the token and the pattern without it. -/
def Pattern.popFirstToken (p : Pattern) : Option (Token × Pattern) :=
  match p.pattern with
  | [] => none
  | tok :: rest => some (tok, { p with pattern := rest })

/-- `Pattern::pop_test_message`, /repo/src/matcher/pattern/pattern.rs:82-84: pops from the end of the vector. -/
def Pattern.popTestMessage (p : Pattern) : Option (TestMessage × Pattern) :=
  match p.testMessages with
  | none => none
  | some ms =>
    match ms.getLast? with
    | none => none
    | some m => some (m, { p with testMessages := some ms.dropLast })

/-- `MatchResult`, /repo/src/matcher/result.rs:6-10; the references are modelled by the values they point to. -/
structure MatchResult where
  pattern : Pattern
  values : BMap
  deriving DecidableEq, Repr

/-- `MatchResult::new`, /repo/src/matcher/result.rs:13-18 -/
def MatchResult.new (pattern : Pattern) : MatchResult := { pattern, values := [] }

/-- `MatchResult::insert`, /repo/src/matcher/result.rs:20-24; the `ParseResult` is the pair of parser and value. -/
def MatchResult.insert (r : MatchResult) (parser : Parser) (value : Bytes) : MatchResult :=
  match parser.name with
  | some name => { r with values := r.values.insert name value }
  | none => r

end Verif
