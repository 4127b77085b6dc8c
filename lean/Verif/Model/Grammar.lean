import Verif.Model.Pattern
/-! Model of the pattern grammar: /repo/src/grammar/mod.rs, /repo/src/grammar/parser/mod.rs, /repo/src/grammar/parser/pattern_parser.rs (the
parser that rust-peg generated from /repo/src/grammar/parser/pattern.rustpeg), /repo/src/matcher/trie/parser_factory.rs.

The generated code consists of a few templates, instantiated again and again.  Each template is one combinator below; each generated function
is one definition composed of them. -/
namespace Verif

/-- `unescape_literal`, /repo/src/grammar/mod.rs:5-7 -/
def unescapeLiteral (literal : Bytes) : Bytes := strReplace literal b!"\\%\\{" b!"%{"

/-- `flatten_vec`, /repo/src/utils/mod.rs:8-16 -/
def flattenVec {α : Type} (vectors : List (List α)) : List α := vectors.foldl (fun flat v => v.foldl (fun flat i => flat ++ [i]) flat) []

/-! ### `ParserFactory` -/

/-- `OptionalParameter`, /repo/src/parsers/mod.rs (`Int(&'a str, usize)`) -/
structure OptionalParameter where
  key : Bytes
  value : Nat
  deriving DecidableEq, Repr

/-- `set_optinal_param!`, /repo/src/matcher/trie/parser_factory.rs:4-19.  For an `IntParser` the setters write to its delegate,
/repo/src/parsers/int.rs:45-58, so one definition on `SetParser` covers both uses. -/
def setOptionalParam (p : SetParser) (param : OptionalParameter) : SetParser :=
  if param.key = b!"min_len" then { p with minLength := some param.value }
  else if param.key = b!"max_len" then { p with maxLength := some param.value }
  else p

/-- `set_optional_params!`, /repo/src/matcher/trie/parser_factory.rs:21-29 -/
def setOptionalParams (p : SetParser) (params : Option (List OptionalParameter)) : SetParser :=
  match params with
  | none => p
  | some ps => ps.foldl setOptionalParam p

/-- `TrieParserFactory::new_set`, /repo/src/matcher/trie/parser_factory.rs:34-43 -/
def newSet (set : Bytes) (name : Option Bytes) (params : Option (List OptionalParameter)) : Parser :=
  (Parser.set (setOptionalParams (SetParser.new none set) params)).setName name

/-- `TrieParserFactory::new_int`, /repo/src/matcher/trie/parser_factory.rs:44-52 -/
def newInt (name : Option Bytes) (params : Option (List OptionalParameter)) : Parser :=
  (Parser.int (setOptionalParams (intDelegate none) params)).setName name

/-- `TrieParserFactory::new_greedy`, /repo/src/matcher/trie/parser_factory.rs:53-60 -/
def newGreedy (name : Option Bytes) (endString : Option Bytes) : Parser :=
  (Parser.greedy { name := none, endString }).setName name

/-! ### Templates of the generated parser -/

/-- `ParseState`, /repo/src/grammar/parser/pattern_parser.rs:106-118; the `HashSet` is a list without repetitions in insertion order. -/
structure PState where
  maxErrPos : Nat
  expected : List Bytes
  deriving DecidableEq, Repr

/-- `ParseState::new`, /repo/src/grammar/parser/pattern_parser.rs:112-118 -/
def PState.new : PState := { maxErrPos := 0, expected := [] }

/-- `ParseState::mark_failure` (its state change; the result is always `Failed`), /repo/src/grammar/parser/pattern_parser.rs:119-128 -/
def PState.markFailure (s : PState) (pos : Nat) (expected : Bytes) : PState :=
  let s := if pos > s.maxErrPos then { maxErrPos := pos, expected := [] } else s
  if pos = s.maxErrPos then
    if s.expected.contains expected then s else { s with expected := s.expected ++ [expected] }
  else s

/-- A generated parse function: `input`, `state`, `pos` to the new state and the `RuleResult`
(/repo/src/grammar/parser/pattern_parser.rs:18-22): `some (pos, value)` is `Matched`, `none` is `Failed`. -/
abbrev Rule (α : Type) := Bytes → PState → Nat → M (Option (Nat × α) × PState)

/-- `slice_eq`, /repo/src/grammar/parser/pattern_parser.rs:55-64 -/
def sliceEq (m : Bytes) : Rule Unit := fun input state pos =>
  if input.length ≥ pos + m.length ∧ (input.drop pos).take m.length = m then .ok (some (pos + m.length, ()), state)
  else .ok (none, state.markFailure pos m)

/-- `char::len_utf8` of the character with the given first byte -/
def charLen (b : UInt8) : Nat :=
  if b.toNat < 128 then 1 else if b.toNat < 224 then 2 else if b.toNat < 240 then 3 else 4

/-- `char_range_at`, /repo/src/grammar/parser/pattern_parser.rs:12-16.  The character is represented by its first byte: the code only
compares it with ASCII characters, and an ASCII character is its only byte. -/
def charRangeAt (s : Bytes) (pos : Nat) : M (UInt8 × Nat) :=
  match sliceFrom s pos with
  | .error e => .error e
  | .ok [] => .error .unwrap
  | .ok (c :: _) => .ok (c, pos + charLen c)

/-- `any_char`, /repo/src/grammar/parser/pattern_parser.rs:83-92 -/
def anyChar : Rule Unit := fun input state pos =>
  if input.length > pos then
    match charRangeAt input pos with
    | .error e => .error e
    | .ok (_, next) => .ok (some (next, ()), state)
  else .ok (none, state.markFailure pos b!"<character>")

/-- The template for a character class, e.g. /repo/src/grammar/parser/pattern_parser.rs:887-895 -/
def charClass (cls : UInt8 → Bool) (name : Bytes) : Rule Unit := fun input state pos =>
  if input.length > pos then
    match charRangeAt input pos with
    | .error e => .error e
    | .ok (ch, next) => if cls ch then .ok (some (next, ()), state) else .ok (none, state.markFailure pos name)
  else .ok (none, state.markFailure pos name)

/-- The template for a sequence: `match first { Matched(pos, value) => rest, Failed => Failed }`, e.g.
/repo/src/grammar/parser/pattern_parser.rs:222-251 -/
def Rule.seq {α β : Type} (r : Rule α) (k : α → Rule β) : Rule β := fun input state pos =>
  match r input state pos with
  | .error e => .error e
  | .ok (none, state) => .ok (none, state)
  | .ok (some (pos, v), state) => k v input state pos

/-- The template for an action: `{ let start_pos = pos; ..; let match_str = &input[start_pos..pos]; Matched(pos, { action }) }`, e.g.
/repo/src/grammar/parser/pattern_parser.rs:197-213; the action may panic. -/
def Rule.action {α β : Type} (r : Rule α) (f : Bytes → α → M β) : Rule β := fun input state startPos =>
  match r input state startPos with
  | .error e => .error e
  | .ok (none, state) => .ok (none, state)
  | .ok (some (pos, v), state) =>
    match slice input startPos pos with
    | .error e => .error e
    | .ok matchStr =>
      match f matchStr v with
      | .error e => .error e
      | .ok u => .ok (some (pos, u), state)

/-- The template for `a / b`, e.g. /repo/src/grammar/parser/pattern_parser.rs:258-262 -/
def Rule.orElse {α : Type} (a b : Rule α) : Rule α := fun input state pos =>
  match a input state pos with
  | .error e => .error e
  | .ok (some x, state) => .ok (some x, state)
  | .ok (none, state) => b input state pos

/-- The template for `r?`, e.g. /repo/src/grammar/parser/pattern_parser.rs:437-446 -/
def Rule.opt {α : Type} (r : Rule α) : Rule (Option α) := fun input state pos =>
  match r input state pos with
  | .error e => .error e
  | .ok (some (newpos, v), state) => .ok (some (newpos, some v), state)
  | .ok (none, state) => .ok (some (pos, none), state)

/-- The template for `!r`, e.g. /repo/src/grammar/parser/pattern_parser.rs:1020-1026 -/
def Rule.notP {α : Type} (r : Rule α) : Rule Unit := fun input state pos =>
  match r input state pos with
  | .error e => .error e
  | .ok (some _, state) => .ok (none, state)
  | .ok (none, state) => .ok (some (pos, ()), state)

/-- The template of the repetition loops: `loop { match step { Matched(newpos, value) => { repeat_pos = newpos; repeat_value.push(value) }
Failed => break } }`, e.g. /repo/src/grammar/parser/pattern_parser.rs:138-152.  A step that matched without advancing would repeat for ever: the
model then stops with `diverge`. -/
def Rule.loop {α : Type} (step : Rule α) (input : Bytes) (state : PState) (pos : Nat) : M (Nat × List α × PState) :=
  match step input state pos with
  | .error e => .error e
  | .ok (none, state) => .ok (pos, [], state)
  | .ok (some (newpos, v), state) =>
    if pos < newpos ∧ newpos ≤ input.length then
      match Rule.loop step input state newpos with
      | .error e => .error e
      | .ok (p, vs, state) => .ok (p, v :: vs, state)
    else .error .diverge
termination_by input.length - pos

/-- The template for `r*`, e.g. /repo/src/grammar/parser/pattern_parser.rs:1129-1143 -/
def Rule.star {α : Type} (step : Rule α) : Rule (List α) := fun input state pos =>
  match step.loop input state pos with
  | .error e => .error e
  | .ok (p, vs, state) => .ok (some (p, vs), state)

/-- The template for `r+`, e.g. /repo/src/grammar/parser/pattern_parser.rs:136-158 -/
def Rule.plus {α : Type} (step : Rule α) : Rule (List α) := fun input state pos =>
  match step.loop input state pos with
  | .error e => .error e
  | .ok (p, vs, state) => if vs.length ≥ 1 then .ok (some (p, vs), state) else .ok (none, state)

/-- The template for `r ** sep`, /repo/src/grammar/parser/pattern_parser.rs:376-405 and 491-520.  The loop skips the separator in its first
iteration; the model has the first iteration unrolled. -/
def Rule.sepBy {α β : Type} (step : Rule α) (sep : Rule β) : Rule (List α) := fun input state pos =>
  match step input state pos with
  | .error e => .error e
  | .ok (none, state) => .ok (some (pos, []), state)
  | .ok (some (newpos, v), state) =>
    match (sep.seq fun _ => step).loop input state newpos with
    | .error e => .error e
    | .ok (p, vs, state) => .ok (some (p, v :: vs), state)

/-! ### The generated functions -/

/-- `'a'...'z' | 'A'...'Z' | '_' | '.'`, /repo/src/grammar/parser/pattern_parser.rs:890 -/
def isIdentStart (c : UInt8) : Bool :=
  (97 ≤ c.toNat && c.toNat ≤ 122) || (65 ≤ c.toNat && c.toNat ≤ 90) || c = 95 || c = 46

/-- `'0'...'9'`, /repo/src/grammar/parser/pattern_parser.rs:1164 -/
def isDigit (c : UInt8) : Bool := 48 ≤ c.toNat && c.toNat ≤ 57

/-- `'a'...'z' | '-' | 'A'...'Z' | '0'...'9' | '_' | '.'`, /repo/src/grammar/parser/pattern_parser.rs:908-913 -/
def isIdentChar (c : UInt8) : Bool := isIdentStart c || c = 45 || isDigit c

/-- `parse_MIN_LEN`, /repo/src/grammar/parser/pattern_parser.rs:716-737 -/
def parseMinLen : Rule Bytes := (sliceEq b!"min_len").action fun matchStr _ => .ok matchStr
/-- `parse_MAX_LEN`, /repo/src/grammar/parser/pattern_parser.rs:738-759 -/
def parseMaxLen : Rule Bytes := (sliceEq b!"max_len").action fun matchStr _ => .ok matchStr
/-- `parse_INT`, /repo/src/grammar/parser/pattern_parser.rs:760-781 -/
def parseINT : Rule Bytes := (sliceEq b!"INT").action fun matchStr _ => .ok matchStr
/-- `parse_SET`, /repo/src/grammar/parser/pattern_parser.rs:782-803 -/
def parseSET : Rule Bytes := (sliceEq b!"SET").action fun matchStr _ => .ok matchStr
/-- `parse_GREEDY`, /repo/src/grammar/parser/pattern_parser.rs:804-825 -/
def parseGREEDY : Rule Bytes := (sliceEq b!"GREEDY").action fun matchStr _ => .ok matchStr
/-- `parse_PARSER_BEGIN`, /repo/src/grammar/parser/pattern_parser.rs:826-831 -/
def parseParserBegin : Rule Unit := sliceEq b!"%{"
/-- `parse_PARSER_END`, /repo/src/grammar/parser/pattern_parser.rs:832-837 -/
def parseParserEnd : Rule Unit := sliceEq b!"}"
/-- `parse_PARSER_PARAMS_BEGIN`, /repo/src/grammar/parser/pattern_parser.rs:838-843 -/
def parseParamsBegin : Rule Unit := sliceEq b!"("
/-- `parse_PARSER_PARAMS_END`, /repo/src/grammar/parser/pattern_parser.rs:844-849 -/
def parseParamsEnd : Rule Unit := sliceEq b!")"

/-- one iteration of the loop in `parse_identifier`, /repo/src/grammar/parser/pattern_parser.rs:903-936 -/
def identStep : Rule Unit :=
  (charClass isIdentChar b!"[a-z-A-Z0-9_.]").seq fun _ => (charClass (· = 45) b!"[-]").notP

/-- `parse_identifier`, /repo/src/grammar/parser/pattern_parser.rs:880-967 -/
def parseIdentifier : Rule Bytes :=
  ((charClass isIdentStart b!"[a-zA-Z_.]").seq fun _ => identStep.star).action fun matchStr _ => .ok matchStr

/-- `parse_parser_name`, /repo/src/grammar/parser/pattern_parser.rs:850-879 -/
def parseParserName : Rule Bytes :=
  ((sliceEq b!":").seq fun _ => parseIdentifier).action fun _ name => .ok name

/-- one iteration of the loop in `parse_literal`, /repo/src/grammar/parser/pattern_parser.rs:1018-1034 -/
def literalStep : Rule Unit := parseParserBegin.notP.seq fun _ => anyChar

/-- `parse_literal`, /repo/src/grammar/parser/pattern_parser.rs:1006-1062 -/
def parseLiteral : Rule Bytes := literalStep.plus.action fun matchStr _ => .ok matchStr

/-- one iteration of the loop in `parse_all_chars_until_quotation_mark`, /repo/src/grammar/parser/pattern_parser.rs:1075-1091 -/
def quotedStep : Rule Unit := (sliceEq b!"\"").notP.seq fun _ => anyChar

/-- `parse_all_chars_until_quotation_mark`, /repo/src/grammar/parser/pattern_parser.rs:1063-1119 -/
def parseQuoted : Rule Bytes := quotedStep.plus.action fun matchStr _ => .ok matchStr

/-- `parse_string`, /repo/src/grammar/parser/pattern_parser.rs:968-1005 -/
def parseString : Rule Bytes :=
  ((sliceEq b!"\"").seq fun _ => parseQuoted.seq fun s => (sliceEq b!"\"").seq fun _ => fun _ state pos => .ok (some (pos, s), state)).action
    fun _ s => .ok s

/-- `parse_comma`, /repo/src/grammar/parser/pattern_parser.rs:1120-1148 -/
def parseComma : Rule (List Unit) := (sliceEq b!",").seq fun _ => (sliceEq b!" ").star

/-- The value of a string of decimal digits. -/
def digitsValue (s : Bytes) : Nat := s.foldl (fun n c => n * 10 + (c.toNat - 48)) 0

/-- `usize::from_str` (64 bit) on a non-empty string of digits, which is the only way it is called: `None` (an `Err` in the code) on overflow. -/
def usizeFromStr (s : Bytes) : Option Nat := if digitsValue s < 2 ^ 64 then some (digitsValue s) else none

/-- `parse_int`, /repo/src/grammar/parser/pattern_parser.rs:1149-1199: the `unwrap` panics on overflow. -/
def parseInt : Rule Nat :=
  (charClass isDigit b!"[0-9]").plus.action fun matchStr _ => unwrap (usizeFromStr matchStr)

/-- `parse_parser_BASE_optional_param`, /repo/src/grammar/parser/pattern_parser.rs:639-715 -/
def parseBaseOptionalParam : Rule OptionalParameter :=
  ((parseMinLen.seq fun name => (sliceEq b!"=").seq fun _ => parseInt.seq fun value => fun _ state pos =>
      .ok (some (pos, (name, value)), state)).action fun _ p => .ok (OptionalParameter.mk p.1 p.2)).orElse
  ((parseMaxLen.seq fun name => (sliceEq b!"=").seq fun _ => parseInt.seq fun value => fun _ state pos =>
      .ok (some (pos, (name, value)), state)).action fun _ p => .ok (OptionalParameter.mk p.1 p.2))

/-- `parse_parser_SET_optional_params`, /repo/src/grammar/parser/pattern_parser.rs:365-425 -/
def parseSetOptionalParams : Rule (List OptionalParameter) :=
  (parseComma.seq fun _ => parseBaseOptionalParam.sepBy parseComma).action fun _ params => .ok params

/-- `parse_parser_SET`, /repo/src/grammar/parser/pattern_parser.rs:265-364 -/
def parseParserSet : Rule Parser :=
  (parseSET.seq fun _ => parseParamsBegin.seq fun _ => parseString.seq fun set => parseSetOptionalParams.opt.seq fun params =>
    parseParamsEnd.seq fun _ => parseParserName.opt.seq fun name => fun _ state pos => .ok (some (pos, (set, params, name)), state)).action
    fun _ p => .ok (newSet p.1 p.2.2 p.2.1)

/-- `parse_parser_INT_optional_params`, /repo/src/grammar/parser/pattern_parser.rs:480-548 -/
def parseIntOptionalParams : Rule (List OptionalParameter) :=
  (parseParamsBegin.seq fun _ => (parseBaseOptionalParam.sepBy parseComma).seq fun params => parseParamsEnd.seq fun _ => fun _ state pos =>
    .ok (some (pos, params), state)).action fun _ params => .ok params

/-- `parse_parser_INT`, /repo/src/grammar/parser/pattern_parser.rs:426-479 -/
def parseParserInt : Rule Parser :=
  (parseINT.seq fun _ => parseIntOptionalParams.opt.seq fun params => parseParserName.opt.seq fun name => fun _ state pos =>
    .ok (some (pos, (params, name)), state)).action fun _ p => .ok (newInt p.2 p.1)

/-- `parse_parser`, /repo/src/grammar/parser/pattern_parser.rs:253-264 -/
def parseParser : Rule Parser := parseParserSet.orElse parseParserInt

/-- `parse_piece_parser`, /repo/src/grammar/parser/pattern_parser.rs:215-252 -/
def parsePieceParser : Rule (List Token) :=
  (parseParserBegin.seq fun _ => parseParser.seq fun p => parseParserEnd.seq fun _ => fun _ state pos => .ok (some (pos, p), state)).action
    fun _ p => .ok [.parser p]

/-- `parse_piece_literal`, /repo/src/grammar/parser/pattern_parser.rs:192-214 -/
def parsePieceLiteral : Rule (List Token) :=
  parseLiteral.action fun _ literal => .ok [.literal (unescapeLiteral literal)]

/-- the action of `parse_parser_GREEDY`, /repo/src/grammar/parser/pattern_parser.rs:595-612 -/
def greedyTokens (name endString : Option Bytes) : List Token :=
  let tokens := [.parser (newGreedy name endString)]
  match endString with
  | some e => tokens ++ [.literal e]
  | none => tokens

/-- `parse_parser_GREEDY`, /repo/src/grammar/parser/pattern_parser.rs:549-638 -/
def parseParserGreedy : Rule (List Token) :=
  (parseParserBegin.seq fun _ => parseGREEDY.seq fun _ => parseParserName.opt.seq fun name => parseParserEnd.seq fun _ =>
    parseLiteral.opt.seq fun endString => fun _ state pos => .ok (some (pos, (name, endString)), state)).action
    fun _ p => .ok (greedyTokens p.1 p.2)

/-- `parse_pattern_piece`, /repo/src/grammar/parser/pattern_parser.rs:174-191 -/
def parsePatternPiece : Rule (List Token) := parseParserGreedy.orElse (parsePieceLiteral.orElse parsePieceParser)

/-- `parse_pattern`, /repo/src/grammar/parser/pattern_parser.rs:130-173 -/
def parsePattern : Rule (List Token) := parsePatternPiece.plus.action fun _ pieces => .ok (flattenVec pieces)

/-- `str::split_terminator('\n')` -/
def splitLines : Bytes → List Bytes
  | [] => []
  | c :: rest =>
    if c = 10 then [] :: splitLines rest
    else match splitLines rest with
      | [] => [[c]]
      | l :: ls => (c :: l) :: ls

/-- `str::lines` (std 1.4 and later): a carriage return before the line end does not belong to the line. -/
def strLines (s : Bytes) : List Bytes :=
  (splitLines s).map fun l => if l.getLast? = some 13 then l.dropLast else l

/-- the loop of `pos_to_line`, /repo/src/grammar/parser/pattern_parser.rs:96-104 -/
def posToLineLoop : List Bytes → Nat → Nat → Nat × Nat
  | [], remaining, lineno => (lineno, remaining + 1)
  | line :: rest, remaining, lineno =>
    if remaining < line.length + 1 then (lineno, remaining + 1)
    else posToLineLoop rest (remaining - (line.length + 1)) (lineno + 1)

/-- `pos_to_line`, /repo/src/grammar/parser/pattern_parser.rs:93-105 -/
def posToLine (input : Bytes) (pos : Nat) : Nat × Nat := posToLineLoop (strLines input) pos 1

/-- `ParseError`, /repo/src/grammar/parser/pattern_parser.rs:23-29 -/
structure ParseError where
  line : Nat
  column : Nat
  offset : Nat
  expected : List Bytes
  deriving DecidableEq, Repr

/-- `pattern`, /repo/src/grammar/parser/pattern_parser.rs:1200-1214, with the factory of /repo/src/grammar/parser/mod.rs:27-30. -/
def compile (input : Bytes) : M (Except ParseError CompiledPattern) :=
  match parsePattern input .new 0 with
  | .error e => .error e
  | .ok (r, state) =>
    let err : ParseError :=
      { line := (posToLine input state.maxErrPos).1, column := (posToLine input state.maxErrPos).2, offset := state.maxErrPos,
        expected := state.expected }
    match r with
    | some (pos, value) => if pos = input.length then .ok (.ok value) else .ok (.error err)
    | none => .ok (.error err)

end Verif
