import Verif.Model.Grammar
/-! Model of compiling a pattern string with a counter: how often the generated parser looks at the string, i.e. compares it with an expected text
(`slice_eq`), tests a character for a class, or takes a character (`any_char`).  The definitions follow `Model/Grammar` function by function.  Not
counted: the actions (`unescape_literal`, `flatten_vec`, `from_str`, the factory) and `pos_to_line`, each of which goes once over what it is given. -/
namespace Verif

/-- A generated parse function, with the number of looks. -/
abbrev RuleC (α : Type) := Bytes → PState → Nat → M (Option (Nat × α) × PState) × Nat

namespace RuleC

/-- One look: `slice_eq`, `any_char` or a character class, /repo/src/grammar/parser/pattern_parser.rs:55-64, 83-92, 887-895 -/
def look {α : Type} (r : Rule α) : RuleC α := fun input state pos => (r input state pos, 1)

/-- `Matched(pos, value)` at the end of a sequence, e.g. /repo/src/grammar/parser/pattern_parser.rs:237-240 -/
def done {α : Type} (v : α) : RuleC α := fun _ state pos => (.ok (some (pos, v), state), 0)

/-- The template for a sequence, as `Rule.seq`, e.g. /repo/src/grammar/parser/pattern_parser.rs:222-251 -/
def seq {α β : Type} (r : RuleC α) (k : α → RuleC β) : RuleC β := fun input state pos =>
  match r input state pos with
  | (.error e, n) => (.error e, n)
  | (.ok (none, state), n) => (.ok (none, state), n)
  | (.ok (some (pos, v), state), n) => ((k v input state pos).1, n + (k v input state pos).2)

/-- The template for an action, as `Rule.action`, e.g. /repo/src/grammar/parser/pattern_parser.rs:197-213 -/
def action {α β : Type} (r : RuleC α) (f : Bytes → α → M β) : RuleC β := fun input state startPos =>
  match r input state startPos with
  | (.error e, n) => (.error e, n)
  | (.ok (none, state), n) => (.ok (none, state), n)
  | (.ok (some (pos, v), state), n) =>
    match slice input startPos pos with
    | .error e => (.error e, n)
    | .ok matchStr =>
      match f matchStr v with
      | .error e => (.error e, n)
      | .ok u => (.ok (some (pos, u), state), n)

/-- The template for `a / b`, as `Rule.orElse`, e.g. /repo/src/grammar/parser/pattern_parser.rs:258-262 -/
def orElse {α : Type} (a b : RuleC α) : RuleC α := fun input state pos =>
  match a input state pos with
  | (.error e, n) => (.error e, n)
  | (.ok (some x, state), n) => (.ok (some x, state), n)
  | (.ok (none, state), n) => ((b input state pos).1, n + (b input state pos).2)

/-- The template for `r?`, as `Rule.opt`, e.g. /repo/src/grammar/parser/pattern_parser.rs:437-446 -/
def opt {α : Type} (r : RuleC α) : RuleC (Option α) := fun input state pos =>
  match r input state pos with
  | (.error e, n) => (.error e, n)
  | (.ok (some (newpos, v), state), n) => (.ok (some (newpos, some v), state), n)
  | (.ok (none, state), n) => (.ok (some (pos, none), state), n)

/-- The template for `!r`, as `Rule.notP`, e.g. /repo/src/grammar/parser/pattern_parser.rs:1020-1026 -/
def notP {α : Type} (r : RuleC α) : RuleC Unit := fun input state pos =>
  match r input state pos with
  | (.error e, n) => (.error e, n)
  | (.ok (some _, state), n) => (.ok (none, state), n)
  | (.ok (none, state), n) => (.ok (some (pos, ()), state), n)

/-- The template of the repetition loops, as `Rule.loop`, e.g. /repo/src/grammar/parser/pattern_parser.rs:138-152 -/
def loop {α : Type} (step : RuleC α) (input : Bytes) (state : PState) (pos : Nat) : M (Nat × List α × PState) × Nat :=
  match step input state pos with
  | (.error e, n) => (.error e, n)
  | (.ok (none, state), n) => (.ok (pos, [], state), n)
  | (.ok (some (newpos, v), state), n) =>
    if pos < newpos ∧ newpos ≤ input.length then
      match loop step input state newpos with
      | (.error e, m) => (.error e, n + m)
      | (.ok (p, vs, state), m) => (.ok (p, v :: vs, state), n + m)
    else (.error .diverge, n)
termination_by input.length - pos

/-- The template for `r*`, as `Rule.star`, e.g. /repo/src/grammar/parser/pattern_parser.rs:1129-1143 -/
def star {α : Type} (step : RuleC α) : RuleC (List α) := fun input state pos =>
  match step.loop input state pos with
  | (.error e, n) => (.error e, n)
  | (.ok (p, vs, state), n) => (.ok (some (p, vs), state), n)

/-- The template for `r+`, as `Rule.plus`, e.g. /repo/src/grammar/parser/pattern_parser.rs:136-158 -/
def plus {α : Type} (step : RuleC α) : RuleC (List α) := fun input state pos =>
  match step.loop input state pos with
  | (.error e, n) => (.error e, n)
  | (.ok (p, vs, state), n) => if vs.length ≥ 1 then (.ok (some (p, vs), state), n) else (.ok (none, state), n)

/-- The template for `r ** sep`, as `Rule.sepBy`, /repo/src/grammar/parser/pattern_parser.rs:376-405 and 491-520 -/
def sepBy {α β : Type} (step : RuleC α) (sep : RuleC β) : RuleC (List α) := fun input state pos =>
  match step input state pos with
  | (.error e, n) => (.error e, n)
  | (.ok (none, state), n) => (.ok (some (pos, []), state), n)
  | (.ok (some (newpos, v), state), n) =>
    match (sep.seq fun _ => step).loop input state newpos with
    | (.error e, m) => (.error e, n + m)
    | (.ok (p, vs, state), m) => (.ok (some (p, v :: vs), state), n + m)

/-! ### The generated functions -/

/-- `slice_eq` with its look -/
def text (m : Bytes) : RuleC Unit := look (sliceEq m)
/-- a rule whose value is the matched text, e.g. `parse_MIN_LEN`, /repo/src/grammar/parser/pattern_parser.rs:716-737 -/
def word (m : Bytes) : RuleC Bytes := (text m).action fun matchStr _ => .ok matchStr

/-- `parse_identifier`, /repo/src/grammar/parser/pattern_parser.rs:880-967 -/
def identifier : RuleC Bytes :=
  ((look (charClass isIdentStart b!"[a-zA-Z_.]")).seq fun _ =>
    ((look (charClass isIdentChar b!"[a-z-A-Z0-9_.]")).seq fun _ => (look (charClass (· = 45) b!"[-]")).notP).star).action fun matchStr _ => .ok matchStr

/-- `parse_parser_name`, /repo/src/grammar/parser/pattern_parser.rs:850-879 -/
def parserName : RuleC Bytes := ((text b!":").seq fun _ => identifier).action fun _ name => .ok name

/-- `parse_literal`, /repo/src/grammar/parser/pattern_parser.rs:1006-1062 -/
def literal : RuleC Bytes := ((text b!"%{").notP.seq fun _ => look anyChar).plus.action fun matchStr _ => .ok matchStr

/-- `parse_all_chars_until_quotation_mark`, /repo/src/grammar/parser/pattern_parser.rs:1063-1119 -/
def quoted : RuleC Bytes := ((text b!"\"").notP.seq fun _ => look anyChar).plus.action fun matchStr _ => .ok matchStr

/-- `parse_string`, /repo/src/grammar/parser/pattern_parser.rs:968-1005 -/
def string : RuleC Bytes := ((text b!"\"").seq fun _ => quoted.seq fun s => (text b!"\"").seq fun _ => done s).action fun _ s => .ok s

/-- `parse_comma`, /repo/src/grammar/parser/pattern_parser.rs:1120-1148 -/
def comma : RuleC (List Unit) := (text b!",").seq fun _ => (text b!" ").star

/-- `parse_int`, /repo/src/grammar/parser/pattern_parser.rs:1149-1199 -/
def int : RuleC Nat := (look (charClass isDigit b!"[0-9]")).plus.action fun matchStr _ => unwrap (usizeFromStr matchStr)

/-- one alternative of `parse_parser_BASE_optional_param`, /repo/src/grammar/parser/pattern_parser.rs:644-676 and 680-712 -/
def lengthParam (key : Bytes) : RuleC OptionalParameter :=
  ((word key).seq fun name => (text b!"=").seq fun _ => int.seq fun value => done (name, value)).action fun _ p => .ok (OptionalParameter.mk p.1 p.2)

/-- `parse_parser_BASE_optional_param`, /repo/src/grammar/parser/pattern_parser.rs:639-715 -/
def baseOptionalParam : RuleC OptionalParameter := (lengthParam b!"min_len").orElse (lengthParam b!"max_len")

/-- `parse_parser_SET_optional_params`, /repo/src/grammar/parser/pattern_parser.rs:365-425 -/
def setOptionalParams : RuleC (List OptionalParameter) := (comma.seq fun _ => baseOptionalParam.sepBy comma).action fun _ params => .ok params

/-- `parse_parser_SET`, /repo/src/grammar/parser/pattern_parser.rs:265-364 -/
def parserSet : RuleC Parser :=
  ((word b!"SET").seq fun _ => (text b!"(").seq fun _ => string.seq fun set => setOptionalParams.opt.seq fun params =>
    (text b!")").seq fun _ => parserName.opt.seq fun name => done (set, params, name)).action fun _ p => .ok (newSet p.1 p.2.2 p.2.1)

/-- `parse_parser_INT_optional_params`, /repo/src/grammar/parser/pattern_parser.rs:480-548 -/
def intOptionalParams : RuleC (List OptionalParameter) :=
  ((text b!"(").seq fun _ => (baseOptionalParam.sepBy comma).seq fun params => (text b!")").seq fun _ => done params).action fun _ params => .ok params

/-- `parse_parser_INT`, /repo/src/grammar/parser/pattern_parser.rs:426-479 -/
def parserInt : RuleC Parser :=
  ((word b!"INT").seq fun _ => intOptionalParams.opt.seq fun params => parserName.opt.seq fun name => done (params, name)).action
    fun _ p => .ok (newInt p.2 p.1)

/-- `parse_piece_parser` with `parse_parser`, /repo/src/grammar/parser/pattern_parser.rs:215-264 -/
def pieceParser : RuleC (List Token) :=
  ((text b!"%{").seq fun _ => (parserSet.orElse parserInt).seq fun p => (text b!"}").seq fun _ => done p).action fun _ p => .ok [.parser p]

/-- `parse_piece_literal`, /repo/src/grammar/parser/pattern_parser.rs:192-214 -/
def pieceLiteral : RuleC (List Token) := literal.action fun _ l => .ok [.literal (unescapeLiteral l)]

/-- `parse_parser_GREEDY`, /repo/src/grammar/parser/pattern_parser.rs:549-638 -/
def parserGreedy : RuleC (List Token) :=
  ((text b!"%{").seq fun _ => (word b!"GREEDY").seq fun _ => parserName.opt.seq fun name => (text b!"}").seq fun _ =>
    literal.opt.seq fun endString => done (name, endString)).action fun _ p => .ok (greedyTokens p.1 p.2)

/-- `parse_pattern_piece`, /repo/src/grammar/parser/pattern_parser.rs:174-191 -/
def patternPiece : RuleC (List Token) := parserGreedy.orElse (pieceLiteral.orElse pieceParser)

/-- `parse_pattern`, /repo/src/grammar/parser/pattern_parser.rs:130-173 -/
def pattern : RuleC (List Token) := patternPiece.plus.action fun _ pieces => .ok (flattenVec pieces)

end RuleC

/-- `pattern`, /repo/src/grammar/parser/pattern_parser.rs:1200-1214, with the number of looks. -/
def compileC (input : Bytes) : M (Except ParseError CompiledPattern) × Nat :=
  match RuleC.pattern input .new 0 with
  | (.error e, n) => (.error e, n)
  | (.ok (r, state), n) =>
    let err : ParseError :=
      { line := (posToLine input state.maxErrPos).1, column := (posToLine input state.maxErrPos).2, offset := state.maxErrPos,
        expected := state.expected }
    match r with
    | some (pos, value) => if pos = input.length then (.ok (.ok value), n) else (.ok (.error err), n)
    | none => (.ok (.error err), n)

end Verif
