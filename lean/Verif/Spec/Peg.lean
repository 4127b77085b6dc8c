import Verif.Model.Grammar
import Verif.Spec.Strings
/-! The grammar file /repo/src/grammar/parser/pattern.rustpeg as a parsing expression grammar on characters, with the usual meaning of parsing
expressions: an ordered choice tries its alternatives from left to right, a repetition goes on as long as it can and is never taken back.  There
are no positions, error records or byte slices here; an expression relates the characters in front of it to an outcome. -/
namespace Verif.Spec

/-- The outcome of an expression: it matches, with a value, and leaves the rest; it fails; or an action panics. -/
inductive Outcome (α : Type) where
  | matched (v : α) (rest : List Char)
  | failed
  | panicked

/-- A parsing expression with values in `α`. -/
abbrev Peg (α : Type) := List Char → Outcome α → Prop

/-- `"text"` -/
inductive Peg.text (s : List Char) : Peg Unit
  | yes (t : List Char) : Peg.text s (s ++ t) (.matched () t)
  | no (cs : List Char) : ¬ s <+: cs → Peg.text s cs .failed

/-- `[a-z...]`: one character from one of the ranges -/
inductive Peg.oneOf (ranges : List (Char × Char)) : Peg Unit
  | yes (c : Char) (t : List Char) (r : Char × Char) : r ∈ ranges → r.1 ≤ c → c ≤ r.2 → Peg.oneOf ranges (c :: t) (.matched () t)
  | no (c : Char) (t : List Char) : (∀ r ∈ ranges, ¬ (r.1 ≤ c ∧ c ≤ r.2)) → Peg.oneOf ranges (c :: t) .failed
  | atEnd : Peg.oneOf ranges [] .failed

/-- `.`: any character -/
inductive Peg.any : Peg Unit
  | yes (c : Char) (t : List Char) : Peg.any (c :: t) (.matched () t)
  | no : Peg.any [] .failed

/-- the end of a sequence, with its value -/
inductive Peg.done {α : Type} (v : α) : Peg α
  | mk (cs : List Char) : Peg.done v cs (.matched v cs)

/-- `x:a b`: first `a`, then `b` -/
inductive Peg.seq {α β : Type} (a : Peg α) (b : α → Peg β) : Peg β
  | both (x : α) (cs t : List Char) (o : Outcome β) : a cs (.matched x t) → b x t o → Peg.seq a b cs o
  | failed (cs : List Char) : a cs .failed → Peg.seq a b cs .failed
  | panicked (cs : List Char) : a cs .panicked → Peg.seq a b cs .panicked

/-- `a / b`: `b` only if `a` fails -/
inductive Peg.alt {α : Type} (a b : Peg α) : Peg α
  | first (cs : List Char) (o : Outcome α) : a cs o → o ≠ .failed → Peg.alt a b cs o
  | second (cs : List Char) (o : Outcome α) : a cs .failed → b cs o → Peg.alt a b cs o

/-- `a?` -/
inductive Peg.opt {α : Type} (a : Peg α) : Peg (Option α)
  | present (x : α) (cs t : List Char) : a cs (.matched x t) → Peg.opt a cs (.matched (some x) t)
  | absent (cs : List Char) : a cs .failed → Peg.opt a cs (.matched none cs)
  | panicked (cs : List Char) : a cs .panicked → Peg.opt a cs .panicked

/-- `!a` -/
inductive Peg.not {α : Type} (a : Peg α) : Peg Unit
  | absent (cs : List Char) : a cs .failed → Peg.not a cs (.matched () cs)
  | present (x : α) (cs t : List Char) : a cs (.matched x t) → Peg.not a cs .failed
  | panicked (cs : List Char) : a cs .panicked → Peg.not a cs .panicked

/-- `a*` -/
inductive Peg.star {α : Type} (a : Peg α) : Peg (List α)
  | stop (cs : List Char) : a cs .failed → Peg.star a cs (.matched [] cs)
  | more (x : α) (xs : List α) (cs t u : List Char) : a cs (.matched x t) → Peg.star a t (.matched xs u) → Peg.star a cs (.matched (x :: xs) u)
  | panicked (cs : List Char) : a cs .panicked → Peg.star a cs .panicked
  | morePanicked (x : α) (cs t : List Char) : a cs (.matched x t) → Peg.star a t .panicked → Peg.star a cs .panicked

/-- `a+` is `a a*` -/
def Peg.plus {α : Type} (a : Peg α) : Peg (List α) := Peg.seq a fun x => Peg.seq (Peg.star a) fun xs => Peg.done (x :: xs)

/-- `a ** sep` is `(a (sep a)*)?` -/
def Peg.sepBy {α β : Type} (a : Peg α) (sep : Peg β) : Peg (List α) :=
  Peg.seq (Peg.opt (Peg.seq a fun x => Peg.seq (Peg.star (Peg.seq sep fun _ => a)) fun xs => Peg.done (x :: xs))) fun o => Peg.done (o.getD [])

/-- `a { action }`: the action has the value of `a` and the matched text (`match_str`); `none` stands for a panic -/
inductive Peg.act {α β : Type} (a : Peg α) (f : Bytes → α → Option β) : Peg β
  | matched (x : α) (y : β) (m t : List Char) : a (m ++ t) (.matched x t) → f (encode m) x = some y → Peg.act a f (m ++ t) (.matched y t)
  | bad (x : α) (m t : List Char) : a (m ++ t) (.matched x t) → f (encode m) x = none → Peg.act a f (m ++ t) .panicked
  | failed (cs : List Char) : a cs .failed → Peg.act a f cs .failed
  | panicked (cs : List Char) : a cs .panicked → Peg.act a f cs .panicked

/-! ### /repo/src/grammar/parser/pattern.rustpeg, from the last line to the first -/
namespace RustPeg

/-- lines 104-105 -/
def int : Peg Nat := (Peg.plus (.oneOf [('0', '9')])).act fun matchStr _ => usizeFromStr matchStr
/-- line 102 -/
def comma : Peg (List Unit) := .seq (.text [',']) fun _ => .star (.text [' '])
/-- lines 99-100 -/
def all_chars_until_quotation_mark : Peg Bytes := (Peg.plus (.seq (.not (.text ['"'])) fun _ => .any)).act fun matchStr _ => some matchStr
/-- line 83 -/
def PARSER_BEGIN : Peg Unit := .text ['%', '{']
/-- line 84 -/
def PARSER_END : Peg Unit := .text ['}']
/-- line 85 -/
def PARSER_PARAMS_BEGIN : Peg Unit := .text ['(']
/-- line 86 -/
def PARSER_PARAMS_END : Peg Unit := .text [')']
/-- lines 96-97 -/
def literal : Peg Bytes := (Peg.plus (.seq (.not PARSER_BEGIN) fun _ => .any)).act fun matchStr _ => some matchStr
/-- lines 93-94 -/
def string : Peg Bytes :=
  (Peg.seq (.text ['"']) fun _ => .seq all_chars_until_quotation_mark fun s => .seq (.text ['"']) fun _ => .done s).act fun _ s => some s
/-- lines 90-91, `[a-zA-Z_.]([a-z-A-Z0-9_.]![-])*` -/
def identifier : Peg Bytes :=
  (Peg.seq (.oneOf [('a', 'z'), ('A', 'Z'), ('_', '_'), ('.', '.')]) fun _ =>
    .star (.seq (.oneOf [('a', 'z'), ('-', '-'), ('A', 'Z'), ('0', '9'), ('_', '_'), ('.', '.')]) fun _ => .not (.oneOf [('-', '-')]))).act
    fun matchStr _ => some matchStr
/-- lines 87-88 -/
def parser_name : Peg Bytes := (Peg.seq (.text [':']) fun _ => identifier).act fun _ name => some name
/-- lines 80-81 -/
def GREEDY : Peg Bytes := (Peg.text ['G', 'R', 'E', 'E', 'D', 'Y']).act fun matchStr _ => some matchStr
/-- lines 77-78 -/
def SET : Peg Bytes := (Peg.text ['S', 'E', 'T']).act fun matchStr _ => some matchStr
/-- lines 74-75 -/
def INT : Peg Bytes := (Peg.text ['I', 'N', 'T']).act fun matchStr _ => some matchStr
/-- lines 71-72 -/
def MAX_LEN : Peg Bytes := (Peg.text ['m', 'a', 'x', '_', 'l', 'e', 'n']).act fun matchStr _ => some matchStr
/-- lines 68-69 -/
def MIN_LEN : Peg Bytes := (Peg.text ['m', 'i', 'n', '_', 'l', 'e', 'n']).act fun matchStr _ => some matchStr
/-- lines 64-66 -/
def parser_BASE_optional_param : Peg OptionalParameter :=
  .alt ((Peg.seq MIN_LEN fun name => .seq (.text ['=']) fun _ => .seq int fun value => .done (name, value)).act fun _ p => some ⟨p.1, p.2⟩)
    ((Peg.seq MAX_LEN fun name => .seq (.text ['=']) fun _ => .seq int fun value => .done (name, value)).act fun _ p => some ⟨p.1, p.2⟩)
/-- lines 52-62; the action pushes the parser and, if there is an end string, a literal -/
def parser_GREEDY : Peg (List Token) :=
  (Peg.seq PARSER_BEGIN fun _ => .seq GREEDY fun _ => .seq (.opt parser_name) fun name => .seq PARSER_END fun _ => .seq (.opt literal) fun e =>
    .done (name, e)).act fun _ p => some (.parser (newGreedy p.1 p.2) :: (p.2.map Token.literal).toList)
/-- lines 49-50 -/
def parser_INT_optional_params : Peg (List OptionalParameter) :=
  (Peg.seq PARSER_PARAMS_BEGIN fun _ => .seq (.sepBy parser_BASE_optional_param comma) fun params => .seq PARSER_PARAMS_END fun _ =>
    .done params).act fun _ params => some params
/-- lines 44-47 -/
def parser_INT : Peg Parser :=
  (Peg.seq INT fun _ => .seq (.opt parser_INT_optional_params) fun params => .seq (.opt parser_name) fun name => .done (params, name)).act
    fun _ p => some (newInt p.2 p.1)
/-- lines 41-42 -/
def parser_SET_optional_params : Peg (List OptionalParameter) :=
  (Peg.seq comma fun _ => .sepBy parser_BASE_optional_param comma).act fun _ params => some params
/-- lines 36-39 -/
def parser_SET : Peg Parser :=
  (Peg.seq SET fun _ => .seq PARSER_PARAMS_BEGIN fun _ => .seq string fun set => .seq (.opt parser_SET_optional_params) fun params =>
    .seq PARSER_PARAMS_END fun _ => .seq (.opt parser_name) fun name => .done (set, params, name)).act fun _ p => some (newSet p.1 p.2.2 p.2.1)
/-- lines 32-34 -/
def parser : Peg Parser := .alt parser_SET parser_INT
/-- lines 27-30 -/
def piece_parser : Peg (List Token) :=
  (Peg.seq PARSER_BEGIN fun _ => .seq parser fun p => .seq PARSER_END fun _ => .done p).act fun _ p => some [.parser p]
/-- lines 21-25 -/
def piece_literal : Peg (List Token) := literal.act fun _ l => some [.literal (unescapeLiteral l)]
/-- lines 16-19 -/
def pattern_piece : Peg (List Token) := .alt parser_GREEDY (.alt piece_literal piece_parser)
/-- lines 9-14 -/
def pattern : Peg (List Token) := (Peg.plus pattern_piece).act fun _ pieces => some (pieces.flatten)

end RustPeg
end Verif.Spec
