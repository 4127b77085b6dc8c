import Verif.Model.Pattern
/-! Model of the calls on a `Pattern` that change it, /repo/src/matcher/pattern/pattern.rs. -/
namespace Verif

/-- `Pattern::new`, /repo/src/matcher/pattern/pattern.rs:25-40; the arguments in the order of the code -/
def Pattern.new (name : Option Bytes) (uuid : Nat) (pattern : CompiledPattern) (testMessages : Option (List TestMessage)) (values : Option BMap)
    (tags : Option (List Bytes)) : Pattern :=
  { uuid, name, pattern, values, tags, testMessages }

/-- `Pattern::set_pattern`, /repo/src/matcher/pattern/pattern.rs:70-72 -/
def Pattern.setPattern (p : Pattern) (c : CompiledPattern) : Pattern := { p with pattern := c }

/-- A call that may change a pattern. -/
inductive PatternCall where
  | setPattern (c : CompiledPattern)
  | popFirstToken
  | popTestMessage

/-- The value returned by a call. -/
inductive PatternReply where
  | unit
  | token (t : Option Token)
  | message (m : Option TestMessage)
  deriving DecidableEq

/-- One call: its value and the pattern after it (`&mut self`).  /repo/src/matcher/pattern/pattern.rs:70-84 -/
def Pattern.call (p : Pattern) : PatternCall → PatternReply × Pattern
  | .setPattern c => (.unit, p.setPattern c)
  | .popFirstToken =>
    match p.popFirstToken with
    | some (t, p') => (.token (some t), p')
    | none => (.token none, p)
  | .popTestMessage =>
    match p.popTestMessage with
    | some (m, p') => (.message (some m), p')
    | none => (.message none, p)

/-- The pattern after a sequence of calls. -/
def Pattern.after (p : Pattern) (calls : List PatternCall) : Pattern := calls.foldl (fun p c => (p.call c).2) p

/-- The value of a call after a sequence of calls. -/
def Pattern.reply (p : Pattern) (calls : List PatternCall) (c : PatternCall) : PatternReply := ((p.after calls).call c).1

end Verif
