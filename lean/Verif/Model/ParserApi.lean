import Verif.Model.Parsers
/-! The constructors and setters of the parsers as their users call them: /repo/src/parsers/set.rs, int.rs, greedy.rs. -/
namespace Verif

/-- `SetParser::set_character_set`, /repo/src/parsers/set.rs:38-40 -/
def SetParser.setCharacterSet (p : SetParser) (set : Bytes) : SetParser := { p with characterSet := SetParser.createSetFromStr set }

/-- `SetParser::set_min_length`, /repo/src/parsers/set.rs:66-68 -/
def SetParser.setMinLength (p : SetParser) (length : Option Nat) : SetParser := { p with minLength := length }

/-- `SetParser::set_max_length`, /repo/src/parsers/set.rs:72-74 -/
def SetParser.setMaxLength (p : SetParser) (length : Option Nat) : SetParser := { p with maxLength := length }

/-- `SetParser::set_name`, /repo/src/parsers/set.rs:92-94, with `ParserBase::set_name`, /repo/src/parsers/base.rs:21-23 -/
def SetParser.setName (p : SetParser) (name : Option Bytes) : SetParser := { p with name }

/-- A call of a setter of `SetParser`. -/
inductive SetCall where
  | name (n : Option Bytes)
  | characterSet (s : Bytes)
  | minLength (n : Option Nat)
  | maxLength (n : Option Nat)

/-- The call: one of the setters, /repo/src/parsers/set.rs:38-40, 66-68, 72-74, 92-94 -/
def SetParser.call (p : SetParser) : SetCall → SetParser
  | .name n => p.setName n
  | .characterSet s => p.setCharacterSet s
  | .minLength n => p.setMinLength n
  | .maxLength n => p.setMaxLength n

/-- `IntParser`, /repo/src/parsers/int.rs:5-8 -/
structure IntParser where
  delegate : SetParser

/-- `IntParser::with_name` (a name), `new` and `default` (no name), /repo/src/parsers/int.rs:11-18, 39-43 -/
def IntParser.new (name : Option Bytes) : IntParser := { delegate := intDelegate name }

/-- A call of a setter of `IntParser`. -/
inductive IntCall where
  | name (n : Option Bytes)
  | minLength (n : Option Nat)
  | maxLength (n : Option Nat)

/-- `set_name`, `set_min_length` and `set_max_length` of `IntParser`, /repo/src/parsers/int.rs:30-32, 49-51, 55-57 -/
def IntParser.call (p : IntParser) : IntCall → IntParser
  | .name n => { delegate := p.delegate.setName n }
  | .minLength n => { delegate := p.delegate.setMinLength n }
  | .maxLength n => { delegate := p.delegate.setMaxLength n }

/-- `GreedyParser::with_name` (a name), `new` and `default` (no name), /repo/src/parsers/greedy.rs:11-16, 25-27, 34-41 -/
def GreedyParser.new (name : Option Bytes) : GreedyParser := { name, endString := none }

/-- `GreedyParser::set_end_string`, /repo/src/parsers/greedy.rs:29-31 -/
def GreedyParser.setEndString (p : GreedyParser) (endString : Option Bytes) : GreedyParser := { p with endString }

/-- `GreedyParser::from_str`, /repo/src/parsers/greedy.rs:18-23 -/
def GreedyParser.fromStr (name endString : Bytes) : GreedyParser := (GreedyParser.new (some name)).setEndString (some endString)

/-- A call of a setter of `GreedyParser`. -/
inductive GreedyCall where
  | name (n : Option Bytes)
  | endString (e : Option Bytes)

/-- The call; `set_name` is /repo/src/parsers/greedy.rs:65-67 -/
def GreedyParser.call (p : GreedyParser) : GreedyCall → GreedyParser
  | .name n => { p with name := n }
  | .endString e => p.setEndString e

end Verif
