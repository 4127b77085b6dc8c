import Verif.Rust.Std
/-! Model of /repo/src/parsers/*.rs -/
namespace Verif

/-- `SetParser`, /repo/src/parsers/set.rs:7-13 (with `ParserBase`, /repo/src/parsers/base.rs:3-6, inlined as `name`). -/
structure SetParser where
  name : Option Bytes
  /-- `BTreeSet<u8>` in ascending order -/
  characterSet : List UInt8
  minLength : Option Nat
  maxLength : Option Nat
  deriving DecidableEq, Repr

/-- `GreedyParser`, /repo/src/parsers/greedy.rs:4-8 -/
structure GreedyParser where
  name : Option Bytes
  endString : Option Bytes
  deriving DecidableEq, Repr

/-- `Box<Parser>`: the trait object is one of the three implementations.  `IntParser` (/repo/src/parsers/int.rs:5-8)
wraps a `delegate : SetParser`. -/
inductive Parser where
  | set (p : SetParser)
  | int (delegate : SetParser)
  | greedy (p : GreedyParser)
  deriving DecidableEq, Repr

/-- `create_set_from_str`, /repo/src/parsers/set.rs:42-45: the set of the *bytes* of the argument. -/
def SetParser.createSetFromStr (set : Bytes) : List UInt8 := bsetFromIter set

/-- `SetParser::new` / `with_name` / `from_str`, /repo/src/parsers/set.rs:16-36 -/
def SetParser.new (name : Option Bytes) (set : Bytes) : SetParser :=
  { name, characterSet := createSetFromStr set, minLength := none, maxLength := none }

/-- `calculate_match_length`, /repo/src/parsers/set.rs:47-59: the loop over `value.bytes()` with its `break`. -/
def SetParser.calculateMatchLength (p : SetParser) : Bytes → Nat
  | [] => 0
  | c :: rest => if p.characterSet.contains c then p.calculateMatchLength rest + 1 else 0

/-- `is_min_length_ok`, /repo/src/parsers/has_length_constraint.rs:12-17 -/
def SetParser.isMinLengthOk (p : SetParser) (matchLength : Nat) : Bool :=
  match p.minLength with
  | some x => x ≤ matchLength
  | none => true

/-- `is_max_length_ok`, /repo/src/parsers/has_length_constraint.rs:19-24 -/
def SetParser.isMaxLengthOk (p : SetParser) (matchLength : Nat) : Bool :=
  match p.maxLength with
  | some x => matchLength ≤ x
  | none => true

/-- `is_match_length_ok`, /repo/src/parsers/has_length_constraint.rs:7-10 -/
def SetParser.isMatchLengthOk (p : SetParser) (matchLength : Nat) : Bool :=
  0 < matchLength && p.isMinLengthOk matchLength && p.isMaxLengthOk matchLength

/-- `SetParser::parse`, /repo/src/parsers/set.rs:78-86.  The `ParseResult` is reduced to the parsed value (its
other field is the parser itself). -/
def SetParser.parse (p : SetParser) (value : Bytes) : M (Option Bytes) :=
  let matchLen := p.calculateMatchLength value
  if p.isMatchLengthOk matchLen then
    match sliceTo value matchLen with
    | .error e => .error e
    | .ok v => .ok (some v)
  else .ok none

/-- The digits of `IntParser`, /repo/src/parsers/int.rs:12,41 -/
def intDigits : Bytes := b!"0123456789"

/-- `IntParser::new` / `with_name`, /repo/src/parsers/int.rs:11-18,39-43: the delegate. -/
def intDelegate (name : Option Bytes) : SetParser := SetParser.new name intDigits

/-- `GreedyParser::parse`, /repo/src/parsers/greedy.rs:53-59 -/
def GreedyParser.parse (p : GreedyParser) (value : Bytes) : M (Option Bytes) :=
  match p.endString with
  | some endString =>
    match strFind value endString with
    | none => .ok none
    | some pos =>
      match sliceTo value pos with
      | .error e => .error e
      | .ok v => .ok (some v)
  | none => .ok (some value)

/-- `Parser::parse`, /repo/src/parsers/mod.rs:19; `IntParser::parse` delegates, /repo/src/parsers/int.rs:22-24 -/
def Parser.parse (p : Parser) (value : Bytes) : M (Option Bytes) :=
  match p with
  | .set q => q.parse value
  | .int q => q.parse value
  | .greedy q => q.parse value

/-- `Parser::name`, /repo/src/parsers/mod.rs:20, set.rs:88-90, int.rs:26-28, greedy.rs:61-63 -/
def Parser.name : Parser → Option Bytes
  | .set q => q.name
  | .int q => q.name
  | .greedy q => q.name

/-- `Parser::set_name`, /repo/src/parsers/mod.rs:21, set.rs:92-94, int.rs:30-32, greedy.rs:65-67 -/
def Parser.setName (p : Parser) (n : Option Bytes) : Parser :=
  match p with
  | .set q => .set { q with name := n }
  | .int q => .int { q with name := n }
  | .greedy q => .greedy { q with name := n }

/-! ### Hashing

The bytes written to the hasher by `#[derive(Hash)]` with the std implementations of 2016 on a 64-bit little-endian machine:
`str`/`String` write their bytes and `0xff`; `usize` and enum discriminants write 8 bytes; a `BTreeSet<u8>` writes its
elements in order (no length prefix). -/

/-- 8 bytes of a `usize`/discriminant, little endian -/
def le64 (n : Nat) : Bytes := (List.range 8).map fun i => UInt8.ofNat (n / 256 ^ i % 256)

/-- `Hash for str` -/
def feedStr (s : Bytes) : Bytes := s ++ [255]

/-- `Hash for Option<String>` -/
def feedOptStr : Option Bytes → Bytes
  | none => le64 0
  | some s => le64 1 ++ feedStr s

/-- `Hash for Option<usize>` -/
def feedOptNat : Option Nat → Bytes
  | none => le64 0
  | some n => le64 1 ++ le64 n

/-- derived `Hash for SetParser`: base (name), character_set, min_length, max_length; /repo/src/parsers/set.rs:7-13 -/
def SetParser.feed (p : SetParser) : Bytes :=
  feedOptStr p.name ++ p.characterSet ++ feedOptNat p.minLength ++ feedOptNat p.maxLength

/-- derived `Hash for GreedyParser`, /repo/src/parsers/greedy.rs:4-8 -/
def GreedyParser.feed (p : GreedyParser) : Bytes := feedOptStr p.name ++ feedOptStr p.endString

/-- What `hash_os` writes: set.rs:102-107, int.rs:61-66, greedy.rs:44-49 -/
def Parser.feed : Parser → Bytes
  | .set q => feedStr b!"parser:set" ++ q.feed
  | .int q => feedStr b!"parser:int" ++ q.feed
  | .greedy q => feedStr b!"parser:greedy" ++ q.feed

/-- `hash_os`: the hash function `sip` (SipHash in the code, arbitrary here) applied to the written bytes. -/
def Parser.hashOs (sip : Bytes → UInt64) (p : Parser) : UInt64 := sip p.feed

end Verif
