import Verif.Model.Grammar
import Verif.Model.Loader
import Verif.Model.Clone
/-! Model of the texts of errors: /repo/src/grammar/parser/pattern_parser.rs:10-12, 31-49, /repo/src/matcher/pattern/testmessage/error.rs:87-127,
/repo/src/matcher/pattern_source/error.rs:43-79, and of the builder in /repo/src/matcher/compiled_pattern.rs. -/
namespace Verif

/-- `Display` of `usize`: decimal digits without leading zeros. -/
def displayNat (n : Nat) : Bytes :=
  if n < 10 then [UInt8.ofNat (48 + n)] else displayNat (n / 10) ++ [UInt8.ofNat (48 + n % 10)]

/-- A lower-case hexadecimal digit. -/
def hexDigit (n : Nat) : UInt8 := if n < 10 then UInt8.ofNat (48 + n) else UInt8.ofNat (87 + n)

/-- The last `k` hexadecimal digits of the number, the most significant first. -/
def hexDigits : Nat → Nat → Bytes
  | 0, _ => []
  | k + 1, n => hexDigits k (n / 16) ++ [hexDigit (n % 16)]

/-- `Uuid::hyphenated().to_string()` of the uuid library: 32 hexadecimal digits in groups of 8, 4, 4, 4 and 12. -/
def hyphenated (uuid : Nat) : Bytes :=
  hexDigits 8 (uuid / 16 ^ 24) ++ b!"-" ++ hexDigits 4 (uuid / 16 ^ 20) ++ b!"-" ++ hexDigits 4 (uuid / 16 ^ 16) ++ b!"-" ++
    hexDigits 4 (uuid / 16 ^ 12) ++ b!"-" ++ hexDigits 12 uuid

/-- `char::escape_default` of std for an ASCII character: tab, newline, carriage return, quotes and the backslash get a backslash, other
printable characters stay, the rest becomes `\u{...}`. -/
def escapeChar (c : UInt8) : Bytes :=
  if c = 9 then b!"\\t" else if c = 13 then b!"\\r" else if c = 10 then b!"\\n"
  else if c = 39 ∨ c = 34 ∨ c = 92 then [92, c]
  else if 32 ≤ c.toNat ∧ c.toNat ≤ 126 then [c]
  else b!"\\u{" ++ (if c.toNat < 16 then [hexDigit c.toNat] else hexDigits 2 c.toNat) ++ b!"}"

/-- `escape_default`, /repo/src/grammar/parser/pattern_parser.rs:10-12; only for ASCII strings, which all entries of `expected` are. -/
def escapeDefault (s : Bytes) : Bytes := s.flatMap escapeChar

/-- `impl Display for ParseError`, /repo/src/grammar/parser/pattern_parser.rs:31-49.  The iteration order of the hash set `expected` is not
specified: `order` is the list of its elements in that order. -/
def ParseError.displayWith (e : ParseError) (order : List Bytes) : Bytes :=
  b!"error at " ++ displayNat e.line ++ b!":" ++ displayNat e.column ++ b!": expected " ++
  match order with
  | [] => b!"EOF"
  | [x] => b!"`" ++ escapeDefault x ++ b!"`"
  | x :: rest => b!"one of `" ++ escapeDefault x ++ b!"`" ++ rest.flatMap fun elem => b!", `" ++ escapeDefault elem ++ b!"`"

/-- `impl Display for Error`, /repo/src/matcher/pattern/testmessage/error.rs:87-127, with the uuids as written by the constructors in lines
37-82.  `debug` is the `{:?}` output of an `Option<Vec<String>>`. -/
def TestError.display (debug : Option (List Bytes) → Bytes) : TestError → Bytes
  | .valueNotMatch uuid key expected got =>
    b!"A parsed value does not equal to its expected value: uuid=" ++ hyphenated uuid ++ b!" key=" ++ key ++ b!" expected=" ++ expected ++
      b!" got=" ++ got
  | .keyNotFound uuid key => b!"A parsed key in not found among the expected ones: uuid=" ++ hyphenated uuid ++ b!" key=" ++ key
  | .testMessageDoesntMatch uuid message =>
    b!"A test message did not match its pattern: uuid=" ++ hyphenated uuid ++ b!" message='" ++ message ++ b!"'"
  | .matchedToOtherPattern expected got message =>
    b!"The test message matched to an other pattern: expected_uuid=" ++ hyphenated expected ++ b!" got_uuid=" ++ hyphenated got ++
      b!" test_message='" ++ message ++ b!"'"
  | .unexpectedTags uuid expected got =>
    b!"Unexpected tags found either in the parse result or among the expected ones: uuid=" ++ hyphenated uuid ++ b!" expected: " ++
      debug expected ++ b!" got=" ++ debug got

/-- The displayed texts of the errors of the libraries, and the `{:?}` output of an `Option<Vec<String>>`. -/
structure ErrorTexts where
  io : Nat → Bytes
  json : DeError → Bytes
  yaml : DeError → Bytes
  debug : Option (List Bytes) → Bytes

/-- `impl Display for BuildError`, /repo/src/matcher/pattern_source/error.rs:43-56 -/
def BuildError.display (L : ErrorTexts) : BuildError → Bytes
  | .testMessage e => e.display L.debug
  | .io e => L.io e
  | .deserJson e => L.json e
  | .deserYaml e => L.yaml e
  | .unsupportedFileExtension => b!"The given file extension is not suppoted"
  | .notUtf8FileName => b!"The given filename contains non Utf-8 characters"

/-- `CompiledPatternBuilder`, /repo/src/matcher/compiled_pattern.rs:24-26 -/
structure PatternBuilder where
  pattern : CompiledPattern

/-- `CompiledPatternBuilder::new` and `default`, /repo/src/matcher/compiled_pattern.rs:29-31, 50-54 -/
def PatternBuilder.new : PatternBuilder := { pattern := [] }

/-- `CompiledPatternBuilder::literal`, /repo/src/matcher/compiled_pattern.rs:33-38 -/
def PatternBuilder.literal (b : PatternBuilder) (l : Bytes) : PatternBuilder := { b with pattern := b.pattern ++ [.literal l] }

/-- `CompiledPatternBuilder::parser`, /repo/src/matcher/compiled_pattern.rs:40-43 -/
def PatternBuilder.parser (b : PatternBuilder) (p : Parser) : PatternBuilder := { b with pattern := b.pattern ++ [.parser p] }

/-- `CompiledPatternBuilder::build`, /repo/src/matcher/compiled_pattern.rs:45-47, with the `Clone` of tokens in lines 11-22 -/
def PatternBuilder.build (b : PatternBuilder) : CompiledPattern := b.pattern.map Token.clone

end Verif
