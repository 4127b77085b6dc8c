import Verif.Instances.Trie
import Verif.Props.C32_C39_Grammar
import Verif.Props.C52_EndToEnd
import Verif.Props.C67_C68_Expected
import Verif.Props.C69_C72_Messages
/-! The theorems about the language of the pattern strings, applied to concrete cases. -/
namespace Verif.Instances
open Verif.Spec Samples

/-! ### What compiles -/

/-- the number after `min_len` has 20 digits -/
example := C32_never_panics_partial b!"é%{INT(min_len=18446744073709551616)}" u8!"é%{INT(min_len=18446744073709551616)}"

theorem short_text {s d : Bytes} (hs : s.length < 20) (h : d <:+: s) : d.length < 20 := by
  have := h.length_le
  omega

example := C32_short_numbers_partial b!"é%{INT(min_len=7" u8!"é%{INT(min_len=7" (fun _ h _ => short_text (by decide) h)

/-- `a\%\{%{SET("ba"):s}%{GREEDY:g}é` -/
def written : Bytes := b!"a\\%\\{%{SET(\"ba\"):s}%{GREEDY:g}é"
theorem written_utf8 : Utf8 written := u8!"a\\%\\{%{SET(\"ba\"):s}%{GREEDY:g}é"
def writtenTokens : List Token :=
  [.literal b!"a%{", .parser (.set { name := some b!"s", characterSet := b!"ab", minLength := none, maxLength := none }),
   .parser (.greedy { name := some b!"g", endString := some b!"é" }), .literal b!"é"]
theorem written_compiles : compile written = .ok (.ok writtenTokens) := by decide +kernel

theorem asciiSets {ts : List Token} (h : ∀ a ∈ parsersOf ts, match a with | .set p => Ascii p.characterSet | _ => True) : AsciiSets ts :=
  fun p hp => h (.set p) (mem_parsersOf.mpr hp)

theorem written_sets : AsciiSets writtenTokens := by
  intro p hp
  simp only [writtenTokens, List.mem_cons, Token.parser.injEq, Parser.set.injEq, List.not_mem_nil, or_false, reduceCtorEq, false_or] at hp
  subst hp
  decide

example := C33_compiled_wellFormed written written_utf8 _ written_compiles written_sets
example := C33_round_trip writtenTokens (C33_compiled_wellFormed written written_utf8 _ written_compiles written_sets).1 (by decide)
example := C34_shape written written_utf8 _ written_compiles
example := C34_utf8 written written_utf8 _ written_compiles
example := C58_language written written_utf8 writtenTokens

/-! ### Names -/

instance (c : UInt8) : Decidable (NameStart c) := by unfold NameStart; infer_instance
instance (c : UInt8) : Decidable (Digit c) := by unfold Digit; infer_instance
instance (c : UInt8) : Decidable (NameChar c) := by unfold NameChar; infer_instance

example := C35_accepted_names_partial b!"né" u8!"né"
example := C35_documented_names_partial b!"a-b.c_9" ⟨_, _, rfl, by decide, by decide⟩ (by decide)

/-! ### Literal text -/

theorem closed_int (ts : List Token) (p : SetParser) : EndsClosed (ts ++ [.parser (.int p)]) := by
  intro pre t h
  obtain ⟨_, h⟩ := List.append_inj' h rfl
  cases h
  exact ⟨_, rfl, fun g hg => by cases hg⟩

theorem parser_first (a : Parser) (ts : List Token) : NoLiteralFirst (.parser a :: ts) := by
  intro l ts' h
  cases h

example := C36_after_greedy b!"é%{INT:x}" b!"%{INT:y}" b!"%{GREEDY:g}" [.literal b!"é", .parser (int b!"x")] [.parser (int b!"y")] (some b!"g") u8!"é%{INT:x}" u8!"%{INT:y}"
  u8!"%{GREEDY:g}" (.inr (by decide +kernel)) (.inr (by decide +kernel)) (by decide +kernel) (parser_first _ _) b!"\\%\\{é" u8!"\\%\\{é" (by decide) (by decide)
example := C36_escapes_partial b!"é%{INT:x}" b!"%{INT:y}" [.literal b!"é", .parser (int b!"x")] [.parser (int b!"y")] u8!"é%{INT:x}" u8!"%{INT:y}" (.inr (by decide +kernel))
  (.inr (by decide +kernel)) (closed_int [.literal b!"é"] _) (parser_first _ _) [b!"a", b!"é", b!"%"]
  (by intro p hp; simp only [List.mem_cons, List.not_mem_nil, or_false] at hp; rcases hp with rfl | rfl | rfl; exact u8!"a"; exact u8!"é"; exact u8!"%") (by decide)
  b!"a\\%\\{é\\%\\{%" (by decide) (by decide) (by decide)
example := C39_plain_text b!"100% of {é\\%\\{" u8!"100% of {é\\%\\{" (by decide)
example := C39_verbatim b!"100% of {é" u8!"100% of {é" (by decide) (by decide) (by decide)

/-! ### Options -/

/-- `(min_len=1,max_len=2, min_len=3)`, and the same after a character set -/
example := (C38_last_option_wins [.min 1, .max 2, .min 3] b!"bé" (by decide) (by decide) u8!"bé" (some b!"x") b!":x" (.some b!"x" (.mk _ _ (by decide) (by decide) (by decide)))).1
  b!"(min_len=1,max_len=2, min_len=3)"
  (.present _ _ (.cons _ _ b!"min_len=1" b!",max_len=2, min_len=3" (.min b!"1" _ (.one 49 (by decide)) (by decide))
    (.cons _ _ b!"," b!"max_len=2" b!", min_len=3" ⟨0, rfl⟩ (.max b!"2" _ (.one 50 (by decide)) (by decide))
      (.cons _ _ b!", " b!"min_len=3" [] ⟨1, rfl⟩ (.min b!"3" _ (.one 51 (by decide)) (by decide)) .nil))))
example := (C38_last_option_wins [.max 12] b!"bé" (by decide) (by decide) u8!"bé" none [] .none).2 b!",  max_len=12"
  (.present _ b!",  " _ ⟨2, rfl⟩ (.cons _ _ b!"max_len=12" [] (.max b!"12" 12 (.snoc b!"1" _ 50 (.one 49 (by decide)) (by decide)) (by decide)) .nil))

/-! ### Errors -/

/-- `é%{INT:ab c}` -/
def mistake : ParseError := { line := 1, column := 11, offset := 10, expected := [b!"[-]", b!"[a-z-A-Z0-9_.]", b!"}"] }
theorem mistake_compile : compile b!"é%{INT:ab c}" = .ok (.error mistake) := by decide +kernel

example := C37_error_position b!"é%{INT:ab c}" u8!"é%{INT:ab c}" _ mistake_compile
example := C55_text_before_error b!"é%{INT:ab c}" u8!"é%{INT:ab c}" _ mistake_compile
example := C56_error_after_correct_part b!"é" b!"INT:ab c}" u8!"é" u8!"INT:ab c}" _ (.inr (by decide +kernel : compile b!"é" = .ok (.ok [.literal b!"é"]))) _ mistake_compile
example := C67_expected_absent b!"é%{INT:ab c}" _ mistake_compile
example := C68_can_come_next_partial b!"é%{INT:ab c}" u8!"é%{INT:ab c}" _ mistake_compile b!"}" (by decide) (by
    rintro (h | ⟨h, _⟩ | ⟨h, _⟩) <;> revert h <;> decide)

theorem mistake_displayed : DisplayedAs mistake b!"error at 1:11: expected one of `}`, `[-]`, `[a-z-A-Z0-9_.]`" :=
  ⟨[b!"}", b!"[-]", b!"[a-z-A-Z0-9_.]"], .trans (.swap _ _ _) (.cons _ (.swap _ _ _)), by decide +kernel⟩

example := C70_never_eof b!"é%{INT:ab c}" _ mistake_compile _ mistake_displayed

/-- another string with the same mistake at the same place -/
def mistake' : ParseError := { line := 1, column := 11, offset := 10, expected := [b!"[-]", b!"[a-z-A-Z0-9_.]", b!"}"] }
theorem mistake_compile' : compile b!"ő%{INT:xy,z}" = .ok (.error mistake') := by decide +kernel
example := C70_text_determines b!"é%{INT:ab c}" b!"ő%{INT:xy,z}" _ _ mistake_compile mistake_compile' _ mistake_displayed mistake_displayed
example := C70_escaped b!"\"\n" (by decide)
example := C70_escaped_unique _ _ _ (C70_escaped b!"\"\n" (by decide)) (C70_escaped b!"\"\n" (by decide))
example := C69_not_json { deps with json := fun doc => if doc = b!"{" then .error (.other 9) else .ok .null } b!"{" (.other 9) rfl

/-- two errors with the same text -/
example := C71_text_determines_partial (fun _ => b!"x") (.valueNotMatch 0 b!"k" b!"a got=b" b!"c") (.valueNotMatch 0 b!"k" b!"a" b!"b got=c") (by decide : 0 < 2 ^ 128)
  (by decide : 0 < 2 ^ 128) (by simp [TestError.display])

/-! ### From the string to the answer -/

example := C57_concatenation b!"é%{INT:x}" b!"b%{INT:y}" u8!"é%{INT:x}" u8!"b%{INT:y}" [.literal b!"é", .parser (int b!"x")] [.literal b!"b", .parser (int b!"y")] (by decide +kernel)
  (by decide +kernel) (.inl (closed_int [.literal b!"é"] _))

def endToEnd : Pattern := pat 1 [.literal b!"user ", .parser (greedy b!"name" (some b!" has ")), .literal b!" has ", .parser (int b!"n"), .literal b!" files"]

example := C52_end_to_end sip b!"user %{GREEDY:name} has %{INT:n} files" (by decide) endToEnd (by decide +kernel) b!"user ann has 3 files" (by decide)
example := C52_suffix_array sip b!"user %{GREEDY:name} has %{INT:n} files" (by decide) endToEnd (by decide +kernel) b!"user ann has 3 files" (by decide)
  [(greedy b!"name" (some b!" has "), b!"ann"), (int b!"n", b!"3")] (strict (by decide +kernel))
example := C52_end_to_end_utf8 sip b!"né%{INT:i}!" u8!"né%{INT:i}!" single (by decide +kernel) b!"né77!" u8!"né77!" _ (okOf_eq _ single_built) _
  (answers single_built _ (some ⟨pat 1 [], [(b!"i", b!"77")]⟩) (by decide +kernel))

end Verif.Instances
