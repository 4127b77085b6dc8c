import Verif.Proofs.GrammarProps
import Verif.Spec.Samples
/-! C32–C39 and C55–C58: compiling pattern strings. -/
namespace Verif
open Spec

/-! ### C32 -/

/-- C32 is false: a length option that does not fit in 64 bits panics. -/
theorem C32_refuted : ∃ s, Utf8 s ∧ compile s = .error .unwrap :=
  ⟨b!"%{INT(min_len=18446744073709551616)}", ascii_utf8 (by decide), by decide +kernel⟩

/-- C32, the exact extent: compiling returns `Ok` or `Err` for every string, except that it panics (in an `unwrap`) if and only if the string
has a well-formed beginning followed by an `INT` or `SET` with a length option that does not fit in 64 bits.  In particular it terminates. -/
theorem C32_never_panics_partial (s : Bytes) (hu : Utf8 s) :
    (Overflow s → compile s = .error .unwrap) ∧ (¬ Overflow s → ∃ r, compile s = .ok r) := by
  refine ⟨fun h => ?_, fun h => ?_⟩
  · obtain ⟨e, he⟩ := (compile_panic_iff hu).mpr h
    rcases compile_sound hu with ⟨t, h1, _⟩ | ⟨t, h1, _⟩ | ⟨h1, _⟩
    · rw [he] at h1; simp at h1
    · rw [he] at h1; simp at h1
    · exact h1
  · rcases compile_sound hu with ⟨t, h1, _⟩ | ⟨t, h1, _⟩ | ⟨_, h1⟩
    · exact ⟨_, h1⟩
    · exact ⟨_, h1⟩
    · exact absurd h1 h

/-- C32 for all strings in which no twenty digits follow each other. -/
theorem C32_short_numbers_partial (s : Bytes) (hu : Utf8 s) (h : ∀ d, d <:+: s → (∀ c ∈ d, Digit c) → d.length < 20) :
    ∃ r, compile s = .ok r := by
  refine (C32_never_panics_partial s hu).2 (fun ho => ?_)
  obtain ⟨d, h1, h2, h3⟩ := overflow_long ho
  have := h d h1 h2
  omega

example : ∀ d, d <:+: b!"a%{INT(min_len=3):x}b" → (∀ c ∈ d, Digit c) → d.length < 20 := by
  rintro d ⟨u, v, e⟩ hd
  by_cases hl : d.length < 20
  · exact hl
  · have := congrArg List.length e
    have h0 : (b!"a%{INT(min_len=3):x}b").length = 21 := by decide
    rw [h0] at this
    simp at this
    have hc : (97 : UInt8) ∈ d ∨ (37 : UInt8) ∈ d := by
      cases u with
      | nil =>
        cases d with
        | nil => simp at hl
        | cons x d => simp at e; left; simp [e.1]
      | cons x u =>
        have hu : u = [] := List.eq_nil_of_length_eq_zero (by simp at this; omega)
        subst hu
        cases d with
        | nil => simp at hl
        | cons y d => simp at e; right; simp [e.2.1]
    rcases hc with hc | hc
    · exact absurd (hd _ hc) (by unfold Digit; decide)
    · exact absurd (hd _ hc) (by unfold Digit; decide)

/-! ### C33 -/

/-- C33: writing a well-formed token list as a pattern string and compiling it gives the token list back. -/
theorem C33_round_trip (ts : List Token) (h : WellFormed ts) (hn : ts ≠ []) : Utf8 (showTokens ts) ∧ compile (showTokens ts) = .ok (.ok ts) := by
  obtain ⟨es, h1, h2, h3, _, h5⟩ := show_written h
  refine ⟨h5, ?_⟩
  rw [written_compiles h5 (fun he => hn (h3.mp he)) h1, h2]

/-- C33: the well-formed token lists are exactly the ones pattern strings compile to (when SET arguments are ASCII), so for every such pattern
string, writing its compiled form and compiling again changes nothing. -/
theorem C33_compiled_wellFormed (s : Bytes) (hu : Utf8 s) (ts : List Token) (h : compile s = .ok (.ok ts)) (ha : AsciiSets ts) :
    WellFormed ts ∧ ts ≠ [] ∧ compile (showTokens ts) = .ok (.ok ts) := by
  obtain ⟨es, h1, h2, rfl⟩ := (compile_ok_iff hu).mp h
  have hw := written_wellFormed _ (Nat.le_refl _) h2 hu ha
  have hn : tokens es ≠ [] := by
    cases es with
    | nil => exact absurd rfl h1
    | cons e es => exact tokens_ne
  exact ⟨hw, hn, (C33_round_trip _ hw hn).2⟩

/-- A token list with all kinds of tokens, and how it is written. -/
def sampleTokens : List Token :=
  [.literal b!"a%{b", .parser (.int { name := some b!"x", characterSet := b!"0123456789", minLength := some 2, maxLength := none }),
   .parser (.set { name := none, characterSet := b!"abc", minLength := none, maxLength := some 12 }),
   .parser (.greedy { name := some b!"g", endString := some b!"é" }), .literal b!"é"]

example : showTokens sampleTokens = b!"a\\%\\{b%{INT(min_len=2):x}%{SET(\"abc\",max_len=12)}%{GREEDY:g}é" := by decide +kernel

example : WellFormed sampleTokens := by
  have nm : ∀ c, NameStart c → GoodName (some [c]) := by
    intro c hc m hm
    simp at hm; subst hm
    exact .mk c [] hc (by simp) (by simp)
  refine .literal _ _ (by decide) (ascii_utf8 (by decide)) (by decide) (.parser _ _ ?_ (.parser _ _ ?_
    (.greedyEnd _ _ _ (nm _ (by unfold NameStart; decide)) (by decide) ⟨['é'], by decide⟩ (by decide) .nil (by intro l t h; simp at h))))
    (by intro l t h; simp at h)
  · exact ⟨nm _ (by unfold NameStart; decide), by intro n hn; simp at hn; omega, by intro n hn; simp at hn, rfl⟩
  · exact ⟨by intro n hn; simp at hn, by intro n hn; simp at hn, by intro n hn; simp at hn; omega, by decide, by decide, by decide, by decide⟩

/-! ### C34 -/

/-- C34: a compiled pattern is not empty, has no empty literal and no two adjacent literals, and the end string of a `GREEDY` is the next token if
that is a literal; otherwise it has none. -/
theorem C34_shape (s : Bytes) (hu : Utf8 s) (ts : List Token) (h : compile s = .ok (.ok ts)) :
    ts ≠ [] ∧ Token.literal [] ∉ ts ∧ (∀ pre l l' post, ts ≠ pre ++ .literal l :: .literal l' :: post) ∧
    ∀ pre g post, ts = pre ++ .parser (.greedy g) :: post → ∀ e, g.endString = some e ↔ ∃ post', post = .literal e :: post' := by
  obtain ⟨es, h1, h2, rfl⟩ := (compile_ok_iff hu).mp h
  have hs := written_shape _ (Nat.le_refl _) h2
  refine ⟨?_, fun hm => shape_literals hs [] hm rfl, shape_adjacent hs, shape_greedy hs⟩
  cases es with
  | nil => exact absurd rfl h1
  | cons e es => exact tokens_ne

example : compile b!"a%{INT:x}%{GREEDY:y}b%{GREEDY}" = .ok (.ok [.literal b!"a", .parser (.int (intDelegate (some b!"x"))),
    .parser (.greedy { name := some b!"y", endString := some b!"b" }), .literal b!"b", .parser (.greedy { name := none, endString := none })]) := by
  decide +kernel

/-! ### C35 -/

/-- The name consists of the documented characters and starts with a letter, `_` or `.`. -/
def DocumentedName (n : Bytes) : Prop := ∃ c t, n = c :: t ∧ NameStart c ∧ ∀ x ∈ t, NameChar x

/-- C35 is false: the documented name `ab-c` is rejected. -/
theorem C35_refuted : ∃ n, DocumentedName n ∧ ∀ ts, compile (b!"%{INT:" ++ n ++ b!"}") ≠ .ok (.ok ts) := by
  refine ⟨b!"ab-c", ⟨97, b!"b-c", rfl, by unfold NameStart; decide, ?_⟩, ?_⟩
  · intro x hx
    simp at hx
    unfold NameChar NameStart Digit
    rcases hx with rfl | rfl | rfl <;> decide
  · intro ts h
    have : ∃ e, compile (b!"%{INT:" ++ b!"ab-c" ++ b!"}") = .ok (.error e) := by
      refine ⟨{ line := 1, column := 8, offset := 7, expected := [b!"}"] }, ?_⟩
      decide +kernel
    obtain ⟨e, he⟩ := this
    rw [he] at h; simp at h

/-- C35, exactly which names are accepted, for all three kinds of parsers: a letter, `_` or `.`, then letters, digits, `_`, `.`, and `-` as the
second character only.  Missing from the full property: `-` at later positions. -/
theorem C35_accepted_names_partial (n : Bytes) (hn : Utf8 n) :
    (compile (b!"%{INT:" ++ n ++ b!"}") = .ok (.ok [.parser (.int { name := some n, characterSet := b!"0123456789", minLength := none, maxLength := none })]) ↔ Name n) ∧
    (compile (b!"%{GREEDY:" ++ n ++ b!"}") = .ok (.ok [.parser (.greedy { name := some n, endString := none })]) ↔ Name n) ∧
    (compile (b!"%{SET(\"abc\"):" ++ n ++ b!"}") = .ok (.ok [.parser (.set { name := some n, characterSet := b!"abc", minLength := none, maxLength := none })]) ↔ Name n) := by
  refine ⟨⟨fun h => ?_, fun h => ?_⟩, ⟨fun h => ?_, fun h => ?_⟩, ⟨fun h => ?_, fun h => ?_⟩⟩
  · have hw := (C33_compiled_wellFormed _ (utf8_append (utf8_append (ascii_utf8 (by decide)) hn) (ascii_utf8 (by decide))) _ h (by intro p hp; simp at hp)).1
    cases hw with
    | parser _ _ h1 _ => exact h1.1 n rfl
  · have := C33_round_trip [.parser (.int { name := some n, characterSet := b!"0123456789", minLength := none, maxLength := none })]
      (.parser _ _ ⟨fun m hm => by simp at hm; subst hm; exact h, by intro k hk; simp at hk, by intro k hk; simp at hk, rfl⟩ .nil) (by simp)
    simpa [showTokens, showParser, showIntOpts, showName] using this.2
  · have hw := (C33_compiled_wellFormed _ (utf8_append (utf8_append (ascii_utf8 (by decide)) hn) (ascii_utf8 (by decide))) _ h (by intro p hp; simp at hp)).1
    cases hw with
    | greedy _ _ h1 _ _ => exact h1 n rfl
    | parser _ _ h1 _ => exact h1.elim
  · have := C33_round_trip [.parser (.greedy { name := some n, endString := none })]
      (.greedy _ _ (fun m hm => by simp at hm; subst hm; exact h) .nil (by intro l t ht; simp at ht)) (by simp)
    simpa [showTokens, showParser, showName] using this.2
  · have hw := (C33_compiled_wellFormed _ (utf8_append (utf8_append (ascii_utf8 (by decide)) hn) (ascii_utf8 (by decide))) _ h
      (by intro p hp; simp at hp; subst hp; exact (by decide : Ascii b!"abc"))).1
    cases hw with
    | parser _ _ h1 _ => exact h1.1 n rfl
  · have := C33_round_trip [.parser (.set { name := some n, characterSet := b!"abc", minLength := none, maxLength := none })]
      (.parser _ _ ⟨fun m hm => by simp at hm; subst hm; exact h, by intro k hk; simp at hk, by intro k hk; simp at hk, (by decide : b!"abc" ≠ []),
        (by decide : (b!"abc").Pairwise fun a b => a.toNat < b.toNat), (by decide : 34 ∉ b!"abc"), (by decide : Ascii b!"abc")⟩ .nil) (by simp)
    simpa [showTokens, showParser, showSetOpts, showName] using this.2

/-- C35 for documented names without `-` after the second character. -/
theorem C35_documented_names_partial (n : Bytes) (h : DocumentedName n) (hd : ∀ x ∈ n.drop 2, x ≠ 45) :
    compile (b!"%{INT:" ++ n ++ b!"}") = .ok (.ok [.parser (.int { name := some n, characterSet := b!"0123456789", minLength := none, maxLength := none })]) := by
  obtain ⟨c, t, rfl, h1, h2⟩ := h
  have hname : Name (c :: t) := .mk c t h1 h2 (by simpa [List.drop_one] using hd)
  have ha : Ascii (c :: t) := by
    have := nameText_utf8 (.some _ hname)
    exact (ascii_append.mp this).2
  exact ((C35_accepted_names_partial _ (ascii_utf8 ha)).1).mpr hname

example : Name b!"a-b.c_9" := .mk 97 _ (by unfold NameStart; decide) (by intro x hx; simp at hx; unfold NameChar NameStart Digit; rcases hx with rfl | rfl | rfl | rfl | rfl | rfl <;> decide)
  (by decide)

/-! ### C36 -/

/-- C36 is false: the text after a `GREEDY` is kept as it is. -/
theorem C36_refuted : compile b!"%{GREEDY:x}\\%\\{a" =
    .ok (.ok [.parser (.greedy { name := some b!"x", endString := some b!"\\%\\{a" }), .literal b!"\\%\\{a"]) := by decide +kernel

/-- C36 except after a `GREEDY`: in literal text between parsers (or at the beginning or end of the pattern), cut at its escapes `\%\{` into
`parts`, every escape stands for `%{`.  Missing from the full property: literal text right after a `GREEDY`. -/
theorem C36_escapes_partial (a b : Bytes) (ta tb : List Token) (ha : Utf8 a) (hb : Utf8 b) (hca : CompilesTo a ta) (hcb : CompilesTo b tb)
    (hea : EndsClosed ta) (hnb : NoLiteralFirst tb) (parts : List Bytes) (hu : ∀ p ∈ parts, Utf8 p)
    (hp : ∀ p ∈ parts, ¬ b!"\\%\\{" <:+: p) (raw : Bytes) (hraw : raw = (b!"\\%\\{").intercalate parts) (hn : raw ≠ []) (hb : ¬ b!"%{" <:+: raw) :
    compile (a ++ raw ++ b) = .ok (.ok (ta ++ [.literal ((b!"%{").intercalate parts)] ++ tb)) := by
  have key : ∀ ps : List Bytes, (∀ p ∈ ps, Utf8 p) → (∀ p ∈ ps, ¬ b!"\\%\\{" <:+: p) →
      unescape ((b!"\\%\\{").intercalate ps) = (b!"%{").intercalate ps ∧ Utf8 ((b!"\\%\\{").intercalate ps) := by
    intro ps
    induction ps with
    | nil => intro _ _; exact ⟨rfl, utf8_nil⟩
    | cons p ps ih =>
      intro h1 h2
      have hp : NoEsc p := h2 p (by simp)
      cases ps with
      | nil => simpa [List.intercalate] using ⟨unescape_none hp, h1 p (by simp)⟩
      | cons q ps =>
        have ih := ih (fun x hx => h1 x (by simp at hx ⊢; exact .inr hx)) (fun x hx => h2 x (by simp at hx ⊢; exact .inr hx))
        have e1 : ∀ s : Bytes, s.intercalate (p :: q :: ps) = p ++ (s ++ s.intercalate (q :: ps)) := by
          intro s; simp [List.intercalate]
        rw [e1, e1, unescape_join hp, ih.1]
        exact ⟨rfl, utf8_append (h1 p (by simp)) (utf8_append (ascii_utf8 (by decide)) ih.2)⟩
  obtain ⟨k1, k2⟩ := key parts hu hp
  rw [← hraw] at k1 k2
  have hlit : CompilesTo raw [.literal (unescape raw)] := by
    right
    exact written_compiles k2 (by simp) (written_one (.literal raw hn hb))
  have h1 := concat_compiles ha k2 hca hlit (.inl hea)
  have h2 := concat_compiles (utf8_append ha k2) ‹Utf8 b› h1 hcb (.inr hnb)
  rcases h2 with ⟨h2, _⟩ | h2
  · simp at h2; exact absurd h2.2.1 hn
  · rw [h2, k1]

example : compile b!"%{INT:x}a\\%\\{b\\%\\{%{INT:y}" =
    .ok (.ok [.parser (Samples.int b!"x"), .literal b!"a%{b%{", .parser (Samples.int b!"y")]) := by decide +kernel

theorem tokens_greedy {es : List Elem} {n : Option Bytes} (h : tokens es = [.parser (.greedy { name := n, endString := none })]) : es = [.greedy n] := by
  have hnil : ∀ es : List Elem, tokens es = [] → es = [] := by
    intro es h
    cases es with
    | nil => rfl
    | cons e es => exact absurd h tokens_ne
  match es with
  | [] => simp [tokens] at h
  | .greedy m :: .literal raw :: es => simp [tokens] at h
  | [.greedy m] => simp [tokens] at h; rw [h]
  | .greedy m :: .int os k :: es => rw [tokens] at h; simp [tokens] at h; simp
  | .greedy m :: .set cs os k :: es => rw [tokens] at h; simp [tokens] at h; simp
  | .greedy m :: .greedy k :: es => rw [tokens] at h; simp at h; exact absurd h.2 tokens_ne; simp
  | .literal raw :: es => simp [tokens] at h
  | .int os k :: es => simp [tokens, intParser] at h
  | .set cs os k :: es => simp [tokens, setParser] at h

/-- C36, the rest of the truth: literal text right after a `GREEDY` is kept as it is written, escapes included, both as the end string of the `GREEDY`
and as the literal that follows. -/
theorem C36_after_greedy (a b g : Bytes) (ta tb : List Token) (n : Option Bytes) (ha : Utf8 a) (hb : Utf8 b) (hg : Utf8 g) (hca : CompilesTo a ta)
    (hcb : CompilesTo b tb) (hcg : compile g = .ok (.ok [.parser (.greedy { name := n, endString := none })])) (hnb : NoLiteralFirst tb)
    (raw : Bytes) (hu : Utf8 raw) (hn : raw ≠ []) (hr : ¬ b!"%{" <:+: raw) :
    compile (a ++ g ++ raw ++ b) = .ok (.ok (ta ++ [.parser (.greedy { name := n, endString := some raw }), .literal raw] ++ tb)) := by
  obtain ⟨es, _, hw, ht⟩ := (compile_ok_iff hg).mp hcg
  have := tokens_greedy ht
  subst this
  have hlit : Written [.literal raw] raw := written_one (.literal raw hn hr)
  have hgr := written_append hw hlit (fun h => by simp [endsLiteral] at h)
  have h0 : CompilesTo (g ++ raw) [.parser (.greedy { name := n, endString := some raw }), .literal raw] :=
    .inr (written_compiles (utf8_append hg hu) (by simp) hgr)
  have h1 := concat_compiles ha (utf8_append hg hu) hca h0 (.inr (by intro l ts' e; simp at e))
  have h2 := concat_compiles (utf8_append ha (utf8_append hg hu)) hb h1 hcb (.inr hnb)
  rcases h2 with ⟨_, h2⟩ | h2
  · simp at h2
  · simpa using h2

example : compile b!"%{GREEDY:x}" = .ok (.ok [.parser (.greedy { name := some b!"x", endString := none })]) := by decide +kernel

/-! ### C37 -/

/-- C37: where the error of a string that does not compile is reported. -/
theorem C37_error_position (s : Bytes) (hu : Utf8 s) (e : ParseError) (h : compile s = .ok (.error e)) :
    e.offset ≤ s.length ∧ isCharBoundary s e.offset = true ∧ 1 ≤ e.line ∧ 1 ≤ e.column ∧
    (13 ∉ s → e.line = lineAfter (s.take e.offset) ∧ e.column = columnAfter (s.take e.offset)) := by
  rcases compile_sound hu with ⟨t, h1, _⟩ | ⟨e', h1, ⟨⟨r, hat⟩, _⟩, h3⟩ | ⟨h1, _⟩
  · rw [h] at h1; simp at h1
  · rw [h] at h1
    simp at h1; subst h1
    have hle : e.offset ≤ s.length := by have := hat.length; omega
    have hpos := posToLineLoop_pos (strLines s) e.offset 1
    have h4 : e.line = (posToLine s e.offset).1 := by rw [← h3]
    have h5 : e.column = (posToLine s e.offset).2 := by rw [← h3]
    refine ⟨hle, hat.boundary, by rw [h4]; exact hpos.1, by rw [h5]; exact hpos.2, fun hr => ?_⟩
    rw [h4, h5, posToLine_spec hr hle]
    exact ⟨rfl, rfl⟩
  · rw [h] at h1; simp at h1

/-- the last line and column of a text, found by adding up -/
example : lineAfter b!"ab\ncde" = 2 ∧ columnAfter b!"ab\ncde" = 4 := by decide

example : compile b!"ab\ncd%{INT:x" = .ok (.error { line := 2, column := 10, offset := 12, expected := [b!"[a-z-A-Z0-9_.]", b!"}"] }) := by
  decide +kernel

/-- With carriage returns the position drifts by one for each line: the same mistake after `\r\n` is reported on a line that does not exist. -/
example : ∃ e, compile b!"ab\r\ncd%{INT:x" = .ok (.error e) ∧ e.offset = 13 ∧ e.line = 3 ∧ e.column = 1 := by
  refine ⟨{ line := 3, column := 1, offset := 13, expected := [b!"[a-z-A-Z0-9_.]", b!"}"] }, ?_, rfl, rfl, rfl⟩
  decide +kernel

/-! ### C38 -/

/-- C38: an `INT` or `SET` with any list of length options (in any spelling) has the last given `min_len` and the last given `max_len`. -/
theorem C38_last_option_wins (os : List LenOpt) (cs : Bytes) (hcs : cs ≠ []) (hq : 34 ∉ cs) (hcu : Utf8 cs) (name : Option Bytes) (x : Bytes)
    (hx : NameText name x) :
    (∀ w, IntOpts os w → ∃ p : SetParser, compile (b!"%{INT" ++ w ++ x ++ b!"}") = .ok (.ok [.parser (.int p)]) ∧
      (∀ n, p.minLength = some n ↔ ∃ pre post, os = pre ++ .min n :: post ∧ ∀ m, LenOpt.min m ∉ post) ∧
      (∀ n, p.maxLength = some n ↔ ∃ pre post, os = pre ++ .max n :: post ∧ ∀ m, LenOpt.max m ∉ post) ∧ p.name = name) ∧
    (∀ w, SetOpts os w → ∃ p : SetParser, compile (b!"%{SET(\"" ++ cs ++ b!"\"" ++ w ++ b!")" ++ x ++ b!"}") = .ok (.ok [.parser (.set p)]) ∧
      (∀ n, p.minLength = some n ↔ ∃ pre post, os = pre ++ .min n :: post ∧ ∀ m, LenOpt.min m ∉ post) ∧
      (∀ n, p.maxLength = some n ↔ ∃ pre post, os = pre ++ .max n :: post ∧ ∀ m, LenOpt.max m ∉ post) ∧ p.name = name ∧
      ∀ c, c ∈ p.characterSet ↔ c ∈ cs) := by
  refine ⟨fun w hw => ?_, fun w hw => ?_⟩
  · have hut : Utf8 (b!"%{INT" ++ w ++ x ++ b!"}") :=
      ascii_utf8 (ascii_append.mpr ⟨ascii_append.mpr ⟨ascii_append.mpr ⟨by decide, intOpts_ascii hw⟩, nameText_utf8 hx⟩, by decide⟩)
    exact ⟨{ name, characterSet := b!"0123456789", minLength := lastMin os, maxLength := lastMax os },
      written_compiles hut (by simp) (written_one (.int os name w x hw hx)), fun n => lastMin_iff, fun n => lastMax_iff, rfl⟩
  · have hut : Utf8 (b!"%{SET(\"" ++ cs ++ b!"\"" ++ w ++ b!")" ++ x ++ b!"}") := by
      refine utf8_append (utf8_append (utf8_append (utf8_append (utf8_append (utf8_append ?_ hcu) ?_) ?_) ?_) ?_) ?_
      · exact ascii_utf8 (by decide)
      · exact ascii_utf8 (by decide)
      · exact ascii_utf8 (setOpts_ascii hw)
      · exact ascii_utf8 (by decide)
      · exact ascii_utf8 (nameText_utf8 hx)
      · exact ascii_utf8 (by decide)
    exact ⟨{ name, characterSet := bsetFromIter cs, minLength := lastMin os, maxLength := lastMax os },
      written_compiles hut (by simp) (written_one (.set cs os name w x hcs hq hw hx)), fun n => lastMin_iff, fun n => lastMax_iff, rfl,
      fun c => mem_bsetFromIter⟩

example : compile b!"%{SET(\"ba\", min_len=1,max_len=2,  min_len=3)}" =
    .ok (.ok [.parser (.set { name := none, characterSet := b!"ab", minLength := some 3, maxLength := some 2 })]) := by decide +kernel

/-! ### C39 -/

/-- C39: a non-empty string without `%{` is one literal, with every `\%\{` read as `%{`; the empty string does not compile. -/
theorem C39_plain_text (s : Bytes) (hu : Utf8 s) (hb : ¬ b!"%{" <:+: s) :
    (s ≠ [] → compile s = .ok (.ok [.literal (unescape s)])) ∧ (s = [] → ∃ e, compile s = .ok (.error e)) := by
  refine ⟨fun hn => written_compiles hu (by simp) (written_one (.literal s hn hb)), ?_⟩
  rintro rfl
  rcases compile_sound hu with ⟨t, _, es, h1, h2, _⟩ | ⟨e, h1, _⟩ | ⟨_, h1⟩
  · exfalso
    generalize hs : ([] : Bytes) = s at h2
    cases h2 with
    | nil => exact h1 rfl
    | cons e es w s hw _ _ => simp at hs; exact elemText_ne hw hs.1
  · exact ⟨e, h1⟩
  · obtain ⟨d, ⟨u, v, h2⟩, _, h3⟩ := overflow_long h1
    have := congrArg List.length h2
    simp only [List.length_append, List.length_nil] at this; omega

/-- C39: a string that has neither `%{` nor `\%\{` stands for itself. -/
theorem C39_verbatim (s : Bytes) (hu : Utf8 s) (hb : ¬ b!"%{" <:+: s) (he : ¬ b!"\\%\\{" <:+: s) (hn : s ≠ []) :
    compile s = .ok (.ok [.literal s]) := by
  rw [(C39_plain_text s hu hb).1 hn, unescape_none he]

example : compile b!"100% of {a\\%\\{" = .ok (.ok [.literal b!"100% of {a%{"]) := by decide +kernel

/-! ### C55, C56: what an error position means -/

/-- C55: the text before the position of an error can be completed to a string that compiles. -/
theorem C55_text_before_error (s : Bytes) (hu : Utf8 s) (e : ParseError) (h : compile s = .ok (.error e)) :
    ∃ z toks, compile (s.take e.offset ++ z) = .ok (.ok toks) := by
  rcases compile_sound hu with ⟨t, h1, _⟩ | ⟨e', h1, hv, h3⟩ | ⟨h1, _⟩
  · rw [h] at h1; simp at h1
  · rw [h] at h1
    simp at h1; subst h1
    exact viable_compiles hv
  · rw [h] at h1; simp at h1

/-- C56: the error is not in a correct beginning: if the text up to some `%{` compiles (or is empty), the error is after this `%{`. -/
theorem C56_error_after_correct_part (a b : Bytes) (ha : Utf8 a) (hb : Utf8 b) (ta : List Token) (hca : CompilesTo a ta) (e : ParseError)
    (h : compile (a ++ b!"%{" ++ b) = .ok (.error e)) : a.length + 2 ≤ e.offset := by
  obtain ⟨es, h1, _⟩ := compilesTo_written ha hca
  have hu : Utf8 (a ++ b!"%{" ++ b) := utf8_append (utf8_append ha (ascii_utf8 (by decide))) hb
  exact compile_error_far (b := b) hu h (by simp) h1

example : CompilesTo b!"x%{INT:a} " [.literal b!"x", .parser (Samples.int b!"a"), .literal b!" "] ∧
    compile (b!"x%{INT:a} " ++ b!"%{" ++ b!"INTER}") = .ok (.error { line := 1, column := 16, offset := 15, expected := [b!"(", b!":", b!"}"] }) :=
  ⟨.inr (by decide +kernel), by decide +kernel⟩

/-! ### C57: concatenation -/

/-- C57: if two strings compile, so does their concatenation, to the concatenated tokens, unless text at the beginning of the second would join
literal text (or become the end string of a `GREEDY`) at the end of the first. -/
theorem C57_concatenation (a b : Bytes) (ha : Utf8 a) (hb : Utf8 b) (ta tb : List Token) (hca : compile a = .ok (.ok ta))
    (hcb : compile b = .ok (.ok tb)) (hn : EndsClosed ta ∨ NoLiteralFirst tb) : compile (a ++ b) = .ok (.ok (ta ++ tb)) := by
  rcases concat_compiles ha hb (.inr hca) (.inr hcb) hn with ⟨h1, _⟩ | h
  · simp at h1
    rw [h1.1] at hca
    obtain ⟨e, he⟩ := (C39_plain_text [] utf8_nil (by decide)).2 rfl
    rw [he] at hca; simp at hca
  · exact h

example : EndsClosed [.literal b!"a", .parser (Samples.int b!"x")] := by
  intro pre t h
  have h2 : [Token.literal b!"a"] ++ [.parser (Samples.int b!"x")] = pre ++ [t] := h
  obtain ⟨_, h3⟩ := List.append_inj' h2 rfl
  simp at h3
  exact ⟨_, h3.symm, by intro g; simp [Samples.int]⟩

/-- the condition of C57 is needed -/
example : compile b!"%{GREEDY}" = .ok (.ok [.parser (.greedy { name := none, endString := none })]) ∧ compile b!"a" = .ok (.ok [.literal b!"a"]) ∧
    compile b!"%{GREEDY}a" = .ok (.ok [.parser (.greedy { name := none, endString := some b!"a" }), .literal b!"a"]) := by decide +kernel

/-! ### C58: the language -/

/-- C58: a string compiles to `toks` if and only if it is a pattern string, as documented, for `toks`. -/
theorem C58_language (s : Bytes) (hu : Utf8 s) (toks : List Token) : compile s = .ok (.ok toks) ↔ PatternString s toks := compile_ok_iff hu

example : PatternString b!"a%{INT}" [.literal b!"a", .parser (.int { name := none, characterSet := b!"0123456789", minLength := none, maxLength := none })] :=
  ⟨[.literal b!"a", .int [] none], by simp, .cons _ _ b!"a" b!"%{INT}" (.literal _ (by decide) (by decide))
    (written_one (by simpa using ElemText.int [] none [] [] .absent .none)) (fun _ => rfl), rfl⟩

end Verif
