import Verif.Proofs.GrammarProps
import Verif.Proofs.GrammarExpected
/-! C67, C68: the `expected` set of a compilation error. -/
namespace Verif
open Spec

/-- C67: The `expected` set of every compilation error is non-empty, has no repetitions and only contains known entries, and at the reported
offset the string does not go on with any of the entries. -/
theorem C67_expected_absent (s : Bytes) (e : ParseError) (h : compile s = .ok (.error e)) :
    e.expected ≠ [] ∧ e.expected.Nodup ∧
    ∀ m ∈ e.expected, (m ∈ expectedTexts ∨ m ∈ expectedClasses) ∧ ¬ Begins m (s.drop e.offset) :=
  ⟨(compile_expected h).2, (compile_expected h).1.2.1, (compile_expected h).1.1⟩


theorem repl_prefix {m : Bytes} (hm : Ascii m) : ∀ {t z' : Bytes}, Repl (m ++ t) z' → ∃ t', z' = m ++ t' := by
  induction m with
  | nil => intro t z' _; exact ⟨z', rfl⟩
  | cons c m ih =>
    intro t z' h
    have hc := ascii_cons.mp hm
    cases h with
    | same _ _ s' h =>
      obtain ⟨t', rfl⟩ := ih hc.2 h
      exact ⟨t', rfl⟩
    | high _ _ s' h _ => exact absurd hc.1 (by omega)

theorem expectedTexts_ascii : ∀ m ∈ expectedTexts, Ascii m := by
  intro m hm c hc
  have : ∀ m ∈ expectedTexts, ∀ c ∈ m, c.toNat < 128 := by decide
  exact this m hm c hc

theorem repl_cons {P : UInt8 → Prop} (hP : ∀ c, P c → c.toNat < 128) {c : UInt8} {t z' : Bytes} (hc : P c) (h : Repl (c :: t) z') :
    ∃ t', z' = c :: t' := by
  cases h with
  | same _ _ s' _ => exact ⟨s', rfl⟩
  | high _ _ s' h _ => exact absurd (hP c hc) (by omega)

theorem isIdent_lt {c : UInt8} (h : NameStart c ∨ NameChar c) : c.toNat < 128 := by
  unfold NameChar NameStart Digit at h
  rcases h with (h | h | rfl | rfl) | ((h | h | rfl | rfl) | h | rfl)
  all_goals first | omega | decide

theorem repl_begins {m z z' : Bytes} (h : Begins m z) (hr : Repl z z') : Begins m z' := by
  cases h with
  | text m t hm => obtain ⟨t', rfl⟩ := repl_prefix (expectedTexts_ascii m hm) hr; exact .text m t' hm
  | character c t =>
    cases hr with
    | same _ _ s' _ => exact .character _ _
    | high _ _ s' _ _ => exact .character _ _
  | nameStart c t hc =>
    obtain ⟨t', rfl⟩ := repl_cons (P := NameStart) (fun c h => isIdent_lt (.inl h)) hc hr; exact .nameStart _ _ hc
  | nameChar c t hc =>
    obtain ⟨t', rfl⟩ := repl_cons (P := NameChar) (fun c h => isIdent_lt (.inr h)) hc hr; exact .nameChar _ _ hc
  | dash t => obtain ⟨t', rfl⟩ := repl_cons (P := (· = 45)) (by rintro _ rfl; decide) rfl hr; exact .dash _
  | digit c t hc =>
    obtain ⟨t', rfl⟩ := repl_cons (P := Digit) (by unfold Digit; intro c; omega) hc hr; exact .digit _ _ hc

example : compile b!"a%{INT:ab c}" = .ok (.error { line := 1, column := 10, offset := 9, expected := [b!"[-]", b!"[a-z-A-Z0-9_.]", b!"}"] }) := by
  decide +kernel

/-- C68: Every entry of the `expected` set can come next: some continuation of the text before the offset that begins with the entry is
accepted.  Not proved for, and in general not true of, the entries called unreliable: `[-]`, a digit after a digit, and a quotation mark after a
quotation mark. -/
theorem C68_can_come_next_partial (s : Bytes) (hu : Utf8 s) (e : ParseError) (h : compile s = .ok (.error e)) (m : Bytes) (hm : m ∈ e.expected)
    (hr : ¬ Unreliable (s.take e.offset) m) : ∃ z toks, Utf8 z ∧ Begins m z ∧ compile (s.take e.offset ++ z) = .ok (.ok toks) := by
  obtain ⟨⟨r, pre, hs, hl, h1, h2⟩, z, es, hb, hne, hw⟩ := compile_completable hu h m hm
  have hp : s.take e.offset = pre := by rw [hs, hl]; simp
  rw [hp] at hb hr hw ⊢
  obtain ⟨z', h5, h6⟩ := repl_ascii z
  obtain ⟨es', h7, _, h8⟩ := written_repl hw ((Repl.refl pre).append h5)
  exact ⟨z', _, ascii_utf8 h6, repl_begins (hb.resolve_right hr) h5, written_compiles (utf8_append h1 (ascii_utf8 h6)) (h8 hne) h7⟩

theorem foldl_digits_le (d : Bytes) (a : Nat) : a ≤ d.foldl (fun n c => n * 10 + (c.toNat - 48)) a := by
  induction d generalizing a with
  | nil => exact Nat.le_refl _
  | cons c d ih => refine Nat.le_trans ?_ (ih _); show a ≤ a * 10 + (c.toNat - 48); omega

/-- C68, the full statement is false: after the largest number that fits in 64 bits another digit is expected, but every text that goes on with
a digit there makes the compiler panic. -/
theorem C68_can_come_next_refuted : ¬ ∀ (s : Bytes) (e : ParseError) (m : Bytes), Utf8 s → compile s = .ok (.error e) → m ∈ e.expected →
    ∃ z toks, Utf8 z ∧ Begins m z ∧ compile (s.take e.offset ++ z) = .ok (.ok toks) := by
  intro H
  obtain ⟨z, toks, hz, hb, hc⟩ := H b!"%{INT(min_len=18446744073709551615" { line := 1, column := 35, offset := 34, expected := [b!"[0-9]", b!",", b!")"] } b!"[0-9]"
    (ascii_utf8 (by decide)) (by decide +kernel) (by decide)
  obtain ⟨c, t, rfl, hd⟩ := names_digit.2 z hb
  have hd := (isDigitByte_iff c).mp hd
  obtain ⟨d, t, rfl, h1, h2⟩ := digit_run t
  have hn : Number (b!"18446744073709551615" ++ c :: d) (digitsValue (b!"18446744073709551615" ++ c :: d)) := by
    refine number_of_digits (by simp) ?_
    intro x hx
    rcases List.mem_append.mp hx with hx | hx
    · exact (isDigitByte_iff x).mp ((by decide : ∀ x ∈ b!"18446744073709551615", isDigit x = true) x hx)
    · rcases List.mem_cons.mp hx with rfl | hx
      · exact hd
      · exact (isDigitByte_iff x).mp (h1 x hx)
  have hv : 2 ^ 64 ≤ digitsValue (b!"18446744073709551615" ++ c :: d) := by
    rw [digitsValue, List.foldl_append, show List.foldl _ 0 b!"18446744073709551615" = 18446744073709551615 by decide, List.foldl_cons]
    exact Nat.le_trans (show 2 ^ 64 ≤ 18446744073709551615 * 10 + (c.toNat - 48) by omega) (foldl_digits_le _ _)
  have ho : Overflow ([] ++ b!"%{INT(" ++ (b!"min_len=" ++ (b!"18446744073709551615" ++ c :: d) ++ t)) :=
    .int [] [] _ .nil (.first _ ⟨_, _, t, hn, hv, fun x t' e hx => by have := h2 x t' e; rw [(isDigitByte_iff x).mpr hx] at this; simp at this, .inl rfl⟩)
  obtain ⟨p, hp⟩ := (compile_panic_iff (by simpa [List.append_assoc] using utf8_append (ascii_utf8 (s := b!"%{INT(min_len=18446744073709551615") (by decide)) hz)).mpr ho
  have e : (b!"%{INT(min_len=18446744073709551615").take 34 ++ (c :: (d ++ t)) =
      [] ++ b!"%{INT(" ++ (b!"min_len=" ++ (b!"18446744073709551615" ++ c :: d) ++ t) := by
    simp
  rw [e, hp] at hc
  simp at hc

/-- C68, the converse is false as well: the reported position need not be the first one at which the string goes wrong, and a text that can come
next need not be listed.  In `%{INT:ab-c}` the error is reported at `b`, and only `}` is expected there, although `%{INT:a` can go on with `c}`. -/
theorem C68_complete_refuted : ¬ ∀ (s z : Bytes) (e : ParseError) (toks : List Token), z ≠ [] → compile s = .ok (.error e) →
    compile (s.take e.offset ++ z) = .ok (.ok toks) → ∃ m ∈ e.expected, Begins m z := by
  intro H
  obtain ⟨m, hm, hb⟩ := H b!"%{INT:ab-c}" b!"c}" { line := 1, column := 8, offset := 7, expected := [b!"}"] }
    [.parser (.int { name := some b!"ac", characterSet := b!"0123456789", minLength := none, maxLength := none })]
    (by decide) (by decide +kernel) (by decide +kernel)
  obtain rfl := List.mem_singleton.mp hm
  have := begins_text (by decide) hb
  revert this; decide

end Verif
