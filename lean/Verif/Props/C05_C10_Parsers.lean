import Verif.Proofs.Parsers
/-! C05–C10: the parsers, /repo/src/parsers/*.rs. -/
namespace Verif
open Spec

/-- The parser built from `SET("set")` with limits `mn`, `mx`. -/
def mkSet (name : Option Bytes) (set : Bytes) (mn mx : Option Nat) : SetParser :=
  { SetParser.new name set with minLength := mn, maxLength := mx }

/-- The parser built from `INT` with limits `mn`, `mx`. -/
def mkInt (name : Option Bytes) (mn mx : Option Nat) : Parser :=
  .int { intDelegate name with minLength := mn, maxLength := mx }

theorem setMatch_congr {s s' : Bytes} (h : ∀ b, b ∈ s ↔ b ∈ s') {mn mx : Option Nat} {text v : Bytes} :
    SetMatch s mn mx text v ↔ SetMatch s' mn mx text v := by
  constructor
  · rintro ⟨h1, h2, h3, h4, h5, h6⟩
    exact ⟨h1, h2, fun b hb => (h b).mp (h3 b hb), fun b r e => mt (h b).mpr (h4 b r e), h5, h6⟩
  · rintro ⟨h1, h2, h3, h4, h5, h6⟩
    exact ⟨h1, h2, fun b hb => (h b).mpr (h3 b hb), fun b r e => mt (h b).mp (h4 b r e), h5, h6⟩

theorem mkSet_match (name : Option Bytes) (set : Bytes) (mn mx : Option Nat) (text v : Bytes) :
    ParserMatch (.set (mkSet name set mn mx)) text v ↔ SetMatch set mn mx text v :=
  setMatch_congr fun _ => mem_bsetFromIter

/-- C05: a SET parser returns `v` iff `v` is the maximal leading run of bytes of the set, non-empty and within the limits (and `v` ends on a
character boundary, which is what slicing requires); it returns `None` iff there is no such run. -/
theorem C05_set_parser (name : Option Bytes) (set : Bytes) (mn mx : Option Nat) (text : Bytes) :
    (∀ v, (mkSet name set mn mx).parse text = .ok (some v) ↔
      SetMatch set mn mx text v ∧ isCharBoundary text v.length = true) ∧
    ((mkSet name set mn mx).parse text = .ok none ↔ ¬∃ v, SetMatch set mn mx text v) := by
  refine ⟨fun v => ?_, ?_⟩
  · rw [← mkSet_match name]; exact setParse_some _ _ _
  · rw [setParse_none]
    apply not_congr
    exact exists_congr fun v => mkSet_match name set mn mx text v

/-- At most one value satisfies the specification, so C05 determines the result. -/
theorem C05_set_match_unique (set : Bytes) (mn mx : Option Nat) (text v w : Bytes)
    (h1 : SetMatch set mn mx text v) (h2 : SetMatch set mn mx text w) : v = w := setMatch_unique h1 h2

example : SetMatch b!"0123" (some 3) (some 7) b!"11230almafa" b!"11230" where
  isPrefix := by decide
  nonempty := by decide
  inSet := by decide
  maximal := by
    intro b rest h
    simp at h
    rw [← h.1]; decide
  atLeast := by intro n h; simp at h; subst h; decide
  atMost := by intro n h; simp at h; subst h; decide

theorem isDigit_iff (b : UInt8) : b ∈ intDigits ↔ IsDigit b := by
  unfold intDigits IsDigit
  simp only [List.mem_cons, List.not_mem_nil, or_false, ← UInt8.toNat_inj]
  simp
  omega

/-- C06: an INT parser never panics on a valid string and returns the maximal run of ASCII digits at the start of the text iff it is non-empty and
within the limits. -/
theorem C06_int_parser (name : Option Bytes) (mn mx : Option Nat) (text : Bytes) (ht : Utf8 text) :
    ∃ r, (mkInt name mn mx).parse text = .ok r ∧
      ∀ v, r = some v ↔
        (v <+: text ∧ v ≠ [] ∧ (∀ b ∈ v, IsDigit b) ∧ (∀ b rest, text = v ++ b :: rest → ¬IsDigit b) ∧
          (∀ n, mn = some n → n ≤ v.length) ∧ (∀ n, mx = some n → v.length ≤ n)) := by
  have hd : ∀ b, b ∈ (intDelegate name).characterSet ↔ IsDigit b := by
    intro b
    rw [← isDigit_iff]
    exact mem_bsetFromIter
  have ha : Ascii (intDelegate name).characterSet := by
    intro b hb
    have := (hd b).mp hb
    unfold IsDigit at this; omega
  obtain ⟨r, hr⟩ := setParse_no_panic { intDelegate name with minLength := mn, maxLength := mx } ha text ht
  refine ⟨r, hr, fun v => ?_⟩
  have h1 := setParse_some { intDelegate name with minLength := mn, maxLength := mx } text v
  rw [hr] at h1
  simp only [Except.ok.injEq] at h1
  rw [h1]
  constructor
  · rintro ⟨⟨a1, a2, a3, a4, a5, a6⟩, _⟩
    exact ⟨a1, a2, fun b hb => (hd b).mp (a3 b hb), fun b r e => mt (hd b).mpr (a4 b r e), a5, a6⟩
  · rintro ⟨a1, a2, a3, a4, a5, a6⟩
    refine ⟨⟨a1, a2, fun b hb => (hd b).mpr (a3 b hb), fun b r e => mt (hd b).mp (a4 b r e), a5, a6⟩, ?_⟩
    exact ascii_prefix_boundary a1 (fun b hb => by have := a3 b hb; unfold IsDigit at this; omega) ht

example : (mkInt none (some 2) none).parse b!"1234é" = .ok (some b!"1234") := by decide +kernel

/-- C07: GREEDY with end string `e` never panics and returns `v` iff `v` is followed by `e` and no shorter prefix of the text is; it returns `None`
iff `e` does not occur in the text. -/
theorem C07_greedy_with_end (name : Option Bytes) (e text : Bytes) (he : Utf8 e) (ht : Utf8 text) :
    ∃ r, (Parser.greedy ⟨name, some e⟩).parse text = .ok r ∧
      (∀ v, r = some v ↔ (∃ rest, text = v ++ e ++ rest) ∧
        ∀ v' rest', text = v' ++ e ++ rest' → v.length ≤ v'.length) ∧
      (r = none ↔ ∀ v rest, text ≠ v ++ e ++ rest) := by
  have hu : Utf8Parser (.greedy ⟨name, some e⟩) := by
    intro x hx; simp at hx; subst hx; exact he
  obtain ⟨r, hr⟩ := parse_total (p := .greedy ⟨name, some e⟩) trivial hu ht
  refine ⟨r, hr, fun v => ?_, ?_⟩
  · have := parse_some (.greedy ⟨name, some e⟩) text v
    rw [hr] at this
    simp only [Except.ok.injEq] at this
    rw [this]
    constructor
    · intro h; exact h.1
    · intro h
      have hm : ParserMatch (.greedy ⟨name, some e⟩) text v := h
      exact ⟨h, parserMatch_boundary hm trivial hu ht⟩
  · have := parse_none (.greedy ⟨name, some e⟩) text
    rw [hr] at this
    simp only [Except.ok.injEq] at this
    rw [this]
    constructor
    · intro h v rest hv
      apply h
      cases hf : strFind text e with
      | none => exact absurd (by rw [hv]; simp) (strFind_none hf v.length)
      | some i =>
        obtain ⟨hi, _⟩ := strFind_some hf
        exact ⟨text.take i, strFind_before.mpr ⟨by rw [hf]; simp [Nat.min_eq_left hi], List.take_prefix _ _⟩⟩
    · rintro h ⟨v, ⟨rest, hv⟩, _⟩
      exact h v rest hv

/-- C07: GREEDY without end string takes everything. -/
theorem C07_greedy_without_end (name : Option Bytes) (text : Bytes) :
    (Parser.greedy ⟨name, none⟩).parse text = .ok (some text) := rfl

example : (Parser.greedy ⟨none, some b!"foo"⟩).parse b!"qux foo bar foo" = .ok (some b!"qux ") := by decide +kernel
example : Utf8 b!"qux foo é" ∧ Utf8 b!"foo" := ⟨⟨"qux foo é".toList, by decide +kernel⟩, ⟨"foo".toList, by decide +kernel⟩⟩

/-- C08: with ASCII SET arguments no parser panics on a valid string, and the value and the remaining text are valid strings that together are the
text. -/
theorem C08_parsers_never_panic (p : Parser) (ha : AsciiParser p) (hu : Utf8Parser p) (text : Bytes) (ht : Utf8 text) :
    ∃ r, p.parse text = .ok r ∧
      ∀ v, r = some v → ∃ rest, text = v ++ rest ∧ Utf8 v ∧ Utf8 rest := by
  obtain ⟨r, hr⟩ := parse_total ha hu ht
  refine ⟨r, hr, ?_⟩
  rintro v rfl
  obtain ⟨h1, h2⟩ := (parse_some p text v).mp hr
  obtain ⟨rest, rfl⟩ := parserMatch_prefix h1
  refine ⟨rest, rfl, ?_⟩
  simpa using boundary_split ht h2

example : AsciiParser (.set (mkSet none b!"abc" none none)) ∧ Utf8Parser (.set (mkSet none b!"abc" none none)) :=
  ⟨by simp only [AsciiParser]; decide +kernel, trivial⟩

/-- C09 is false: the SET parser of `é` (bytes c3 a9) panics on the text `Ã` (bytes c3 83). -/
theorem C09_refuted : ¬ ∀ (name : Option Bytes) (set : Bytes) (mn mx : Option Nat) (text : Bytes), Utf8 set → Utf8 text →
    ∃ r, (mkSet name set mn mx).parse text = .ok r := by
  intro h
  obtain ⟨r, hr⟩ := h none b!"é" none none b!"Ã" ⟨['é'], by decide +kernel⟩ ⟨['Ã'], by decide +kernel⟩
  have : (mkSet none b!"é" none none).parse b!"Ã" = .error .slice := by decide +kernel
  rw [this] at hr; simp at hr

/-- C09, what holds: no panic if the set is ASCII, or if the text is ASCII.  Missing: non-ASCII sets on non-ASCII texts, where the code does panic
(`C09_refuted`). -/
theorem C09_set_never_panics_partial (name : Option Bytes) (set : Bytes) (mn mx : Option Nat) (text : Bytes)
    (ht : Utf8 text) (h : Ascii set ∨ Ascii text) : ∃ r, (mkSet name set mn mx).parse text = .ok r := by
  rcases h with h | h
  · exact setParse_no_panic _ (fun b hb => h b (mem_bsetFromIter.mp hb)) text ht
  · exact parse_total_ascii (.set (mkSet name set mn mx)) h

/-- C09, exact condition: the parser panics iff the maximal run is within the limits but ends inside a character. -/
theorem C09_panic_iff (name : Option Bytes) (set : Bytes) (mn mx : Option Nat) (text : Bytes) :
    (mkSet name set mn mx).parse text = .error .slice ↔
      ∃ v, SetMatch set mn mx text v ∧ isCharBoundary text v.length = false := by
  constructor
  · intro h
    by_cases hv : ∃ v, SetMatch set mn mx text v
    · obtain ⟨v, hv⟩ := hv
      refine ⟨v, hv, ?_⟩
      cases hb : isCharBoundary text v.length with
      | false => rfl
      | true =>
        have := ((C05_set_parser name set mn mx text).1 v).mpr ⟨hv, hb⟩
        rw [h] at this; simp at this
    · have := ((C05_set_parser name set mn mx text).2).mpr hv
      rw [h] at this; simp at this
  · rintro ⟨v, hv, hb⟩
    cases hr : (mkSet name set mn mx).parse text with
    | ok r =>
      cases r with
      | none => exact absurd ⟨v, hv⟩ (((C05_set_parser name set mn mx text).2).mp hr)
      | some w =>
        obtain ⟨h1, h2⟩ := ((C05_set_parser name set mn mx text).1 w).mp hr
        rw [setMatch_unique hv h1, h2] at hb; simp at hb
    | error e =>
      unfold SetParser.parse at hr
      simp only at hr
      split at hr
      · unfold sliceTo at hr
        split at hr
        · rename_i hs
          split at hs
          · simp at hs
          · simp at hs; rw [← hr, hs]
        · simp at hr
      · simp at hr

/-- What the regular expression `[set]{mn,mx}` matches at the start of `text` (leftmost-longest). -/
structure RegexMatch (set : Bytes) (mn mx : Nat) (text v : Bytes) : Prop where
  isPrefix : v <+: text
  inSet : ∀ b ∈ v, b ∈ set
  lower : mn ≤ v.length
  upper : v.length ≤ mx
  longest : ∀ w, w <+: text → (∀ b ∈ w, b ∈ set) → mn ≤ w.length → w.length ≤ mx → w.length ≤ v.length

/-- C10 is false: `%{SET("abcd",min_len=1,max_len=2)}` does not match `abc`, `[abcd]{1,2}` matches `ab`. -/
theorem C10_refuted : ¬ ∀ (name : Option Bytes) (set : Bytes) (mn mx : Nat) (text v : Bytes), Ascii set → Ascii text →
    ((mkSet name set (some mn) (some mx)).parse text = .ok (some v) ↔ RegexMatch set mn mx text v) := by
  intro h
  have h := (h none b!"abcd" 1 2 b!"abc" b!"ab" (by decide) (by decide)).mpr
    ⟨by decide, by decide, by decide, by decide, fun w _ _ _ h => h⟩
  have : (mkSet none b!"abcd" (some 1) (some 2)).parse b!"abc" = .ok none := by decide +kernel
  rw [this] at h; simp at h

/-- C10, what holds: SET and the regular expression agree if the lower limit is at least 1 and the text does not start with more than `mx` characters of
the set.  Missing: longer runs (SET fails, the expression takes the first `mx`) and empty matches (`mn = 0`). -/
theorem C10_set_is_regex_partial (name : Option Bytes) (set : Bytes) (mn mx : Nat) (text v : Bytes) (hs : Ascii set)
    (ht : Utf8 text) (hmn : 1 ≤ mn) (hrun : ∀ w, w <+: text → (∀ b ∈ w, b ∈ set) → w.length ≤ mx) :
    (mkSet name set (some mn) (some mx)).parse text = .ok (some v) ↔ RegexMatch set mn mx text v := by
  rw [(C05_set_parser name set (some mn) (some mx) text).1 v]
  constructor
  · rintro ⟨⟨h1, h2, h3, h4, h5, h6⟩, _⟩
    refine ⟨h1, h3, h5 mn rfl, h6 mx rfl, ?_⟩
    intro w hw hws _ _
    apply Nat.le_of_not_lt
    intro hlt
    obtain ⟨r, hr⟩ := hw
    obtain ⟨r', hr'⟩ := h1
    -- w extends v by at least one byte, which is then in the set
    have hvw : v <+: w := List.prefix_of_prefix_length_le ⟨r', hr'⟩ ⟨r, hr⟩ (Nat.le_of_lt hlt)
    obtain ⟨x, hx⟩ := hvw
    cases x with
    | nil => simp at hx; subst hx; omega
    | cons b x =>
      refine h4 b (x ++ r) (by rw [← hr, ← hx]; simp) (hws b (by rw [← hx]; simp))
  · rintro ⟨h1, h3, h5, h6, h7⟩
    refine ⟨⟨h1, ?_, h3, ?_, ?_, ?_⟩, ascii_prefix_boundary h1 (fun b hb => hs b (h3 b hb)) ht⟩
    · rintro rfl; simp at h5; omega
    · intro b rest hb hbs
      have hp : v ++ [b] <+: text := ⟨rest, by rw [hb]; simp⟩
      have hin : ∀ x ∈ v ++ [b], x ∈ set := by
        intro x hx
        rw [List.mem_append] at hx
        rcases hx with hx | hx
        · exact h3 x hx
        · simp at hx; rw [hx]; exact hbs
      have := h7 (v ++ [b]) hp hin (by simp; omega) (hrun _ hp hin)
      simp at this; omega
    · intro n hn; simp at hn; omega
    · intro n hn; simp at hn; omega

theorem takeWhile_set (set text : Bytes) : (text.takeWhile fun b => decide (b ∈ set)) <+: text ∧
    (∀ b ∈ text.takeWhile fun b => decide (b ∈ set), b ∈ set) ∧
    ∀ w, w <+: text → (∀ b ∈ w, b ∈ set) → w <+: text.takeWhile fun b => decide (b ∈ set) := by
  refine ⟨List.takeWhile_prefix _, ?_, ?_⟩
  · intro b hb
    have := List.all_takeWhile (l := text) (p := fun b => decide (b ∈ set))
    rw [List.all_eq_true] at this
    simpa using this b hb
  · induction text with
    | nil => intro w hw _; simpa using hw
    | cons c text ih =>
      intro w hw hs
      cases w with
      | nil => exact List.nil_prefix
      | cons d w =>
        obtain ⟨rfl, hw'⟩ := List.cons_prefix_cons.mp hw
        rw [List.takeWhile_cons, if_pos (by simpa using hs d (by simp))]
        exact List.cons_prefix_cons.mpr ⟨rfl, ih w hw' (fun b hb => hs b (by simp [hb]))⟩

/-- C10, exactly when the two agree: if the run of characters of the set at the beginning of the text has `k` characters, SET and the expression
accept the same value (or both fail) iff `k < mn`, or no length is allowed at all, or `1 ≤ k ≤ mx`. -/
theorem C10_agree_iff (name : Option Bytes) (set : Bytes) (mn mx : Nat) (text run : Bytes) (hs : Ascii set) (ht : Utf8 text)
    (hrun : run <+: text) (hin : ∀ b ∈ run, b ∈ set) (hmax : ∀ w, w <+: text → (∀ b ∈ w, b ∈ set) → w.length ≤ run.length) :
    (∀ v, (mkSet name set (some mn) (some mx)).parse text = .ok (some v) ↔ RegexMatch set mn mx text v) ↔
    run.length < mn ∨ mx < mn ∨ (1 ≤ run.length ∧ run.length ≤ mx) := by
  have hset : ∀ v, (mkSet name set (some mn) (some mx)).parse text = .ok (some v) ↔
      v = run ∧ 1 ≤ run.length ∧ mn ≤ run.length ∧ run.length ≤ mx := by
    intro v
    rw [(C05_set_parser name set (some mn) (some mx) text).1 v]
    constructor
    · rintro ⟨⟨h1, h2, h3, h4, h5, h6⟩, _⟩
      have hv : v = run := by
        have hvr : v <+: run := List.prefix_of_prefix_length_le h1 hrun (hmax v h1 h3)
        obtain ⟨x, hx⟩ := hvr
        cases x with
        | nil => simpa using hx
        | cons b x =>
          obtain ⟨r, hr⟩ := hrun
          exact absurd (hin b (by rw [← hx]; simp)) (h4 b (x ++ r) (by rw [← hr, ← hx]; simp))
      subst hv
      exact ⟨rfl, List.length_pos_iff.mpr h2, h5 mn rfl, h6 mx rfl⟩
    · rintro ⟨rfl, h1, h2, h3⟩
      refine ⟨⟨hrun, List.length_pos_iff.mp h1, hin, ?_, ?_, ?_⟩, ascii_prefix_boundary hrun (fun b hb => hs b (hin b hb)) ht⟩
      · intro b rest hb hbs
        have := hmax (v ++ [b]) ⟨rest, by rw [hb]; simp⟩ (by
          intro x hx
          rw [List.mem_append] at hx
          rcases hx with hx | hx
          · exact hin x hx
          · simp at hx; rw [hx]; exact hbs)
        simp at this
        omega
      · intro n hn; simp at hn; omega
      · intro n hn; simp at hn; omega
  have hre : ∀ v, RegexMatch set mn mx text v ↔ v = run.take mx ∧ mn ≤ run.length ∧ mn ≤ mx := by
    intro v
    have htake : run.take mx <+: text := (List.take_prefix mx run).trans hrun
    have htin : ∀ b ∈ run.take mx, b ∈ set := fun b hb => hin b (List.mem_of_mem_take hb)
    constructor
    · rintro ⟨h1, h3, h5, h6, h7⟩
      have hl := hmax v h1 h3
      have := h7 (run.take mx) htake htin (by rw [List.length_take]; omega) (by rw [List.length_take]; omega)
      refine ⟨?_, by omega, by omega⟩
      refine (List.prefix_of_prefix_length_le h1 htake (by rw [List.length_take]; omega)).eq_of_length ?_
      rw [List.length_take] at this ⊢
      omega
    · rintro ⟨rfl, h1, h2⟩
      refine ⟨htake, htin, by rw [List.length_take]; omega, by rw [List.length_take]; omega, ?_⟩
      intro w hw hws _ hwm
      have := hmax w hw hws
      rw [List.length_take]; omega
  constructor
  · intro h
    have h' : ∀ v, (v = run ∧ 1 ≤ run.length ∧ mn ≤ run.length ∧ run.length ≤ mx) ↔ (v = run.take mx ∧ mn ≤ run.length ∧ mn ≤ mx) :=
      fun v => (hset v).symm.trans ((h v).trans (hre v))
    by_cases c : mn ≤ run.length ∧ mn ≤ mx
    · have := (h' (run.take mx)).mpr ⟨rfl, c⟩
      omega
    · omega
  · intro h v
    rw [hset, hre]
    constructor
    · rintro ⟨rfl, h1, h2, h3⟩
      exact ⟨by rw [List.take_of_length_le h3], h2, by omega⟩
    · rintro ⟨rfl, h1, h2⟩
      have : 1 ≤ run.length ∧ run.length ≤ mx := by omega
      rw [List.take_of_length_le this.2]
      exact ⟨rfl, this.1, h1, this.2⟩

/-- Such a run exists for every set and text. -/
theorem run_exists (set text : Bytes) : ∃ run, run <+: text ∧ (∀ b ∈ run, b ∈ set) ∧ ∀ w, w <+: text → (∀ b ∈ w, b ∈ set) → w.length ≤ run.length :=
  ⟨_, (takeWhile_set set text).1, (takeWhile_set set text).2.1, fun w h h' => ((takeWhile_set set text).2.2 w h h').length_le⟩

example : (∀ w, w <+: b!"ab!" → (∀ b ∈ w, b ∈ b!"abcd") → w.length ≤ 2) ∧
    (mkSet none b!"abcd" (some 1) (some 2)).parse b!"ab!" = .ok (some b!"ab") := by
  refine ⟨?_, by decide +kernel⟩
  intro w hw hs
  have := hw.length_le
  apply Nat.le_of_not_lt
  intro h
  have hl : w.length = 3 := by simp at this; omega
  have e := List.prefix_iff_eq_take.mp hw
  rw [hl] at e
  have := hs 33 (by rw [e]; decide)
  simp at this

end Verif
