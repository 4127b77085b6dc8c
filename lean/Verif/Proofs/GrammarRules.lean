import Verif.Proofs.GrammarBase
/-! Every outcome of the rules up to parser names, strings, literals and numbers. -/
namespace Verif
open Spec

variable {V : Nat → Bytes → Prop} {inp rest : Bytes} {p : Nat}

theorem isIdentStart_iff (c : UInt8) : isIdentStart c = true ↔ NameStart c := by
  simp [isIdentStart, NameStart, or_assoc]

theorem isDigitByte_iff (c : UInt8) : isDigit c = true ↔ Digit c := by
  simp [isDigit, Digit]

theorem isIdentChar_iff (c : UInt8) : isIdentChar c = true ↔ NameChar c := by
  simp only [isIdentChar, NameChar, Bool.or_eq_true, isIdentStart_iff, isDigitByte_iff, decide_eq_true_eq]
  constructor
  · rintro ((h | h) | h)
    · exact .inl h
    · exact .inr (.inr h)
    · exact .inr (.inl h)
  · rintro (h | h | h)
    · exact .inl (.inl h)
    · exact .inr h
    · exact .inl (.inr h)

theorem digit_ascii {c : UInt8} (h : Digit c) : c.toNat < 128 := by unfold Digit at h; omega
theorem nameStart_ascii {c : UInt8} (h : NameStart c) : c.toNat < 128 := by
  rcases h with h | h | rfl | rfl
  · omega
  · omega
  · decide
  · decide
theorem nameChar_ascii {c : UInt8} (h : NameChar c) : c.toNat < 128 := by
  rcases h with h | h | rfl
  · exact nameStart_ascii h
  · exact digit_ascii h
  · decide

theorem identStart_class : AsciiClass isIdentStart := fun b h => nameStart_ascii ((isIdentStart_iff b).mp h)
theorem identChar_class : AsciiClass isIdentChar := fun b h => nameChar_ascii ((isIdentChar_iff b).mp h)
theorem digit_class : AsciiClass isDigit := fun b h => digit_ascii ((isDigitByte_iff b).mp h)
theorem dash_class : AsciiClass (· = (45 : UInt8)) := by
  intro b h
  simp at h; subst h; decide

theorem name_ascii {n : Bytes} (h : Name n) : Ascii n := by
  cases h with
  | mk c t h1 h2 h3 => exact ascii_cons.mpr ⟨nameStart_ascii h1, fun x hx => nameChar_ascii (h2 x hx)⟩

theorem number_spec {d : Bytes} {n : Nat} (h : Number d n) : d ≠ [] ∧ (∀ x ∈ d, Digit x) ∧ digitsValue d = n := by
  induction h with
  | one c hc => exact ⟨by simp, by simpa using hc, by simp [digitsValue]⟩
  | snoc d n c _ hc ih =>
    refine ⟨by simp, ?_, ?_⟩
    · intro x hx
      simp at hx
      rcases hx with hx | rfl
      · exact ih.2.1 x hx
      · exact hc
    · have h2 := ih.2.2
      simp only [digitsValue, List.foldl_append, List.foldl_cons, List.foldl_nil] at h2 ⊢
      rw [h2]; omega

theorem list_snoc_cases {α : Type} (l : List α) : l = [] ∨ ∃ l' x, l = l' ++ [x] := by
  cases h : l.reverse with
  | nil => exact .inl (by simpa using h)
  | cons x t => exact .inr ⟨t.reverse, x, by rw [← List.reverse_reverse l, h]; simp⟩

theorem number_of_digits {d : Bytes} (h : d ≠ []) (hd : ∀ x ∈ d, Digit x) : Number d (digitsValue d) := by
  generalize hn : d.length = n
  induction n generalizing d with
  | zero => exact absurd (List.eq_nil_of_length_eq_zero hn) h
  | succ n ih =>
    rcases list_snoc_cases d with rfl | ⟨l, x, rfl⟩
    · exact absurd rfl h
    · by_cases hl : l = []
      · subst hl
        have hv : digitsValue ([] ++ [x]) = x.toNat - 48 := by simp [digitsValue]
        rw [hv]; exact .one x (hd x (by simp))
      · have := ih hl (fun y hy => hd y (by simp [hy])) (by simp at hn; omega)
        have h2 := Number.snoc l _ x this (hd x (by simp))
        have hv : digitsValue (l ++ [x]) = 10 * digitsValue l + (x.toNat - 48) := by
          simp only [digitsValue, List.foldl_append, List.foldl_cons, List.foldl_nil]; omega
        rw [hv]; exact h2

theorem number_ascii {d : Bytes} {n : Nat} (h : Number d n) : Ascii d := fun x hx => digit_ascii ((number_spec h).2.1 x hx)

/-! ### Keywords and names -/

theorem keyword_sat (h : At inp p rest) {m : Bytes} (hm : Ascii m) (hV : V p m) :
    Sat V ((sliceEq m).action fun s _ => .ok s) inp p rest (fun w v _ => w = m ∧ v = m) (¬ m <+: rest) False :=
  action_sat h (sliceEq_sat h hm fun _ => hV) (by intro w _ r _ _ hw; exact ⟨hw, hw⟩)

/-- The text does not start with a dash. -/
def NoDash (r : Bytes) : Prop := ∀ c t, r = c :: t → c ≠ 45

theorem identStep_sat (h : At inp p rest) (hV : V p b!"[a-z-A-Z0-9_.]")
    (hV1 : ∀ b r, rest = b :: r → NameChar b → NoDash r → V (p + 1) b!"[-]") :
    Sat V identStep inp p rest (fun w _ r => ∃ b, w = [b] ∧ NameChar b ∧ NoDash r) True False := by
  refine seq_sat h (charClass_sat h identChar_class (fun _ => hV)) (fun _ => trivial) ?_
  rintro _ _ r rfl _ hat ⟨b, rfl, hb⟩
  rw [isIdentChar_iff] at hb
  refine (notP_sat (charClass_sat hat dash_class ?_)).mono ?_ (fun _ => trivial) id
  · intro hn
    refine hV1 b r rfl hb ?_
    intro c t e
    simpa using hn c t e
  · rintro w v r' rfl _ ⟨rfl, hn⟩
    refine ⟨b, by simp, hb, ?_⟩
    intro c t e
    simpa using hn c t (by simpa using e)

theorem parseIdentifier_sat (h : At inp p rest) (hV : VOn V p rest Name) :
    Sat V parseIdentifier inp p rest (fun w v _ => v = w ∧ Name w) True False := by
  have hV0 : V p b!"[a-zA-Z_.]" := hV.here ⟨b!"a", .nameStart 97 [] (by simp [NameStart]), .mk 97 [] (by simp [NameStart]) (by simp) (by simp)⟩
  refine action_sat (L1 := fun w _ _ => Name w) h ?_ (by intro w _ r _ _ hw; exact ⟨rfl, hw⟩)
  refine seq_sat h (charClass_sat h identStart_class (fun _ => hV0)) (fun _ => trivial) ?_
  rintro _ _ r0 rfl _ hat ⟨c, rfl, hc⟩
  rw [isIdentStart_iff] at hc
  have hname : ∀ w0, (∀ x ∈ w0, NameChar x) → (∀ x ∈ w0.tail, x ≠ 45) → Name (c :: w0) := fun w0 h1 h2 => .mk c w0 hc h1 h2
  refine (star_sat (Inv := fun w0 _ r => (∀ x ∈ w0, NameChar x) ∧ (∀ x ∈ w0.tail, x ≠ 45) ∧ (w0 ≠ [] → NoDash r)) (Done := fun _ _ _ => True) hat
    ⟨by simp, by simp, by simp⟩ ?_).mono (fun w vs r _ _ hw => hname w hw.1.1 hw.1.2.1) id id
  rintro w0 vs0 r rfl hu hat' ⟨i1, i2, i3⟩
  have ext : ∀ b r', r = b :: r' → NameChar b → (∀ x ∈ (w0 ++ [b]), NameChar x) ∧ (∀ x ∈ (w0 ++ [b]).tail, x ≠ 45) := by
    intro b r' e hb
    refine ⟨?_, ?_⟩
    · intro x hx
      simp at hx
      rcases hx with hx | rfl
      · exact i1 x hx
      · exact hb
    · intro x hx
      cases w0 with
      | nil => simp at hx
      | cons y t =>
        simp at hx i2
        rcases hx with hx | rfl
        · exact i2 x hx
        · exact i3 (by simp) x r' e
  refine (identStep_sat hat' ?_ ?_).mono ?_ (fun _ => trivial) id
  · have := hV ([c] ++ w0) r b!"[a-z-A-Z0-9_.]" b!"a" (by simp)
      (utf8_append (ascii_utf8 (ascii_cons.mpr ⟨nameStart_ascii hc, ascii_nil⟩)) hu) (.inl (.nameChar 97 [] (.inl (by simp [NameStart]))))
      (by
        have hname' := hname (w0 ++ b!"a") (by
          intro x hx
          simp at hx
          rcases hx with hx | rfl
          · exact i1 x hx
          · exact .inl (by simp [NameStart])) (by
          intro x hx
          cases w0 with
          | nil => simp at hx
          | cons y t =>
            simp at hx i2
            rcases hx with hx | rfl
            · exact i2 x hx
            · decide)
        simpa using hname')
    simpa [Nat.add_assoc, Nat.add_comm, Nat.add_left_comm] using this
  · rintro b r' rfl hb hd
    obtain ⟨e1, e2⟩ := ext b r' rfl hb
    have := hV ([c] ++ (w0 ++ [b])) r' b!"[-]" [] (by simp)
      (utf8_append (ascii_utf8 (ascii_cons.mpr ⟨nameStart_ascii hc, ascii_nil⟩))
        (utf8_append hu (ascii_utf8 (ascii_cons.mpr ⟨nameChar_ascii hb, ascii_nil⟩)))) (.inr (.inl rfl)) (by simpa using hname _ e1 e2)
    simpa [Nat.add_assoc, Nat.add_comm, Nat.add_left_comm] using this
  · rintro w v r' rfl _ ⟨b, rfl, hb, hd⟩
    obtain ⟨e1, e2⟩ := ext b r' rfl hb
    exact ⟨by simp, e1, e2, fun _ => hd⟩

theorem name_a : Name b!"a" := .mk 97 [] (by simp [NameStart]) (by simp) (by simp)

theorem parseParserName_sat (h : At inp p rest) (hV : VOn V p rest (fun y => ∃ n, NameText n y)) :
    Sat V parseParserName inp p rest (fun w v _ => NameText (some v) w) True False := by
  have hV0 : V p b!":" := hV.text (by decide) ⟨b!"a", _, .some b!"a" name_a⟩
  refine action_sat (L1 := fun w v _ => NameText (some v) w) h ?_ (by intro w _ r _ _ hw; exact hw)
  refine seq_sat h (sliceEq_sat h (by decide) (fun _ => hV0)) (fun _ => trivial) ?_
  rintro _ _ r rfl hu hat rfl
  refine (parseIdentifier_sat hat ((hV.after hu).mono ?_)).mono ?_ id id
  · intro y hy
    exact ⟨[], some y, by simpa using NameText.some y hy⟩
  · rintro w v r' _ _ ⟨rfl, hw⟩
    exact .some _ hw

theorem parserNameOpt_sat (h : At inp p rest) (hV : VOn V p rest (fun y => ∃ n, NameText n y)) :
    Sat V parseParserName.opt inp p rest (fun w v _ => NameText v w) False False := by
  refine (opt_sat (parseParserName_sat h hV)).mono ?_ id id
  rintro w v r _ _ (⟨rfl, rfl, _⟩ | ⟨u, rfl, hw⟩)
  · exact .none
  · exact hw

/-! ### Literal text -/

/-- The text contains no `%{`. -/
def NoBegin (w : Bytes) : Prop := ¬ b!"%{" <:+: w

/-- The text is empty or starts with `%{`. -/
def Stop (r : Bytes) : Prop := r = [] ∨ b!"%{" <+: r

theorem noBegin_of {w r : Bytes} (h : ∀ i < w.length, ¬ b!"%{" <+: (w ++ r).drop i) : NoBegin w := by
  rintro ⟨s, t, e⟩
  refine h s.length ?_ ?_
  · rw [← e]; simp
  · rw [← e]; simp

/-- `V` holds of the two entries that are recorded inside literal text. -/
def LitOn (V : Nat → Bytes → Prop) (p : Nat) (rest : Bytes) : Prop :=
  ∀ x r, rest = x ++ r → Utf8 x → NoBegin x → V (p + x.length) b!"%{" ∧ V (p + x.length) b!"<character>"

theorem literalStep_sat (h : At inp p rest) (hV : ¬ b!"%{" <+: rest → V p b!"%{" ∧ V p b!"<character>") :
    Sat V literalStep inp p rest
      (fun w _ _ => ∃ b tl, w = b :: tl ∧ (∀ x ∈ tl, 128 ≤ x.toNat) ∧ (b.toNat < 128 → tl = []) ∧ ¬ b!"%{" <+: rest) (Stop rest) False := by
  refine seq_sat h (notP_sat (sliceEq_sat h (by decide) fun hn => (hV hn).1)) ?_ ?_
  · rintro ⟨w, _, r, rfl, rfl⟩
    exact .inr ⟨r, rfl⟩
  · rintro w _ r rfl _ hat ⟨rfl, hn⟩
    refine (anyChar_sat hat ?_).mono ?_ ?_ id
    · intro _; exact (hV hn).2
    · rintro w v r' _ _ ⟨b, tl, rfl, h1, h2⟩
      exact ⟨b, tl, by simp, h1, h2, hn⟩
    · rintro rfl; exact .inl rfl

theorem parseLiteral_sat (h : At inp p rest) (hV : ¬ b!"%{" <+: rest → LitOn V p rest) :
    Sat V parseLiteral inp p rest (fun w v r => v = w ∧ w ≠ [] ∧ NoBegin w ∧ Stop r ∧ ¬ b!"%{" <+: rest) (Stop rest) False := by
  refine action_sat (L1 := fun w _ r => w ≠ [] ∧ NoBegin w ∧ Stop r ∧ ¬ b!"%{" <+: rest) h ?_ (by intro w _ r _ _ hw; exact ⟨rfl, hw⟩)
  refine (plus_sat (Inv := fun w0 vs r => (∀ i < w0.length, ¬ b!"%{" <+: rest.drop i) ∧ (vs = [] ↔ w0 = [])) (Done := fun _ _ r => Stop r) h
    ⟨by simp, by simp⟩ ?_).mono ?_ ?_ id
  · rintro w0 vs0 r rfl hu hat ⟨i1, i2⟩
    refine (literalStep_sat hat ?_).mono ?_ id id
    · intro hn
      have hnr : ¬ b!"%{" <+: w0 ++ r := by
        by_cases hw : w0 = []
        · subst hw; exact hn
        · exact i1 0 (List.length_pos_iff.mpr hw)
      exact hV hnr w0 r rfl hu (noBegin_of i1)
    · rintro w v r' rfl _ ⟨b, tl, rfl, h1, h2, h3⟩
      refine ⟨by simp, ?_, by simp⟩
      intro i hi
      by_cases hlt : i < w0.length
      · exact i1 i hlt
      · rw [List.drop_append, List.drop_eq_nil_of_le (by omega), List.nil_append]
        by_cases he : i = w0.length
        · subst he; simpa using h3
        · intro hp
          have h5 : i - w0.length < (b :: tl).length := by simp at hi ⊢; omega
          obtain ⟨k, hk⟩ : ∃ k, i - w0.length = k + 1 := ⟨i - w0.length - 1, by omega⟩
          rw [hk] at hp h5
          simp only [List.cons_append, List.drop_succ_cons] at hp
          have h6 : k < tl.length := by simpa using h5
          rw [List.drop_append_of_le_length (by omega), List.drop_eq_getElem_cons h6] at hp
          rw [List.cons_append, List.cons_prefix_cons] at hp
          have := h1 tl[k] (List.getElem_mem _)
          rw [← hp.1] at this
          revert this; decide
  · rintro w vs r rfl _ ⟨h1, ⟨h2, h3⟩, h4⟩
    have hw : w ≠ [] := fun e => h1 (h3.mpr e)
    exact ⟨hw, noBegin_of h2, h4, h2 0 (List.length_pos_iff.mpr hw)⟩
  · rintro ⟨w, r, rfl, ⟨_, h3⟩, h4⟩
    have : w = [] := h3.mp rfl
    subst this; exact h4

/-! ### Quoted strings -/

theorem quotedStep_sat (h : At inp p rest) (hV : V p b!"\"" ∧ V p b!"<character>") :
    Sat V quotedStep inp p rest (fun w _ _ => ∃ b tl, w = b :: tl ∧ (∀ x ∈ tl, 128 ≤ x.toNat) ∧ b ≠ 34) True False := by
  refine seq_sat h (notP_sat (sliceEq_sat h (by decide) fun _ => hV.1)) (fun _ => trivial) ?_
  rintro w _ r rfl _ hat ⟨rfl, hn⟩
  refine (anyChar_sat hat (fun _ => hV.2)).mono ?_ (fun _ => trivial) id
  rintro w v r' rfl _ ⟨b, tl, rfl, h1, h2⟩
  refine ⟨b, tl, by simp, h1, ?_⟩
  rintro rfl
  exact hn ⟨tl ++ r', by simp⟩

theorem parseQuoted_sat (h : At inp p rest) (hV : ∀ x r, rest = x ++ r → Utf8 x → 34 ∉ x → V (p + x.length) b!"\"" ∧ V (p + x.length) b!"<character>") :
    Sat V parseQuoted inp p rest (fun w v _ => v = w ∧ w ≠ [] ∧ 34 ∉ w) True False := by
  refine action_sat (L1 := fun w _ _ => w ≠ [] ∧ 34 ∉ w) h ?_ (by intro w _ r _ _ hw; exact ⟨rfl, hw⟩)
  refine (plus_sat (Inv := fun w0 vs r => 34 ∉ w0 ∧ (vs = [] ↔ w0 = [])) (Done := fun _ _ r => True) h ⟨by simp, by simp⟩ ?_).mono ?_
    (fun _ => trivial) id
  · rintro w0 vs0 r rfl hu hat ⟨i1, i2⟩
    refine (quotedStep_sat hat (hV w0 r rfl hu i1)).mono ?_ id id
    rintro w v r' rfl _ ⟨b, tl, rfl, h1, h2⟩
    refine ⟨by simp, ?_, by simp⟩
    simp only [List.mem_append, List.mem_cons, not_or]
    refine ⟨i1, fun e => h2 e.symm, fun hm => ?_⟩
    have := h1 34 hm
    revert this; decide
  · rintro w vs r _ _ ⟨h1, ⟨h2, h3⟩, _⟩
    exact ⟨fun e => h1 (h3.mpr e), h2⟩

/-- A quoted string. -/
def Quoted (v y : Bytes) : Prop := v ≠ [] ∧ 34 ∉ v ∧ y = b!"\"" ++ v ++ b!"\""

theorem parseString_sat (h : At inp p rest) (hV : VOn V p rest (fun y => ∃ v, Quoted v y)) :
    Sat V parseString inp p rest (fun w v _ => Quoted v w) True False := by
  have hV0 : V p b!"\"" := hV.text (by decide) ⟨b!"a\"", b!"a", by simp, by decide, rfl⟩
  refine action_sat (L1 := fun w v _ => Quoted v w) h ?_ (by intro w _ r _ _ hw; exact hw)
  refine seq_sat h (sliceEq_sat h (by decide) (fun _ => hV0)) (fun _ => trivial) ?_
  rintro _ _ r rfl hu hat rfl
  have hVa := hV.after hu
  refine seq_sat hat (parseQuoted_sat hat ?_) (fun _ => trivial) ?_
  · rintro x r1 rfl hx hq
    constructor
    · by_cases he : x = []
      · subst he
        have := hV b!"\"" r1 b!"\"" b!"a\"" (by simp) hu (.inr (.inr (.inr ⟨rfl, [], rfl⟩))) ⟨b!"a", by simp, by decide, rfl⟩
        simpa using this
      · exact hVa x r1 _ b!"\"" rfl hx (.inl (.text b!"\"" [] (by decide))) ⟨x, he, hq, by simp⟩
    · refine hVa x r1 _ b!"a\"" rfl hx (.inl (.character 97 _)) ⟨x ++ b!"a", by simp, ?_, by simp⟩
      simp [hq]
  rintro w s r1 rfl hu1 hat1 ⟨e, h1, h2⟩
  subst e
  refine seq_sat hat1 (sliceEq_sat hat1 (by decide) ?_) (fun _ => trivial) ?_
  · intro _
    exact (hVa.after hu1).text (by decide) ⟨[], s, h1, h2, by simp⟩
  rintro _ _ r2 rfl hu2 hat2 rfl
  exact pure_sat _ ⟨h1, h2, by simp⟩

/-! ### Commas and numbers -/

theorem comma_nil : Comma b!"," := ⟨0, rfl⟩

theorem comma_ascii {c : Bytes} (h : Comma c) : Ascii c := by
  obtain ⟨k, rfl⟩ := h
  refine ascii_cons.mpr ⟨by decide, ?_⟩
  intro x hx
  rw [List.mem_replicate] at hx
  rw [hx.2]; decide

theorem parseComma_sat (h : At inp p rest) (hV : VOn V p rest Comma) :
    Sat V parseComma inp p rest (fun w _ _ => Comma w) True False := by
  have hV0 : V p b!"," := hV.text (by decide) ⟨[], comma_nil⟩
  refine seq_sat h (sliceEq_sat h (by decide) (fun _ => hV0)) (fun _ => trivial) ?_
  rintro _ _ r rfl hu hat rfl
  have hVa := hV.after hu
  refine (star_sat (Inv := fun w0 _ _ => ∃ k, w0 = List.replicate k 32) (Done := fun _ _ _ => True) hat ⟨0, rfl⟩ ?_).mono ?_ id id
  · rintro w0 vs0 r1 rfl hu1 hat1 ⟨k, rfl⟩
    refine (sliceEq_sat hat1 (by decide) ?_).mono ?_ (fun _ => trivial) id
    · intro _
      exact hVa _ r1 b!" " b!" " rfl hu1 (.inl (.text b!" " [] (by decide))) ⟨k + 1, by rw [List.replicate_succ']; simp⟩
    · rintro w _ r' rfl _ rfl
      exact ⟨by simp, k + 1, by rw [List.replicate_succ']⟩
  · rintro w vs r' _ _ ⟨⟨k, rfl⟩, _⟩
    exact ⟨k, rfl⟩

theorem loop_class {cls : UInt8 → Bool} (ha : AsciiClass cls) (name : Bytes) {d t : Bytes} (hd : ∀ x ∈ d, cls x = true)
    (ht : ∀ c t', t = c :: t' → cls c = false) : ∀ {p : Nat}, At inp p (d ++ t) → ∀ st,
    (charClass cls name).loop inp st p = .ok (p + d.length, List.replicate d.length (), st.markFailure (p + d.length) name) := by
  induction d with
  | nil =>
    intro p h st
    rw [Rule.loop, charClass_no (by simpa using h) ht]
    rfl
  | cons c d ih =>
    intro p h st
    have hc := hd c (by simp)
    have hl := h.length
    rw [Rule.loop, charClass_yes h hc ha]
    simp only
    rw [if_pos ⟨by omega, by simp at hl; omega⟩,
      ih (p := p + 1) (fun x hx => hd x (by simp [hx])) (h.step (w := [c]) (ascii_utf8 (ascii_cons.mpr ⟨ha c hc, ascii_nil⟩))) st]
    simp only [List.length_cons, List.replicate_succ]
    rw [show p + 1 + d.length = p + (d.length + 1) by omega]

theorem digit_run (s : Bytes) : ∃ d t, s = d ++ t ∧ (∀ x ∈ d, isDigit x = true) ∧ ∀ c t', t = c :: t' → isDigit c = false := by
  induction s with
  | nil => exact ⟨[], [], rfl, by simp, by simp⟩
  | cons c s ih =>
    by_cases hc : isDigit c = true
    · obtain ⟨d, t, rfl, h1, h2⟩ := ih
      exact ⟨c :: d, t, rfl, by simpa [hc] using h1, h2⟩
    · refine ⟨[], c :: s, rfl, by simp, ?_⟩
      rintro _ _ ⟨rfl, rfl⟩
      simpa using hc

/-- no digit in front -/
def NoDigit (t : Bytes) : Prop := ∀ c t', t = c :: t' → ¬Digit c

theorem parseInt_run {d t : Bytes} {n : Nat} (h : At inp p (d ++ t)) (hd : Number d n) (ht : NoDigit t) (st : PState) :
    parseInt inp st p = if n < 2 ^ 64 then .ok (some (p + d.length, n), st.markFailure (p + d.length) b!"[0-9]") else .error .unwrap := by
  obtain ⟨h1, h2, h3⟩ := number_spec hd
  rw [parseInt, Rule.action, Rule.plus, loop_class digit_class _ (fun x hx => (isDigitByte_iff x).mpr (h2 x hx))
    (fun c t' e => by have := ht c t' e; rw [← isDigitByte_iff] at this; simpa using this) h]
  simp only [List.length_replicate]
  rw [if_pos (show d.length ≥ 1 from List.length_pos_iff.mpr h1)]
  simp only
  rw [h.slice (ascii_utf8 (number_ascii hd))]
  simp only [usizeFromStr, h3]
  by_cases hlt : n < 2 ^ 64
  · rw [if_pos hlt, if_pos hlt]; rfl
  · rw [if_neg hlt, if_neg hlt]; rfl

theorem parseInt_none (h : At inp p rest) (ht : NoDigit rest) (st : PState) :
    parseInt inp st p = .ok (none, st.markFailure p b!"[0-9]") := by
  rw [parseInt, Rule.action, Rule.plus, loop_class (d := []) digit_class _ (by simp)
    (fun c t' e => by have := ht c t' e; rw [← isDigitByte_iff] at this; simpa using this) h]
  rfl

theorem parseInt_sat (h : At inp p rest) (hV : VOn V p rest (fun y => ∃ n, Number y n ∧ n < 2 ^ 64)) :
    Sat V parseInt inp p rest (fun w v _ => Number w v ∧ v < 2 ^ 64) True
      (∃ d n t, rest = d ++ t ∧ Number d n ∧ 2 ^ 64 ≤ n ∧ NoDigit t) := by
  intro st hst
  obtain ⟨d, t, rfl, h1, h2⟩ := digit_run rest
  have hnd : NoDigit t := fun c t' e hc => by have := h2 c t' e; rw [(isDigitByte_iff c).mpr hc] at this; simp at this
  by_cases hd : d = []
  · subst hd
    rw [parseInt_none (by simpa using h) (by simpa using hnd)]
    exact ⟨mark_V hst (hV.here ⟨b!"0", .digit 48 [] (by simp [Digit]), 0, .one 48 (by simp [Digit]), by omega⟩), mark_le _ _ _, trivial⟩
  · have hnum := number_of_digits hd (fun x hx => (isDigitByte_iff x).mp (h1 x hx))
    rw [parseInt_run h hnum hnd]
    by_cases hlt : digitsValue d < 2 ^ 64
    · rw [if_pos hlt]
      have hu := ascii_utf8 (number_ascii hnum)
      have hlast : ∃ a c, d = a ++ [c] ∧ Digit c := by
        rcases list_snoc_cases d with rfl | ⟨a, c, rfl⟩
        · exact absurd rfl hd
        · exact ⟨a, c, rfl, (isDigitByte_iff c).mp (h1 c (by simp))⟩
      exact ⟨mark_V hst (hV d t _ [] rfl hu (.inr (.inr (.inl ⟨rfl, hlast⟩))) ⟨_, by simpa using hnum, hlt⟩), mark_le _ _ _, d, t, rfl, rfl, hu, hnum, hlt⟩
    · rw [if_neg hlt]
      exact ⟨rfl, d, _, t, rfl, hnum, by omega, hnd⟩

end Verif
