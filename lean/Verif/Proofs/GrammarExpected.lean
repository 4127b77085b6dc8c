import Verif.Proofs.GrammarRules
import Verif.Spec.Expected
/-! What every rule of the grammar does to the `expected` set. -/
namespace Verif
open Spec

/-- All entries are known, none of them stands at the error position, and none is repeated; there is one if the position is not 0. -/
def Good (inp : Bytes) (st : PState) : Prop :=
  (∀ m ∈ st.expected, (m ∈ expectedTexts ∨ m ∈ expectedClasses) ∧ ¬ Begins m (inp.drop st.maxErrPos)) ∧ st.expected.Nodup ∧
  (st.expected = [] → st.maxErrPos = 0)

theorem mark_good {inp : Bytes} {st : PState} {p : Nat} {m : Bytes} (h : Good inp st) (hm : m ∈ expectedTexts ∨ m ∈ expectedClasses)
    (hb : ¬ Begins m (inp.drop p)) : Good inp (st.markFailure p m) := by
  unfold PState.markFailure
  by_cases hp : p > st.maxErrPos
  · simp only [if_pos hp]
    refine ⟨?_, by simp, by simp⟩
    intro x hx
    simp at hx
    subst hx
    exact ⟨hm, by simpa using hb⟩
  · simp only [if_neg hp]
    by_cases he : p = st.maxErrPos
    · subst he
      simp only [if_true]
      by_cases hc : st.expected.contains m = true
      · rw [if_pos hc]; exact h
      · rw [if_neg hc]
        refine ⟨?_, ?_, by simp⟩
        · intro x hx
          simp at hx
          rcases hx with hx | rfl
          · exact h.1 x hx
          · exact ⟨hm, hb⟩
        · rw [List.nodup_append]
          refine ⟨h.2.1, by simp, ?_⟩
          intro a ha b hb'
          simp at hb'
          subst hb'
          rintro rfl
          exact hc (by simpa using ha)
    · rw [if_neg he]; exact h

theorem mark_ne {inp : Bytes} {st : PState} {p : Nat} {m : Bytes} (h : Good inp st) : (st.markFailure p m).expected ≠ [] := by
  unfold PState.markFailure
  by_cases hp : p > st.maxErrPos
  · simp [hp]
  · simp only [if_neg hp]
    by_cases he : p = st.maxErrPos
    · simp only [if_pos he]
      split
      · rename_i hc
        intro h0; rw [h0] at hc; simp at hc
      · simp
    · rw [if_neg he]
      intro h0
      have := h.2.2 h0
      omega

/-- The rule keeps the state good. -/
def Keeps {α : Type} (r : Rule α) : Prop :=
  ∀ inp st pos, Good inp st → match r inp st pos with
    | .ok (_, st') => Good inp st'
    | .error _ => True

variable {α β : Type}

theorem keeps_of {r : Rule α} (h : Keeps r) {inp : Bytes} {st st' : PState} {pos : Nat} {x : Option (Nat × α)} (hg : Good inp st)
    (he : r inp st pos = .ok (x, st')) : Good inp st' := by
  have := h inp st pos hg
  rw [he] at this; exact this

theorem keeps_intro {r : Rule α} (h : ∀ inp st st' pos x, Good inp st → r inp st pos = .ok (x, st') → Good inp st') : Keeps r := by
  intro inp st pos hg
  cases hr : r inp st pos with
  | error e => trivial
  | ok v => obtain ⟨x, st'⟩ := v; exact h _ _ _ _ _ hg hr

theorem begins_text {m z : Bytes} (hm : m ∈ expectedTexts) (h : Begins m z) : m <+: z := by
  cases h with
  | text m t _ => exact List.prefix_append _ _
  | character c t => exfalso; revert hm; decide
  | nameStart c t _ => exfalso; revert hm; decide
  | nameChar c t _ => exfalso; revert hm; decide
  | dash t => exfalso; revert hm; decide
  | digit c t _ => exfalso; revert hm; decide

/-- The entry stands for the characters of the class. -/
def Names (cls : UInt8 → Bool) (name : Bytes) : Prop := name ∈ expectedClasses ∧ ∀ z, Begins name z → ∃ c t, z = c :: t ∧ cls c = true

theorem names_identStart : Names isIdentStart b!"[a-zA-Z_.]" := by
  refine ⟨by decide, fun z h => ?_⟩
  generalize hm : b!"[a-zA-Z_.]" = m at h
  cases h with
  | text m t h => exfalso; subst hm; revert h; decide
  | nameStart c t h => exact ⟨c, t, rfl, (isIdentStart_iff c).mpr h⟩
  | character c t => exfalso; revert hm; decide
  | nameChar c t _ => exfalso; revert hm; decide
  | dash t => exfalso; revert hm; decide
  | digit c t _ => exfalso; revert hm; decide

theorem names_identChar : Names isIdentChar b!"[a-z-A-Z0-9_.]" := by
  refine ⟨by decide, fun z h => ?_⟩
  generalize hm : b!"[a-z-A-Z0-9_.]" = m at h
  cases h with
  | text m t h => exfalso; subst hm; revert h; decide
  | nameChar c t h => exact ⟨c, t, rfl, (isIdentChar_iff c).mpr h⟩
  | character c t => exfalso; revert hm; decide
  | nameStart c t _ => exfalso; revert hm; decide
  | dash t => exfalso; revert hm; decide
  | digit c t _ => exfalso; revert hm; decide

theorem names_dash : Names (· = 45) b!"[-]" := by
  refine ⟨by decide, fun z h => ?_⟩
  generalize hm : b!"[-]" = m at h
  cases h with
  | text m t h => exfalso; subst hm; revert h; decide
  | dash t => exact ⟨45, t, rfl, by simp⟩
  | character c t => exfalso; revert hm; decide
  | nameStart c t _ => exfalso; revert hm; decide
  | nameChar c t _ => exfalso; revert hm; decide
  | digit c t _ => exfalso; revert hm; decide

theorem names_digit : Names isDigit b!"[0-9]" := by
  refine ⟨by decide, fun z h => ?_⟩
  generalize hm : b!"[0-9]" = m at h
  cases h with
  | text m t h => exfalso; subst hm; revert h; decide
  | digit c t h => exact ⟨c, t, rfl, (isDigitByte_iff c).mpr h⟩
  | character c t => exfalso; revert hm; decide
  | nameStart c t _ => exfalso; revert hm; decide
  | nameChar c t _ => exfalso; revert hm; decide
  | dash t => exfalso; revert hm; decide

theorem begins_ne {m z : Bytes} (h : Begins m z) : z ≠ [] := by
  cases h with
  | text m t h =>
    intro h0
    simp at h0
    rw [h0.1] at h
    revert h; decide
  | _ => simp

theorem keeps_sliceEq {m : Bytes} (hm : m ∈ expectedTexts) : Keeps (sliceEq m) := by
  refine keeps_intro fun inp st st' pos x hg he => ?_
  unfold sliceEq at he
  by_cases hc : inp.length ≥ pos + m.length ∧ (inp.drop pos).take m.length = m
  · rw [if_pos hc] at he
    simp at he
    rw [← he.2]; exact hg
  · rw [if_neg hc] at he
    simp at he
    rw [← he.2]
    refine mark_good hg (.inl hm) fun hb => hc ?_
    have hp := begins_text hm hb
    refine ⟨?_, (List.prefix_iff_eq_take.mp hp).symm⟩
    have := hp.length_le
    simp at this
    have hl : 0 < m.length := by
      cases m with
      | nil => exfalso; revert hm; decide
      | cons => simp
    omega

theorem charRangeAt_drop {inp : Bytes} {pos : Nat} {c : UInt8} {n : Nat} (h : charRangeAt inp pos = .ok (c, n)) : ∃ t, inp.drop pos = c :: t := by
  unfold charRangeAt at h
  cases hs : sliceFrom inp pos with
  | error e => rw [hs] at h; simp at h
  | ok w =>
    rw [hs] at h
    have : w = inp.drop pos := by
      unfold sliceFrom at hs
      split at hs
      · simpa using hs.symm
      · simp at hs
    subst this
    cases hd : inp.drop pos with
    | nil => rw [hd] at h; simp at h
    | cons b t => rw [hd] at h; simp at h; exact ⟨t, by rw [h.1]⟩

theorem keeps_anyChar : Keeps anyChar := by
  refine keeps_intro fun inp st st' pos x hg he => ?_
  unfold anyChar at he
  by_cases hc : inp.length > pos
  · rw [if_pos hc] at he
    cases hr : charRangeAt inp pos with
    | error e => rw [hr] at he; simp at he
    | ok v =>
      rw [hr] at he
      simp at he
      rw [← he.2]; exact hg
  · rw [if_neg hc] at he
    simp at he
    rw [← he.2]
    refine mark_good hg (.inr (by decide)) fun hb => ?_
    exact begins_ne hb (List.drop_eq_nil_of_le (by omega))

theorem keeps_charClass {cls : UInt8 → Bool} {name : Bytes} (hn : Names cls name) : Keeps (charClass cls name) := by
  refine keeps_intro fun inp st st' pos x hg he => ?_
  unfold charClass at he
  by_cases hc : inp.length > pos
  · rw [if_pos hc] at he
    cases hr : charRangeAt inp pos with
    | error e => rw [hr] at he; simp at he
    | ok v =>
      obtain ⟨c, n⟩ := v
      rw [hr] at he
      simp only at he
      by_cases hcls : cls c = true
      · rw [if_pos hcls] at he
        simp at he
        rw [← he.2]; exact hg
      · rw [if_neg hcls] at he
        simp at he
        rw [← he.2]
        refine mark_good hg (.inr hn.1) fun hb => hcls ?_
        obtain ⟨t, ht⟩ := charRangeAt_drop hr
        obtain ⟨c', t', h1, h2⟩ := hn.2 _ hb
        rw [ht] at h1
        simp at h1
        rw [h1.1]; exact h2
  · rw [if_neg hc] at he
    simp at he
    rw [← he.2]
    refine mark_good hg (.inr hn.1) fun hb => ?_
    exact begins_ne hb (List.drop_eq_nil_of_le (by omega))

theorem keeps_pure (v : α) : Keeps (fun _ state pos => .ok (some (pos, v), state)) := by
  intro inp st pos hg
  exact hg

theorem keeps_seq {r : Rule α} {k : α → Rule β} (h1 : Keeps r) (h2 : ∀ v, Keeps (k v)) : Keeps (r.seq k) := by
  refine keeps_intro fun inp st st' pos x hg he => ?_
  unfold Rule.seq at he
  cases hr : r inp st pos with
  | error e => rw [hr] at he; simp at he
  | ok v =>
    obtain ⟨y, st1⟩ := v
    have hg1 := keeps_of h1 hg hr
    rw [hr] at he
    cases y with
    | none => simp at he; rw [← he.2]; exact hg1
    | some y => obtain ⟨q, v⟩ := y; exact keeps_of (h2 v) hg1 he

theorem keeps_action {r : Rule α} {f : Bytes → α → M β} (h1 : Keeps r) : Keeps (r.action f) := by
  refine keeps_intro fun inp st st' pos x hg he => ?_
  unfold Rule.action at he
  cases hr : r inp st pos with
  | error e => rw [hr] at he; simp at he
  | ok v =>
    obtain ⟨y, st1⟩ := v
    have hg1 := keeps_of h1 hg hr
    rw [hr] at he
    cases y with
    | none => simp at he; rw [← he.2]; exact hg1
    | some y =>
      obtain ⟨q, v⟩ := y
      simp only at he
      cases hs : slice inp pos q with
      | error e => rw [hs] at he; simp at he
      | ok w =>
        rw [hs] at he
        simp only at he
        cases hf : f w v with
        | error e => rw [hf] at he; simp at he
        | ok u => rw [hf] at he; simp at he; rw [← he.2]; exact hg1

theorem keeps_orElse {a b : Rule α} (h1 : Keeps a) (h2 : Keeps b) : Keeps (a.orElse b) := by
  refine keeps_intro fun inp st st' pos x hg he => ?_
  unfold Rule.orElse at he
  cases hr : a inp st pos with
  | error e => rw [hr] at he; simp at he
  | ok v =>
    obtain ⟨y, st1⟩ := v
    have hg1 := keeps_of h1 hg hr
    rw [hr] at he
    cases y with
    | none => exact keeps_of h2 hg1 he
    | some y => simp at he; rw [← he.2]; exact hg1

theorem keeps_opt {r : Rule α} (h1 : Keeps r) : Keeps r.opt := by
  refine keeps_intro fun inp st st' pos x hg he => ?_
  unfold Rule.opt at he
  cases hr : r inp st pos with
  | error e => rw [hr] at he; simp at he
  | ok v =>
    obtain ⟨y, st1⟩ := v
    have hg1 := keeps_of h1 hg hr
    rw [hr] at he
    cases y with
    | none => simp at he; rw [← he.2]; exact hg1
    | some y => simp at he; rw [← he.2]; exact hg1

theorem keeps_notP {r : Rule α} (h1 : Keeps r) : Keeps r.notP := by
  refine keeps_intro fun inp st st' pos x hg he => ?_
  unfold Rule.notP at he
  cases hr : r inp st pos with
  | error e => rw [hr] at he; simp at he
  | ok v =>
    obtain ⟨y, st1⟩ := v
    have hg1 := keeps_of h1 hg hr
    rw [hr] at he
    cases y with
    | none => simp at he; rw [← he.2]; exact hg1
    | some y => simp at he; rw [← he.2]; exact hg1

theorem keeps_loop {r : Rule α} (h1 : Keeps r) (inp : Bytes) (st : PState) (pos : Nat) :
    Good inp st → ∀ q vs st', r.loop inp st pos = .ok (q, vs, st') → Good inp st' := by
  fun_induction Rule.loop r inp st pos with
  | case1 st pos e he => intro _ q vs st' h; simp at h
  | case2 st pos st1 he =>
    intro hg q vs st' h
    simp at h
    rw [← h.2.2]; exact keeps_of h1 hg he
  | case3 st pos newpos v st1 he hlt e hl ih => intro _ q vs st' h; simp at h
  | case4 st pos newpos v st1 he hlt p vs1 st2 hl ih =>
    intro hg q vs st' h
    simp at h
    rw [← h.2.2]
    exact ih (keeps_of h1 hg he) _ _ _ hl
  | case5 st pos newpos v st1 he hlt => intro _ q vs st' h; simp at h

theorem keeps_star {r : Rule α} (h1 : Keeps r) : Keeps r.star := by
  refine keeps_intro fun inp st st' pos x hg he => ?_
  unfold Rule.star at he
  cases hr : r.loop inp st pos with
  | error e => rw [hr] at he; simp at he
  | ok v =>
    obtain ⟨q, vs, st1⟩ := v
    rw [hr] at he
    simp at he
    rw [← he.2]
    exact keeps_loop h1 _ _ _ hg _ _ _ hr

theorem keeps_plus {r : Rule α} (h1 : Keeps r) : Keeps r.plus := by
  refine keeps_intro fun inp st st' pos x hg he => ?_
  unfold Rule.plus at he
  cases hr : r.loop inp st pos with
  | error e => rw [hr] at he; simp at he
  | ok v =>
    obtain ⟨q, vs, st1⟩ := v
    rw [hr] at he
    have hg1 := keeps_loop h1 _ _ _ hg _ _ _ hr
    simp only at he
    split at he
    · simp at he; rw [← he.2]; exact hg1
    · simp at he; rw [← he.2]; exact hg1

theorem keeps_sepBy {r : Rule α} {s : Rule β} (h1 : Keeps r) (h2 : Keeps s) : Keeps (r.sepBy s) := by
  refine keeps_intro fun inp st st' pos x hg he => ?_
  unfold Rule.sepBy at he
  cases hr : r inp st pos with
  | error e => rw [hr] at he; simp at he
  | ok v =>
    obtain ⟨y, st1⟩ := v
    have hg1 := keeps_of h1 hg hr
    rw [hr] at he
    cases y with
    | none => simp at he; rw [← he.2]; exact hg1
    | some y =>
      obtain ⟨q, v⟩ := y
      simp only at he
      cases hl : (s.seq fun _ => r).loop inp st1 q with
      | error e => rw [hl] at he; simp at he
      | ok w =>
        obtain ⟨q2, vs, st2⟩ := w
        rw [hl] at he
        simp at he
        rw [← he.2]
        exact keeps_loop (keeps_seq h2 fun _ => h1) _ _ _ hg1 _ _ _ hl

/-! ### The generated functions -/

theorem keeps_keyword {m : Bytes} (hm : m ∈ expectedTexts) : Keeps ((sliceEq m).action fun s _ => (.ok s : M Bytes)) := keeps_action (keeps_sliceEq hm)

theorem keeps_parserName : Keeps parseParserName :=
  keeps_action (keeps_seq (keeps_sliceEq (by decide)) fun _ => keeps_action (keeps_seq (keeps_charClass names_identStart) fun _ =>
    keeps_star (keeps_seq (keeps_charClass names_identChar) fun _ => keeps_notP (keeps_charClass names_dash))))

theorem keeps_literal : Keeps parseLiteral :=
  keeps_action (keeps_plus (keeps_seq (keeps_notP (keeps_sliceEq (by decide))) fun _ => keeps_anyChar))

theorem keeps_string : Keeps parseString :=
  keeps_action (keeps_seq (keeps_sliceEq (by decide)) fun _ => keeps_seq
    (keeps_action (keeps_plus (keeps_seq (keeps_notP (keeps_sliceEq (by decide))) fun _ => keeps_anyChar))) fun s =>
      keeps_seq (keeps_sliceEq (by decide)) fun _ => keeps_pure s)

theorem keeps_comma : Keeps parseComma := keeps_seq (keeps_sliceEq (by decide)) fun _ => keeps_star (keeps_sliceEq (by decide))

theorem keeps_int : Keeps parseInt := keeps_action (keeps_plus (keeps_charClass names_digit))

theorem keeps_baseOptionalParam : Keeps parseBaseOptionalParam :=
  keeps_orElse
    (keeps_action (keeps_seq (keeps_keyword (by decide)) fun _ => keeps_seq (keeps_sliceEq (by decide)) fun _ => keeps_seq keeps_int fun _ => keeps_pure _))
    (keeps_action (keeps_seq (keeps_keyword (by decide)) fun _ => keeps_seq (keeps_sliceEq (by decide)) fun _ => keeps_seq keeps_int fun _ => keeps_pure _))

theorem keeps_parserSet : Keeps parseParserSet :=
  keeps_action (keeps_seq (keeps_keyword (by decide)) fun _ => keeps_seq (keeps_sliceEq (by decide)) fun _ => keeps_seq keeps_string fun _ =>
    keeps_seq (keeps_opt (keeps_action (keeps_seq keeps_comma fun _ => keeps_sepBy keeps_baseOptionalParam keeps_comma))) fun _ =>
    keeps_seq (keeps_sliceEq (by decide)) fun _ => keeps_seq (keeps_opt keeps_parserName) fun _ => keeps_pure _)

theorem keeps_parserInt : Keeps parseParserInt :=
  keeps_action (keeps_seq (keeps_keyword (by decide)) fun _ => keeps_seq (keeps_opt (keeps_action (keeps_seq (keeps_sliceEq (by decide)) fun _ =>
    keeps_seq (keeps_sepBy keeps_baseOptionalParam keeps_comma) fun _ => keeps_seq (keeps_sliceEq (by decide)) fun _ => keeps_pure _))) fun _ =>
    keeps_seq (keeps_opt keeps_parserName) fun _ => keeps_pure _)

theorem keeps_greedy : Keeps parseParserGreedy :=
  keeps_action (keeps_seq (keeps_sliceEq (by decide)) fun _ => keeps_seq (keeps_keyword (by decide)) fun _ => keeps_seq (keeps_opt keeps_parserName) fun _ =>
    keeps_seq (keeps_sliceEq (by decide)) fun _ => keeps_seq (keeps_opt keeps_literal) fun _ => keeps_pure _)

theorem keeps_patternPiece : Keeps parsePatternPiece :=
  keeps_orElse keeps_greedy (keeps_orElse (keeps_action keeps_literal) (keeps_action (keeps_seq (keeps_sliceEq (by decide)) fun _ =>
    keeps_seq (keeps_orElse keeps_parserSet keeps_parserInt) fun _ => keeps_seq (keeps_sliceEq (by decide)) fun _ => keeps_pure _)))

theorem keeps_pattern : Keeps parsePattern := keeps_action (keeps_plus keeps_patternPiece)

/-! ### There is always an entry -/

/-- When the rule fails, an entry has been recorded. -/
def FailMarks (r : Rule α) : Prop := ∀ inp st st' pos, Good inp st → r inp st pos = .ok (none, st') → st'.expected ≠ []

theorem failMarks_sliceEq (m : Bytes) : FailMarks (sliceEq m) := by
  intro inp st st' pos hg he
  unfold sliceEq at he
  split at he
  · simp at he
  · simp at he
    rw [← he]; exact mark_ne hg

theorem failMarks_pure (v : α) : FailMarks (fun _ state pos => .ok (some (pos, v), state)) := by
  intro inp st st' pos hg he
  simp at he

theorem failMarks_seq {r : Rule α} {k : α → Rule β} (hk : Keeps r) (h1 : FailMarks r) (h2 : ∀ v, FailMarks (k v)) : FailMarks (r.seq k) := by
  intro inp st st' pos hg he
  unfold Rule.seq at he
  cases hr : r inp st pos with
  | error e => rw [hr] at he; simp at he
  | ok v =>
    obtain ⟨y, st1⟩ := v
    have hg1 := keeps_of hk hg hr
    rw [hr] at he
    cases y with
    | none => simp at he; rw [← he]; exact h1 _ _ _ _ hg hr
    | some y => obtain ⟨q, v⟩ := y; exact h2 v _ _ _ _ hg1 he

theorem failMarks_action {r : Rule α} {f : Bytes → α → M β} (h1 : FailMarks r) : FailMarks (r.action f) := by
  intro inp st st' pos hg he
  unfold Rule.action at he
  cases hr : r inp st pos with
  | error e => rw [hr] at he; simp at he
  | ok v =>
    obtain ⟨y, st1⟩ := v
    rw [hr] at he
    cases y with
    | none => simp at he; rw [← he]; exact h1 _ _ _ _ hg hr
    | some y =>
      obtain ⟨q, v⟩ := y
      simp only at he
      cases hs : slice inp pos q with
      | error e => rw [hs] at he; simp at he
      | ok w =>
        rw [hs] at he
        simp only at he
        cases hf : f w v with
        | error e => rw [hf] at he; simp at he
        | ok u => rw [hf] at he; simp at he

theorem failMarks_orElse {a b : Rule α} (hk : Keeps a) (h2 : FailMarks b) : FailMarks (a.orElse b) := by
  intro inp st st' pos hg he
  unfold Rule.orElse at he
  cases hr : a inp st pos with
  | error e => rw [hr] at he; simp at he
  | ok v =>
    obtain ⟨y, st1⟩ := v
    have hg1 := keeps_of hk hg hr
    rw [hr] at he
    cases y with
    | none => exact h2 _ _ _ _ hg1 he
    | some y => simp at he

theorem failMarks_opt (r : Rule α) : FailMarks r.opt := by
  intro inp st st' pos hg he
  unfold Rule.opt at he
  cases hr : r inp st pos with
  | error e => rw [hr] at he; simp at he
  | ok v =>
    obtain ⟨y, st1⟩ := v
    rw [hr] at he
    cases y <;> simp at he

theorem loop_ne {r : Rule α} (h1 : Keeps r) (h2 : FailMarks r) (inp : Bytes) (st : PState) (pos : Nat) :
    Good inp st → ∀ q vs st', r.loop inp st pos = .ok (q, vs, st') → st'.expected ≠ [] := by
  fun_induction Rule.loop r inp st pos with
  | case1 st pos e he => intro _ q vs st' h; simp at h
  | case2 st pos st1 he =>
    intro hg q vs st' h
    simp at h
    rw [← h.2.2]; exact h2 _ _ _ _ hg he
  | case3 st pos newpos v st1 he hlt e hl ih => intro _ q vs st' h; simp at h
  | case4 st pos newpos v st1 he hlt p vs1 st2 hl ih =>
    intro hg q vs st' h
    simp at h
    rw [← h.2.2]
    exact ih (keeps_of h1 hg he) _ _ _ hl
  | case5 st pos newpos v st1 he hlt => intro _ q vs st' h; simp at h

theorem failMarks_patternPiece : FailMarks parsePatternPiece :=
  failMarks_orElse keeps_greedy (failMarks_orElse (keeps_action keeps_literal) (failMarks_action (failMarks_seq (keeps_sliceEq (by decide))
    (failMarks_sliceEq _) fun _ => failMarks_seq (keeps_orElse keeps_parserSet keeps_parserInt)
      (failMarks_orElse keeps_parserSet (failMarks_action (failMarks_seq (keeps_keyword (by decide)) (failMarks_action (failMarks_sliceEq _)) fun _ =>
        failMarks_seq (keeps_opt (keeps_action (keeps_seq (keeps_sliceEq (by decide)) fun _ =>
          keeps_seq (keeps_sepBy keeps_baseOptionalParam keeps_comma) fun _ => keeps_seq (keeps_sliceEq (by decide)) fun _ => keeps_pure _)))
          (failMarks_opt _) fun _ => failMarks_seq (keeps_opt keeps_parserName) (failMarks_opt _) fun _ => failMarks_pure _)))
      fun _ => failMarks_seq (keeps_sliceEq (by decide)) (failMarks_sliceEq _) fun _ => failMarks_pure _)))

theorem good_new (inp : Bytes) : Good inp .new := ⟨by simp [PState.new], by simp [PState.new], by simp [PState.new]⟩

/-- After running the whole grammar the state is good and has an entry. -/
theorem pattern_marks {inp : Bytes} {x : Option (Nat × List Token)} {st : PState} (h : parsePattern inp .new 0 = .ok (x, st)) :
    Good inp st ∧ st.expected ≠ [] := by
  refine ⟨keeps_of keeps_pattern (good_new inp) h, ?_⟩
  unfold parsePattern Rule.action Rule.plus at h
  cases hl : parsePatternPiece.loop inp .new 0 with
  | error e => rw [hl] at h; simp at h
  | ok v =>
    obtain ⟨q, vs, st1⟩ := v
    have hne := loop_ne keeps_patternPiece failMarks_patternPiece _ _ _ (good_new inp) _ _ _ hl
    have : st = st1 := by
      rw [hl] at h
      by_cases hv : vs.length ≥ 1
      · simp only [if_pos hv] at h
        cases hs : slice inp 0 q with
        | error e => rw [hs] at h; simp at h
        | ok w => rw [hs] at h; simp at h; exact h.2.symm
      · simp only [if_neg hv] at h
        simp at h; exact h.2.symm
    rw [this]; exact hne

/-- The `expected` set of an error. -/
theorem compile_expected {inp : Bytes} {e : ParseError} (h : compile inp = .ok (.error e)) :
    Good inp { maxErrPos := e.offset, expected := e.expected } ∧ e.expected ≠ [] := by
  unfold compile at h
  cases hp : parsePattern inp .new 0 with
  | error e => rw [hp] at h; simp at h
  | ok v =>
    obtain ⟨x, st⟩ := v
    have := pattern_marks hp
    rw [hp] at h
    cases x with
    | none =>
      simp at h
      rw [← h]; exact this
    | some y =>
      simp only at h
      split at h
      · simp at h
      · simp at h
        rw [← h]; exact this

end Verif
