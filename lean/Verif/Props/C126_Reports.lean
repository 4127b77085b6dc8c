import Verif.Spec.Reports
import Verif.Props.C103_PatternDbXml
/-! C126: what the script /repo/utils/pdb2adb leaves out of the document, and what it says about it. -/
namespace Verif
open Spec Perl

namespace Reports

theorem ite_both {α : Type} {c : Prop} [Decidable c] (P : α → Prop) {a b : α} (ha : P a) (hb : P b) : P (if c then a else b) := by
  split <;> assumption

/-- the messages about types of parsers -/
def OfParser (w : Warning) : Prop := (∃ t, w = .unsupportedParser t) ∨ (∃ t o, w = .partly t o) ∨ ∃ t, w = .asGreedy t

theorem validate_kind (p : Str) : ∀ w ∈ validateWarnings p, OfParser w := by
  have h0 : ∀ w ∈ ([] : List Warning), OfParser w := by simp
  have h1 : ∀ t, ∀ w ∈ [Warning.unsupportedParser t], OfParser w := by simp [OfParser]
  have h2 : ∀ t o, ∀ w ∈ [Warning.partly t o], OfParser w := by simp [OfParser]
  have h3 : ∀ t, ∀ w ∈ [Warning.asGreedy t], OfParser w := by simp [OfParser]
  simp only [validateWarnings]
  repeat' first
    | exact h0
    | exact h1 _
    | exact h2 _ _
    | exact h3 _
    | apply ite_both (fun l : List Warning => ∀ w ∈ l, OfParser w)

/-- the warnings about a parser are not those about a part of a pattern -/
theorem validate_not (p : Str) : ∀ w ∈ validateWarnings p, ∀ q, w ≠ .unsupported q := by
  intro w hw q e
  subst e
  rcases validate_kind p _ hw with ⟨_, e⟩ | ⟨_, _, e⟩ | ⟨_, e⟩ <;> cases e

theorem loop_none_iff (fs : List Str) : ∀ (st : Bool) (out : Str), p2pLoop fs st out = none ↔ ∃ p, .unsupported p ∈ p2pLoopWarnings fs st := by
  induction fs with
  | nil => intro st out; simp [p2pLoop, p2pLoopWarnings]
  | cons p fs ih =>
    intro st out
    rw [p2pLoop, p2pLoopWarnings]
    split
    · exact ih _ _
    · split
      · cases hv : validatePattern p with
        | none => simp only [List.mem_append, List.mem_singleton, true_iff]; exact ⟨p, .inr rfl⟩
        | some s =>
          simp only
          split
          · rw [ih]
            constructor
            · rintro ⟨q, h⟩; exact ⟨q, List.mem_append_right _ h⟩
            · rintro ⟨q, h⟩
              rcases List.mem_append.mp h with h | h
              · exfalso
                rcases List.mem_append.mp h with h | h <;> exact validate_not p _ h q rfl
              · exact ⟨q, h⟩
          · simp only [List.mem_append, List.mem_singleton, true_iff]; exact ⟨p, .inr rfl⟩
      · exact ih _ _

theorem loop_mono (fs gs : List Str) : ∀ (st : Bool) (w : Warning), w ∈ p2pLoopWarnings fs st → w ∈ p2pLoopWarnings (fs ++ gs) st := by
  induction fs with
  | nil => intro st w h; simp [p2pLoopWarnings] at h
  | cons p fs ih =>
    intro st w h
    rw [List.cons_append, p2pLoopWarnings]
    rw [p2pLoopWarnings] at h
    split
    · rename_i e; rw [if_pos e] at h; exact ih _ _ h
    · rename_i e
      rw [if_neg e] at h
      split
      · rename_i e2
        rw [if_pos e2] at h
        cases hv : validatePattern p with
        | none => rw [hv] at h; exact h
        | some s =>
          rw [hv] at h
          simp only at h ⊢
          split
          · rename_i e3
            rw [if_pos e3] at h
            rcases List.mem_append.mp h with h | h
            · exact List.mem_append_left _ h
            · exact List.mem_append_right _ (ih _ _ h)
          · rename_i e3; rw [if_neg e3] at h; exact h
      · rename_i e2; rw [if_neg e2] at h; exact ih _ _ h

theorem trailing_split (fs : List Str) : ∃ gs, fs = dropTrailingEmpty fs ++ gs := by
  refine ⟨(fs.reverse.takeWhile List.isEmpty).reverse, ?_⟩
  rw [dropTrailingEmpty, ← List.reverse_append, List.takeWhile_append_dropWhile, List.reverse_reverse]

theorem trailing_cons (f : Str) (fs : List Str) (h : dropTrailingEmpty fs ≠ [] ∨ f ≠ []) : dropTrailingEmpty (f :: fs) = f :: dropTrailingEmpty fs := by
  unfold dropTrailingEmpty at *
  rw [List.reverse_cons, List.dropWhile_append]
  split
  · rename_i e
    rw [List.isEmpty_iff] at e
    rw [e] at h ⊢
    rcases h with h | h
    · simp at h
    · cases f with
      | nil => exact absurd rfl h
      | cons c f => simp
  · simp

/-- a text has no `@`, or it is cut at the first one -/
theorem cut (s : Str) : '@' ∉ s ∨ ∃ t r, '@' ∉ t ∧ s = t ++ '@' :: r := by
  induction s with
  | nil => exact .inl (by simp)
  | cons c s ih =>
    by_cases hc : c = '@'
    · exact .inr ⟨[], s, by simp, by simp [hc]⟩
    · rcases ih with ih | ⟨t, r, h1, h2⟩
      · exact .inl (by simp only [List.mem_cons, not_or]; exact ⟨fun e => hc e.symm, ih⟩)
      · exact .inr ⟨c :: t, r, by simp only [List.mem_cons, not_or]; exact ⟨fun e => hc e.symm, h1⟩, by rw [h2]; rfl⟩

theorem fields_cut {t : Str} (ht : '@' ∉ t) (r : Str) : fields true '@' (t ++ '@' :: r) = t :: ['@'] :: fields true '@' r := by
  obtain ⟨f, fs, h1, h2⟩ := fields_text (keep := true) ht ('@' :: r)
  rw [fields_sep] at h1
  rw [h2]
  injection h1 with e1 e2
  rw [← e1, ← e2, List.append_nil]

theorem loop_part : ∀ (n : Nat) (s : Str), s.length ≤ n → ∀ (st : Bool) (p : Str), .unsupported p ∈ p2pLoopWarnings (fields true '@' s) st →
    '@' ∉ p ∧ ∃ a b, s = a ++ (p ++ b) ∧ (b = [] ∨ ∃ c, b = '@' :: c) ∧ ((st = true ∧ a = []) ∨ ∃ a', a = a' ++ ['@']) := by
  intro n
  induction n with
  | zero =>
    intro s hs st p h
    have : s = [] := List.length_eq_zero_iff.mp (by omega)
    subst this
    rw [fields, p2pLoopWarnings, if_neg (by simp)] at h
    split at h
    · rename_i e
      have : validatePattern [] = some [] := by decide
      rw [this] at h
      simp only [truthy, ne_eq, not_true_eq_false, decide_false, Bool.false_and, Bool.false_eq_true, if_false] at h
      rcases List.mem_append.mp h with h | h
      · exact absurd rfl (validate_not _ _ h p)
      · simp only [List.mem_singleton, Warning.unsupported.injEq] at h
        subst h
        exact ⟨by simp, [], [], rfl, .inl rfl, .inl ⟨e, rfl⟩⟩
    · simp [p2pLoopWarnings] at h
  | succ n ih =>
    intro s hs st p h
    rcases cut s with hc | ⟨t, r, ht, rfl⟩
    · rw [fields_free hc, p2pLoopWarnings] at h
      split at h
      · simp [p2pLoopWarnings] at h
      · split at h
        · rename_i e
          have : p = s := by
            have hx : Warning.unsupported p ∈ validateWarnings s ++ [.unsupported s] := by
              cases hv : validatePattern s with
              | none => rw [hv] at h; exact h
              | some w =>
                rw [hv] at h
                simp only at h
                split at h
                · rw [p2pLoopWarnings, List.append_nil] at h
                  exfalso
                  rcases List.mem_append.mp h with h | h <;> exact validate_not s _ h p rfl
                · exact h
            rcases List.mem_append.mp hx with h | h
            · exact absurd rfl (validate_not _ _ h p)
            · simpa using h
          subst this
          exact ⟨hc, [], [], by simp, .inl rfl, .inl ⟨e, rfl⟩⟩
        · simp [p2pLoopWarnings] at h
    · rw [fields_cut ht, p2pLoopWarnings] at h
      have hl : r.length ≤ n := by simp only [List.length_append, List.length_cons] at hs; omega
      have hta : t ≠ ['@'] := by rintro rfl; simp at ht
      rw [if_neg hta] at h
      have next : ∀ st', .unsupported p ∈ p2pLoopWarnings (['@'] :: fields true '@' r) st' →
          '@' ∉ p ∧ ∃ a b, t ++ '@' :: r = a ++ (p ++ b) ∧ (b = [] ∨ ∃ c, b = '@' :: c) ∧ ((st = true ∧ a = []) ∨ ∃ a', a = a' ++ ['@']) := by
        intro st' h
        rw [p2pLoopWarnings, if_pos rfl] at h
        obtain ⟨h1, a, b, h2, h3, h4⟩ := ih r hl _ p h
        refine ⟨h1, t ++ '@' :: a, b, by rw [h2]; simp, h3, .inr ?_⟩
        rcases h4 with ⟨_, rfl⟩ | ⟨a', rfl⟩
        · exact ⟨t, rfl⟩
        · exact ⟨t ++ '@' :: a', by simp⟩
      split at h
      · rename_i e
        have stop : p = t → '@' ∉ p ∧ ∃ a b, t ++ '@' :: r = a ++ (p ++ b) ∧ (b = [] ∨ ∃ c, b = '@' :: c) ∧ ((st = true ∧ a = []) ∨ ∃ a', a = a' ++ ['@']) := by
          rintro rfl
          exact ⟨ht, [], '@' :: r, rfl, .inr ⟨r, rfl⟩, .inl ⟨e, rfl⟩⟩
        have stop' : .unsupported p ∈ validateWarnings t ++ [.unsupported t] → p = t := by
          intro h
          rcases List.mem_append.mp h with h | h
          · exact absurd rfl (validate_not _ _ h p)
          · simpa using h
        cases hv : validatePattern t with
        | none => rw [hv] at h; exact stop (stop' h)
        | some w =>
          rw [hv] at h
          simp only at h
          split at h
          · rcases List.mem_append.mp h with h | h
            · exfalso
              rcases List.mem_append.mp h with h | h <;> exact validate_not t _ h p rfl
            · exact next _ h
          · exact stop (stop' h)
      · exact next _ h

/-- the part a warning is about -/
theorem p2p_part {src p : Str} (h : .unsupported p ∈ p2pWarnings src) : BehindAt src p := by
  rw [p2pWarnings] at h
  split at h
  · simp [p2pLoopWarnings] at h
  · obtain ⟨gs, hg⟩ := trailing_split (fields true '@' src)
    have h := loop_mono _ gs _ _ h
    rw [← hg] at h
    obtain ⟨h1, a, b, h2, h3, h4⟩ := loop_part _ src (Nat.le_refl _) _ p h
    rcases h4 with ⟨e, _⟩ | ⟨a', rfl⟩
    · cases e
    · exact ⟨h1, a', b, by rw [h2]; simp, h3⟩

theorem p2p_none_iff (src : Str) : p2p src = none ↔ ∃ p, .unsupported p ∈ p2pWarnings src := loop_none_iff _ _ _

/-- what is written for a parser has a `%` in it -/
theorem validate_percent {p s : Str} (h : validatePattern p = some s) : s = [] ∨ '%' ∈ s := by
  have hs : ∀ (x : Str), (x = [] ∨ '%' ∈ x) → ∀ s, some x = some s → s = [] ∨ '%' ∈ s := by
    intro x hx s e; injection e with e; subst e; exact hx
  have hn : ∀ s, none = some s → s = [] ∨ '%' ∈ s := by intro s e; cases e
  have g : '%' ∈ "%{GREEDY:".toList := by decide
  have i : '%' ∈ "%{INT:".toList := by decide
  have t : '%' ∈ "%{SET(\"".toList := by decide
  have f : '%' ∈ "%{SET(\"1234567890.\"):".toList := by decide
  have key : ∀ s, validatePattern p = some s → s = [] ∨ '%' ∈ s := by
    simp only [validatePattern]
    repeat' first
      | exact hn
      | exact hs _ (.inl rfl)
      | exact hs _ (.inr (by simp only [List.mem_append, g, i, t, f, true_or, or_true]))
      | apply ite_both (fun o : Option Str => ∀ s, o = some s → s = [] ∨ '%' ∈ s)
  exact key s h

theorem loop_out (fs : List Str) : ∀ (st : Bool) (out r : Str), p2pLoop fs st out = some r → out <+: r := by
  induction fs with
  | nil => intro st out r h; rw [p2pLoop] at h; injection h with h; subst h; exact List.prefix_refl _
  | cons p fs ih =>
    intro st out r h
    rw [p2pLoop] at h
    split at h
    · exact ih _ _ _ h
    · split at h
      · cases hv : validatePattern p with
        | none => rw [hv] at h; cases h
        | some s =>
          rw [hv] at h
          simp only at h
          split at h
          · exact (List.prefix_append _ _).trans (ih _ _ _ h)
          · cases h
      · exact (List.prefix_append _ _).trans (ih _ _ _ h)

theorem trailing_fields_ne {s : Str} (h : s ≠ []) : ∃ f fs, dropTrailingEmpty (fields true '@' s) = f :: fs ∧ (f = ['@'] ↔ False) ∧ (f = [] → ∃ c, s = '@' :: c) := by
  rcases cut s with hc | ⟨t, r, ht, rfl⟩
  · refine ⟨s, [], ?_, ?_, fun e => absurd e h⟩
    · rw [fields_free hc, trailing_cons _ _ (.inr h)]; rfl
    · refine iff_false_intro ?_
      rintro rfl
      simp at hc
  · refine ⟨t, dropTrailingEmpty (['@'] :: fields true '@' r), ?_, ?_, fun e => ⟨r, by rw [e]; rfl⟩⟩
    · rw [fields_cut ht, trailing_cons]
      exact .inl (by rw [trailing_cons _ _ (.inr (by simp))]; simp)
    · refine iff_false_intro ?_
      rintro rfl
      simp at ht

/-- the patterns whose conversion counts as false -/
theorem p2p_falsy (src : Str) : (∃ s, p2p src = some s ∧ truthy s = false) ↔ src ∈ silent := by
  constructor
  · rintro ⟨s, h, hs⟩
    have hs' : s = [] ∨ s = ['0'] := by
      by_cases h1 : s = []
      · exact .inl h1
      · by_cases h2 : s = ['0']
        · exact .inr h2
        · simp [truthy, h1, h2] at hs
    rcases cut src with hc | ⟨t, r, ht, rfl⟩
    · have e : src = s := by
        by_cases h0 : src = []
        · subst h0
          rw [p2p] at h
          simpa [p2pLoop] using h
        · rw [p2p, if_neg (by simpa using h0), fields_free hc, trailing_cons _ _ (.inr h0), p2pLoop, if_neg (by rintro rfl; simp at hc)] at h
          simp only [Bool.false_eq_true, if_false, List.nil_append] at h
          rw [show dropTrailingEmpty [] = [] from rfl, p2pLoop, unescapePattern, replaceAts_free hc] at h
          injection h
      subst e
      rcases hs' with rfl | rfl <;> decide
    · rw [p2p, if_neg (by simp), fields_cut ht] at h
      have h2 : dropTrailingEmpty (['@'] :: fields true '@' r) = ['@'] :: dropTrailingEmpty (fields true '@' r) := trailing_cons _ _ (.inr (by simp))
      rw [trailing_cons _ _ (.inl (by rw [h2]; simp)), h2, p2pLoop, if_neg (by rintro rfl; simp at ht)] at h
      simp only [Bool.false_eq_true, if_false, List.nil_append] at h
      rw [p2pLoop, if_pos rfl, unescapePattern, replaceAts_free ht] at h
      by_cases hr : r = []
      · subst hr
        rw [fields, show dropTrailingEmpty [[]] = [] from rfl, p2pLoop] at h
        injection h with h
        subst h
        rcases hs' with rfl | rfl <;> decide
      · exfalso
        obtain ⟨f, fs, h3, h4, _⟩ := trailing_fields_ne hr
        rw [h3, p2pLoop, if_neg h4.mp] at h
        simp only [Bool.not_false, if_true] at h
        cases hv : validatePattern f with
        | none => rw [hv] at h; cases h
        | some w =>
          rw [hv] at h
          simp only at h
          split at h
          · rename_i hw
            have hp := loop_out _ _ _ _ h
            rcases validate_percent hv with rfl | hm
            · simp [truthy] at hw
            · have : '%' ∈ s := hp.subset (List.mem_append_right _ hm)
              rcases hs' with rfl | rfl <;> simp at this
          · cases h
  · intro h
    simp only [silent, List.mem_cons, List.not_mem_nil, or_false] at h
    rcases h with rfl | rfl | rfl | rfl
    · exact ⟨[], by decide, by decide⟩
    · exact ⟨[], by decide, by decide⟩
    · exact ⟨['0'], by decide, by decide⟩
    · exact ⟨['0'], by decide, by decide⟩

theorem leftOut_iff (src : Str) : LeftOut src ↔ p2p src = none ∨ src ∈ silent := by
  rw [← p2p_falsy]
  constructor
  · intro h
    have h := h ⟨false, fun _ => [[]], fun _ => [], id⟩ ⟨[], [], [], [], none, none⟩ ⟨0, 0⟩ (by simp)
    rw [ruleLoop] at h
    simp only [List.getElem?_cons_zero] at h
    simp only [ruleLoop, List.append_nil] at h
    rw [patternLoop] at h
    cases hv : p2p src with
    | none => exact .inl rfl
    | some s =>
      rw [hv] at h
      simp only at h
      split at h
      · simp at h
      · rename_i e; exact .inr ⟨s, rfl, by simpa using e⟩
  · intro h env rule c hp
    rw [ruleLoop]
    cases hq : (env.programs ({ rule with patterns := [src] } : PdbRule).ruleset)[0]? with
    | none => simp [ruleLoop]
    | some prog =>
      simp only [ruleLoop, List.append_nil]
      rw [patternLoop]
      rcases h with h | ⟨s, h, hs⟩
      · rw [h]; simp [patternLoop]
      · rw [h]; simp [hs, patternLoop]

theorem contains_infix (w : Str) (s : Str) : contains w s = true ↔ w <:+: s := by
  induction s with
  | nil => simp [contains]
  | cons c s ih => rw [contains, Bool.or_eq_true, ih, List.isPrefixOf_iff_prefix, List.infix_cons_iff]

theorem program_some {env : Env} {r : PdbRule} (h : HasProgram env r) : ∃ p, (env.programs r.ruleset)[0]? = some p := by
  cases hp : env.programs r.ruleset with
  | nil => exact absurd hp h
  | cons p ps => exact ⟨p, rfl⟩

theorem p2p_kind {src : Str} {w : Warning} (h : w ∈ p2pWarnings src) : (∃ p, w = .unsupported p) ∨ (∃ p, w = .unsupportedParser p) ∨ (∃ t o, w = .partly t o) ∨ ∃ t, w = .asGreedy t := by
  rw [p2pWarnings] at h
  revert h
  generalize (if src.isEmpty then [] else dropTrailingEmpty (fields true '@' src)) = fs
  generalize false = st
  have hv : ∀ p, w ∈ validateWarnings p → (∃ p, w = .unsupported p) ∨ (∃ p, w = .unsupportedParser p) ∨ (∃ t o, w = .partly t o) ∨ ∃ t, w = .asGreedy t :=
    fun p h => .inr (validate_kind p w h)
  induction fs generalizing st with
  | nil => intro h; simp [p2pLoopWarnings] at h
  | cons p fs ih =>
    intro h
    rw [p2pLoopWarnings] at h
    split at h
    · exact ih _ h
    · split at h
      · have stop : w ∈ validateWarnings p ++ [.unsupported p] → (∃ p, w = .unsupported p) ∨ (∃ p, w = .unsupportedParser p) ∨ (∃ t o, w = .partly t o) ∨ ∃ t, w = .asGreedy t := by
          intro h
          rcases List.mem_append.mp h with h | h
          · exact hv _ h
          · exact .inl ⟨p, by simpa using h⟩
        cases he : validatePattern p with
        | none => rw [he] at h; exact stop h
        | some s =>
          rw [he] at h
          simp only at h
          split at h
          · rcases List.mem_append.mp h with h | h
            · rcases List.mem_append.mp h with h | h <;> exact hv _ h
            · exact ih _ h
          · exact stop h
      · exact ih _ h

/-- which warnings there are for a rule -/
theorem rule_mem (env : Env) (r : PdbRule) (w : Warning) : w ∈ ruleWarnings env r ↔
    (1 < (env.programs r.ruleset).length ∧ w = .manyPrograms r.id) ∨
    (env.programs r.ruleset = [] ∧ w = .noProgram r.id) ∨
    (HasProgram env r ∧ ((∃ v ∈ r.values.getD [], "$(".toList <:+: v.2 ∧ w = .macroValue r.id v.1 v.2) ∨
      (r.examples ≠ [] ∧ 1 < r.patterns.length ∧ w = .manyPatterns r.id) ∨ ∃ src ∈ r.patterns, w ∈ p2pWarnings src)) := by
  rw [ruleWarnings, List.mem_append]
  refine or_congr ?_ ?_
  · split
    · rename_i h; simp [show 1 < (env.programs r.ruleset).length from h]
    · rename_i h; simp [show ¬ 1 < (env.programs r.ruleset).length from h]
  · by_cases hp : HasProgram env r
    · obtain ⟨p, hp'⟩ := program_some hp
      rw [hp']
      have hne : env.programs r.ruleset ≠ [] := hp
      simp only [hne, false_and, false_or, hp, true_and, List.mem_append, List.mem_map, List.mem_filter, List.mem_flatMap, contains_infix]
      rw [or_assoc]
      refine or_congr ?_ (or_congr ?_ ?_)
      · constructor
        · rintro ⟨v, ⟨h1, h2⟩, rfl⟩; exact ⟨v, h1, h2, rfl⟩
        · rintro ⟨v, h1, h2, rfl⟩; exact ⟨v, ⟨h1, h2⟩, rfl⟩
      · by_cases he : r.examples = []
        · simp [he]
        · have : 0 < r.examples.length := List.length_pos_iff.mpr he
          by_cases hl : 1 < r.patterns.length
          · simp [he, hl, this]
          · simp [hl]
      · simp only [or_self]
    · have hp' : env.programs r.ruleset = [] := Classical.not_not.mp hp
      rw [hp']
      simp [hp]

/-- What `_validate_pattern` says about the type and the argument. -/
def dispatchWarnings (type opt : Str) : List Warning :=
  if isWord [] type then []
  else if isWord "ESTRING".toList type then []
  else if contains "QSTRING".toList type then []
  else if isWord "NUMBER".toList type then []
  else if isWord "HOSTNAME".toList type then []
  else if startsWith "FLOAT".toList type || endsWith "DOUBLE".toList type then [.partly type []]
  else if isWord "STRING".toList type then if truthy opt then [.partly type opt] else []
  else if isWord "PCRE".toList type then [.unsupportedParser type]
  else if isWord "ANYSTRING".toList type then []
  else if isWord "SET".toList type then []
  else if startsWith "IPvANY".toList type || startsWith "MACADDR".toList type || startsWith "IPv4".toList type || startsWith "LLADDR".toList type then
    [.asGreedy type]
  else [.unsupportedParser type]

theorem warnings_dispatch (type : Str) (args : List Str) (ht : ':' ∉ type) (hn : truthy type = true) (ha : ∀ a ∈ args, ':' ∉ a) :
    validateWarnings (type ++ args.flatMap (fun a => ':' :: a)) = dispatchWarnings type (args[1]?.getD []) := by
  have hne : (type ++ args.flatMap (fun a => ':' :: a)).isEmpty = false := by
    cases type with
    | nil => simp [truthy] at hn
    | cons a b => rfl
  unfold validateWarnings
  simp only [hne, spec_fields type args ht ha]
  simp only [Bool.false_eq_true, if_false, List.getElem?_cons_zero, List.getElem?_cons_succ, Option.getD_some, hn, if_true]
  rfl

theorem means_warnings {type : Str} {args : List Str} {es : List Elem} (h : PdbMeans type args es) (ha : ∀ a ∈ args, ':' ∉ a) :
    (Inexact type args ∧ ∃ w, SaysInexact type w ∧ validateWarnings (type ++ args.flatMap (fun a => ':' :: a)) = [w]) ∨
    (¬ Inexact type args ∧ validateWarnings (type ++ args.flatMap (fun a => ':' :: a)) = []) := by
  have d := fun ht hn => warnings_dispatch type args ht hn ha
  have no : ∀ t : Str, (t ∉ ["FLOAT".toList, "DOUBLE".toList, "IPvANY".toList, "MACADDR".toList, "IPv4".toList, "LLADDR".toList] ∧ t ≠ "STRING".toList) → ∀ l, ¬ Inexact t l :=
    fun t ht l h => h.elim ht.1 (fun e => ht.2 e.1)
  cases h with
  | number args n hn => exact .inr ⟨no _ (by decide) _, by rw [d (by decide) (by decide)]; rfl⟩
  | rest type args n hn ht =>
    have ht' : type = "ANYSTRING".toList ∨ type = "IPvANY".toList ∨ type = "MACADDR".toList ∨ type = "IPv4".toList ∨ type = "LLADDR".toList := by simpa using ht
    rcases ht' with rfl | rfl | rfl | rfl | rfl
    · exact .inr ⟨no _ (by decide) _, by rw [d (by decide) (by decide)]; rfl⟩
    all_goals exact .inl ⟨.inl (by decide), _, .inl rfl, by rw [d (by decide) (by decide)]; rfl⟩
  | estring key stop n hn hs => exact .inr ⟨no _ (by decide) _, by rw [d (by decide) (by decide)]; rfl⟩
  | colon key n hn => exact .inr ⟨no _ (by decide) _, by rw [d (by decide) (by decide)]; rfl⟩
  | quoted key q n hn => exact .inr ⟨no _ (by decide) _, by rw [d (by decide) (by decide)]; rfl⟩
  | bracketed key q r n hn => exact .inr ⟨no _ (by decide) _, by rw [d (by decide) (by decide)]; rfl⟩
  | hostname args n hn => exact .inr ⟨no _ (by decide) _, by rw [d (by decide) (by decide)]; rfl⟩
  | float type args n hn ht =>
    have ht' : type = "FLOAT".toList ∨ type = "DOUBLE".toList := by simpa using ht
    rcases ht' with rfl | rfl
    all_goals exact .inl ⟨.inl (by decide), _, .inr ⟨[], rfl⟩, by rw [d (by decide) (by decide)]; rfl⟩
  | string args n hn hl =>
    refine .inr ⟨?_, ?_⟩
    · rintro (h | ⟨_, k, m, e, _⟩)
      · exact absurd h (by decide)
      · rw [e] at hl; simp at hl
    · rw [d (by decide) (by decide), List.getElem?_eq_none (by omega)]
      rfl
  | stringWith key more n hn hq hz =>
    by_cases hm : more = []
    · subst hm
      refine .inr ⟨?_, by rw [d (by decide) (by decide)]; rfl⟩
      rintro (h | ⟨_, k, m, e, h1, _⟩)
      · exact absurd h (by decide)
      · simp only [List.cons.injEq, and_true] at e; exact h1 e.2.symm
    · refine .inl ⟨.inr ⟨rfl, key, more, rfl, hm, hz⟩, .partly "STRING".toList more, .inr ⟨more, rfl⟩, ?_⟩
      rw [d (by decide) (by decide)]
      have ht : truthy more = true := by simp [truthy, hm, hz]
      show (if truthy more = true then [Warning.partly "STRING".toList more] else []) = _
      rw [if_pos ht]
  | stringZero key n hn =>
    refine .inr ⟨?_, by rw [d (by decide) (by decide)]; rfl⟩
    rintro (h | ⟨_, k, m, e, _, h2⟩)
    · exact absurd h (by decide)
    · simp only [List.cons.injEq, and_true] at e; exact h2 e.2.symm
  | set key chars n hn hq hc => exact .inr ⟨no _ (by decide) _, by rw [d (by decide) (by decide)]; rfl⟩

theorem warn_text {t : Str} (ht : '@' ∉ t) (s : Str) : p2pLoopWarnings (fields true '@' (t ++ s)) false = p2pLoopWarnings (fields true '@' s) false := by
  obtain ⟨f, fs, h1, h2⟩ := fields_text (keep := true) ht s
  have hf := fields_mem_free s f fs h1
  have h3 : '@' ∉ t ++ f := by simp [ht, hf]
  have n1 : t ++ f ≠ ['@'] := fun e => h3 (e ▸ by simp)
  have n2 : f ≠ ['@'] := fun e => hf (e ▸ by simp)
  rw [h1, h2, p2pLoopWarnings, p2pLoopWarnings, if_neg n1, if_neg n2]
  simp

theorem warn_parser {spec w : Str} (hs : '@' ∉ spec) (hv : validatePattern spec = some w) (ht : truthy w = true) (s : Str) :
    p2pLoopWarnings (fields true '@' ('@' :: spec ++ '@' :: s)) false =
      validateWarnings spec ++ validateWarnings spec ++ p2pLoopWarnings (fields true '@' s) false := by
  have n2 : spec ≠ ['@'] := fun e => hs (e ▸ by simp)
  have e : fields true '@' ('@' :: spec ++ '@' :: s) = [] :: ['@'] :: spec :: ['@'] :: fields true '@' s := by
    rw [List.cons_append, fields_sep, fields_cut hs]
  rw [e]
  simp [p2pLoopWarnings, n2, hv, ht]

theorem warn_snoc (fs : List Str) : ∀ (st : Bool) (out r : Str), p2pLoop (fs ++ [[]]) st out = some r → p2pLoopWarnings (fs ++ [[]]) st = p2pLoopWarnings fs st := by
  induction fs with
  | nil =>
    intro st out r h
    cases st with
    | false => simp [p2pLoopWarnings]
    | true => simp [p2pLoop, validatePattern, truthy, isWord] at h
  | cons f fs ih =>
    intro st out r h
    simp only [List.cons_append, p2pLoop] at h
    simp only [List.cons_append, p2pLoopWarnings]
    split
    · rename_i c; rw [if_pos c] at h; exact ih _ _ _ h
    · rename_i c
      rw [if_neg c] at h
      split
      · rename_i c2
        rw [if_pos c2] at h
        cases hv : validatePattern f with
        | none => rfl
        | some s =>
          rw [hv] at h
          simp only at h ⊢
          split
          · rename_i c3
            rw [if_pos c3] at h
            rw [ih _ _ _ h]
          · rfl
      · rename_i c2
        rw [if_neg c2] at h
        exact ih _ _ _ h

theorem warn_trailing (fs : List Str) (st : Bool) (out r : Str) (h : p2pLoop fs st out = some r) :
    p2pLoopWarnings (dropTrailingEmpty fs) st = p2pLoopWarnings fs st := by
  have : ∀ gs : List Str, ∀ r, p2pLoop gs.reverse st out = some r → p2pLoopWarnings (gs.dropWhile List.isEmpty).reverse st = p2pLoopWarnings gs.reverse st := by
    intro gs
    induction gs with
    | nil => intro r _; rfl
    | cons g gs ih =>
      intro r h
      cases g with
      | nil =>
        rw [List.reverse_cons] at h ⊢
        rw [warn_snoc _ _ _ _ h]
        simp only [List.dropWhile_cons, List.isEmpty_nil, if_true]
        exact ih r (loop_snoc _ _ _ _ h)
      | cons a b => simp [List.dropWhile_cons]
  have h2 := this fs.reverse r (by simpa using h)
  rw [List.reverse_reverse] at h2
  exact h2

theorem pieces_warnings {ps : List PdbPiece} {ess : List (List Elem)} (h : Each PdbPieceMeans ps ess) (w : Warning) :
    w ∈ p2pLoopWarnings (fields true '@' (pdbSource ps)) false ↔ ∃ type args, .parser type args ∈ ps ∧ Inexact type args ∧
      validateWarnings (type ++ args.flatMap (fun a => ':' :: a)) = [w] := by
  induction h with
  | nil => simp [pdbSource, fields, p2pLoopWarnings]
  | cons p es ps ess hp _ ih =>
    cases hp with
    | text s hs =>
      have := warn_text hs (pdbSource ps)
      rw [show pdbSource (.text s :: ps) = s ++ pdbSource ps by simp [pdbSource, PdbPiece.source], this, ih]
      simp
    | parser type args es hm ha =>
      obtain ⟨v, h3, h4, _⟩ := means_text hm (fun a h => (ha a h).2)
      have hf : '@' ∉ type ++ args.flatMap (fun a => ':' :: a) := by
        rw [List.mem_append]
        rintro (h | h)
        · exact means_free hm h
        · exact args_free (fun a h => (ha a h).1) h
      have e : pdbSource (.parser type args :: ps) = '@' :: (type ++ args.flatMap (fun a => ':' :: a)) ++ '@' :: pdbSource ps := by
        simp [pdbSource, PdbPiece.source]
      rw [e, warn_parser hf h3 h4, List.mem_append, List.mem_append, or_self, ih]
      constructor
      · rintro (h | ⟨t, as, h1, h2⟩)
        · rcases means_warnings hm (fun a h => (ha a h).2) with ⟨h1, w', h2, h5⟩ | ⟨h1, h2⟩
          · rw [h5, List.mem_singleton] at h
            subst h
            exact ⟨type, args, List.mem_cons_self .., h1, h5⟩
          · rw [h2] at h; cases h
        · exact ⟨t, as, List.mem_cons_of_mem _ h1, h2⟩
      · rintro ⟨t, as, h1, h2, h5⟩
        rcases List.mem_cons.mp h1 with h1 | h1
        · injection h1 with e1 e2
          subst e1 e2
          exact .inl (by rw [h5]; exact List.mem_singleton.mpr rfl)
        · exact .inr ⟨t, as, h1, h2, h5⟩

end Reports

open Reports

/-- C126: a pattern that the script leaves out is reported, with a part of it between `@`s, unless it is one of four. -/
theorem C126_reported_partial (env : Env) (rules : List PdbRule) (r : PdbRule) (hr : r ∈ rules) (hp : HasProgram env r) (src : Str) (hs : src ∈ r.patterns)
    (hl : LeftOut src) (hn : src ∉ silent) : ∃ part, BehindAt src part ∧ .unsupported part ∈ warnings env rules := by
  rcases (leftOut_iff src).mp hl with h | h
  · obtain ⟨p, h⟩ := (p2p_none_iff src).mp h
    exact ⟨p, p2p_part h, List.mem_flatMap.mpr ⟨r, hr, (rule_mem env r _).mpr (.inr (.inr ⟨hp, .inr (.inr ⟨src, hs, h⟩)⟩))⟩⟩
  · exact absurd h hn

/-- C126: the four are left out without any message. -/
theorem C126_silent (src : Str) : src ∈ silent ↔ LeftOut src ∧ ∀ (env : Env) (r : PdbRule), r.patterns = [src] → (∀ part, .unsupported part ∉ ruleWarnings env r) := by
  constructor
  · intro h
    refine ⟨(leftOut_iff src).mpr (.inr h), fun env r hr part hm => ?_⟩
    rcases (rule_mem env r _).mp hm with ⟨_, h1⟩ | ⟨_, h1⟩ | ⟨_, ⟨_, _, _, h1⟩ | ⟨_, _, h1⟩ | ⟨s, h2, h3⟩⟩
    · cases h1
    · cases h1
    · cases h1
    · cases h1
    · rw [hr, List.mem_singleton] at h2
      subst h2
      have := (p2p_none_iff s).mpr ⟨part, h3⟩
      obtain ⟨x, hx, _⟩ := (p2p_falsy s).mpr h
      rw [this] at hx
      cases hx
  · rintro ⟨h1, h2⟩
    rcases (leftOut_iff src).mp h1 with h | h
    · exfalso
      obtain ⟨p, hm⟩ := (p2p_none_iff src).mp h
      refine h2 ⟨false, fun _ => [[]], fun _ => [], id⟩ ⟨[], [], [src], [], none, none⟩ rfl p ?_
      exact (rule_mem _ _ _).mpr (.inr (.inr ⟨by simp [HasProgram], .inr (.inr ⟨src, List.mem_singleton.mpr rfl, hm⟩)⟩))
    · exact h

/-- C126 is not true of all patterns: a rule with the pattern `0` is left out, and there is no message at all. -/
theorem C126_refuted : ¬ ∀ (env : Env) (rules : List PdbRule) (r : PdbRule) (src : Str), r ∈ rules → HasProgram env r → src ∈ r.patterns → LeftOut src →
    warnings env rules ≠ [] := by
  intro h
  refine h ⟨false, fun _ => ["sshd".toList], fun _ => [], id⟩ [⟨"id".toList, "ssh".toList, ["0".toList], [], none, none⟩] _ "0".toList (List.mem_singleton.mpr rfl)
    (by simp [HasProgram]) (List.mem_singleton.mpr rfl) ((leftOut_iff _).mpr (.inr (by decide))) (by decide)

/-- C126: no pattern is reported that is not left out. -/
theorem C126_no_false_alarm (env : Env) (rules : List PdbRule) (part : Str) (h : .unsupported part ∈ warnings env rules) :
    ∃ r ∈ rules, HasProgram env r ∧ ∃ src ∈ r.patterns, BehindAt src part ∧ LeftOut src := by
  obtain ⟨r, hr, h⟩ := List.mem_flatMap.mp h
  rcases (rule_mem env r _).mp h with ⟨_, h1⟩ | ⟨_, h1⟩ | ⟨hp, ⟨_, _, _, h1⟩ | ⟨_, _, h1⟩ | ⟨s, h2, h3⟩⟩
  · cases h1
  · cases h1
  · cases h1
  · cases h1
  · exact ⟨r, hr, hp, s, h2, p2p_part h3, (leftOut_iff s).mpr (.inl ((p2p_none_iff s).mpr ⟨part, h3⟩))⟩

/-- C126: the rules that are left out because their ruleset has no program are all reported, and only these. -/
theorem C126_rules (env : Env) (rules : List PdbRule) (id : Str) : .noProgram id ∈ warnings env rules ↔ ∃ r ∈ rules, r.id = id ∧ ¬ HasProgram env r := by
  constructor
  · intro h
    obtain ⟨r, hr, h⟩ := List.mem_flatMap.mp h
    rcases (rule_mem env r _).mp h with ⟨_, h1⟩ | ⟨h0, h1⟩ | ⟨hp, ⟨_, _, _, h1⟩ | ⟨_, _, h1⟩ | ⟨s, h2, h3⟩⟩
    · cases h1
    · injection h1 with h1; exact ⟨r, hr, h1.symm, fun hp => hp h0⟩
    · cases h1
    · cases h1
    · rcases p2p_kind h3 with ⟨_, e⟩ | ⟨_, e⟩ | ⟨_, _, e⟩ | ⟨_, e⟩ <;> cases e
  · rintro ⟨r, hr, rfl, hp⟩
    exact List.mem_flatMap.mpr ⟨r, hr, (rule_mem env r _).mpr (.inr (.inl ⟨Classical.not_not.mp hp, rfl⟩))⟩

/-- C126: the values that are left out because of a macro are all reported, and only these. -/
theorem C126_values (env : Env) (rules : List PdbRule) (id k v : Str) :
    .macroValue id k v ∈ warnings env rules ↔ ∃ r ∈ rules, r.id = id ∧ HasProgram env r ∧ (k, v) ∈ r.values.getD [] ∧ (k, v) ∉ plainValues r := by
  constructor
  · intro h
    obtain ⟨r, hr, h⟩ := List.mem_flatMap.mp h
    rcases (rule_mem env r _).mp h with ⟨_, h1⟩ | ⟨h0, h1⟩ | ⟨hp, ⟨x, h2, h3, h1⟩ | ⟨_, _, h1⟩ | ⟨s, h2, h3⟩⟩
    · cases h1
    · cases h1
    · obtain ⟨a, b⟩ := x
      simp only [Warning.macroValue.injEq] at h1
      obtain ⟨e1, rfl, rfl⟩ := h1
      exact ⟨r, hr, e1.symm, hp, h2, fun h => by rw [plainValues, List.mem_filter] at h; exact of_decide_eq_true h.2 h3⟩
    · cases h1
    · rcases p2p_kind h3 with ⟨_, e⟩ | ⟨_, e⟩ | ⟨_, _, e⟩ | ⟨_, e⟩ <;> cases e
  · rintro ⟨r, hr, rfl, hp, h1, h2⟩
    refine List.mem_flatMap.mpr ⟨r, hr, (rule_mem env r _).mpr (.inr (.inr ⟨hp, .inl ⟨(k, v), h1, ?_, rfl⟩⟩))⟩
    refine Classical.byContradiction fun h => h2 ?_
    rw [plainValues, List.mem_filter]
    exact ⟨h1, decide_eq_true h⟩

/-- C126: a rule must be checked by hand if its ruleset has several programs, of which only the first one is used, or if it has several patterns, which all get
all the test messages.  These rules are all reported, and only these. -/
theorem C126_review (env : Env) (rules : List PdbRule) (id : Str) :
    (.manyPrograms id ∈ warnings env rules ↔ ∃ r ∈ rules, r.id = id ∧ 1 < (env.programs r.ruleset).length) ∧
    (.manyPatterns id ∈ warnings env rules ↔ ∃ r ∈ rules, r.id = id ∧ HasProgram env r ∧ r.examples ≠ [] ∧ 1 < r.patterns.length) := by
  refine ⟨⟨fun h => ?_, ?_⟩, ⟨fun h => ?_, ?_⟩⟩
  · obtain ⟨r, hr, h⟩ := List.mem_flatMap.mp h
    rcases (rule_mem env r _).mp h with ⟨h0, h1⟩ | ⟨h0, h1⟩ | ⟨hp, ⟨_, _, _, h1⟩ | ⟨_, _, h1⟩ | ⟨s, h2, h3⟩⟩
    · injection h1 with h1; exact ⟨r, hr, h1.symm, h0⟩
    · cases h1
    · cases h1
    · cases h1
    · rcases p2p_kind h3 with ⟨_, e⟩ | ⟨_, e⟩ | ⟨_, _, e⟩ | ⟨_, e⟩ <;> cases e
  · rintro ⟨r, hr, rfl, hp⟩
    exact List.mem_flatMap.mpr ⟨r, hr, (rule_mem env r _).mpr (.inl ⟨hp, rfl⟩)⟩
  · obtain ⟨r, hr, h⟩ := List.mem_flatMap.mp h
    rcases (rule_mem env r _).mp h with ⟨h0, h1⟩ | ⟨h0, h1⟩ | ⟨hp, ⟨_, _, _, h1⟩ | ⟨h4, h5, h1⟩ | ⟨s, h2, h3⟩⟩
    · cases h1
    · cases h1
    · cases h1
    · injection h1 with h1; exact ⟨r, hr, h1.symm, hp, h4, h5⟩
    · rcases p2p_kind h3 with ⟨_, e⟩ | ⟨_, e⟩ | ⟨_, _, e⟩ | ⟨_, e⟩ <;> cases e
  · rintro ⟨r, hr, rfl, hp, h1, h2⟩
    exact List.mem_flatMap.mpr ⟨r, hr, (rule_mem env r _).mpr (.inr (.inr ⟨hp, .inr (.inl ⟨h1, h2, rfl⟩)⟩))⟩

/-- C126: of a pattern that is converted, all the parsers for which the script has only something similar are reported, and no others. -/
theorem C126_inexact (ps : List PdbPiece) (es : List Elem) (h : PdbPattern ps es) (type : Str) :
    (∃ w ∈ p2pWarnings (pdbSource ps), SaysInexact type w) ↔ ∃ args, .parser type args ∈ ps ∧ Inexact type args := by
  obtain ⟨ess, h, he⟩ := h
  clear he
  have hm : ∀ w, w ∈ p2pWarnings (pdbSource ps) ↔ ∃ type args, .parser type args ∈ ps ∧ Inexact type args ∧
      validateWarnings (type ++ args.flatMap (fun a => ':' :: a)) = [w] := by
    intro w
    rw [← pieces_warnings h, p2pWarnings]
    split
    · rename_i he
      rw [List.isEmpty_iff] at he
      rw [he]
      simp [p2pLoopWarnings, fields]
    · obtain ⟨v, h1, _⟩ := pieces_text h []
      rw [warn_trailing _ _ _ _ h1]
  have each : ∀ t as, .parser t as ∈ ps → Inexact t as → ∃ w, SaysInexact t w ∧ validateWarnings (t ++ as.flatMap (fun a => ':' :: a)) = [w] := by
    clear hm
    intro t as hp hi
    induction h with
    | nil => cases hp
    | cons p es ps ess hp' _ ih =>
      rcases List.mem_cons.mp hp with e | hp
      · subst e
        cases hp' with
        | parser _ _ es hm ha =>
          rcases means_warnings hm (fun a h => (ha a h).2) with ⟨_, h2⟩ | ⟨h1, _⟩
          · exact h2
          · exact absurd hi h1
      · exact ih hp
  constructor
  · rintro ⟨w, hw, hs⟩
    obtain ⟨t, as, h1, h2, h3⟩ := (hm w).mp hw
    obtain ⟨w', h4, h5⟩ := each t as h1 h2
    rw [h3] at h5
    injection h5 with h5
    subst h5
    have : t = type := by
      rcases h4 with rfl | ⟨o, rfl⟩ <;> rcases hs with e | ⟨o', e⟩ <;> first | (injection e) | cases e
    subst this
    exact ⟨as, h1, h2⟩
  · rintro ⟨args, h1, h2⟩
    obtain ⟨w, h3, h4⟩ := each type args h1 h2
    exact ⟨w, (hm w).mpr ⟨type, args, h1, h2, h4⟩, h3⟩

/-- C126, from the file to the messages: if the script prints a document for a patterndb, then a rule is reported for want of a program exactly if it has none,
and of a rule with a program each pattern that is left out is reported, unless it is one of the four.  (Rules with the same id are taken together, and the last one
decides about the ruleset.) -/
theorem C126_db (opts : Options) (fresh : Nat → Str) (order : List (Val × Val) → List (Val × Val)) (shuffle : List PdbRule → List PdbRule)
    (hs : ∀ l, (shuffle l).Perm l) (db : PatternDb) (doc : Val) (hdoc : script opts fresh order shuffle (patternDbXml db) = .prints doc)
    (x : Str × DbRule) (hx : LastWithId db x) :
    (.noProgram x.2.id ∈ scriptWarnings opts fresh order shuffle (patternDbXml db) ↔ db.programsOf x.1 = []) ∧
    (db.programsOf x.1 ≠ [] → ∀ src ∈ (db.rulesWith x.2.id).flatMap (·.patterns), LeftOut src → src ∉ silent →
      ∃ part, BehindAt src part ∧ .unsupported part ∈ scriptWarnings opts fresh order shuffle (patternDbXml db)) := by
  obtain ⟨σ, h1, h2, h3⟩ := C103_read opts.examples db
  have hp : σ.programs = db.programsOf := funext h3
  have hw : scriptWarnings opts fresh order shuffle (patternDbXml db) = warnings (dbEnv db opts fresh order) (shuffle σ.toRules) := by
    rw [script, h1] at hdoc
    rw [scriptWarnings, h1]
    simp only at hdoc ⊢
    rw [hp]
    split at hdoc
    · cases hdoc
    · rename_i ha
      rw [if_neg ha]
      split at hdoc
      · rename_i hb; rw [if_pos hb]; rfl
      · cases hdoc
  have hmem : ∀ r, r ∈ shuffle σ.toRules ↔ r ∈ σ.toRules := fun r => (hs _).mem_iff
  have hset : ∀ r ∈ σ.toRules, r.id = x.2.id → r.ruleset = x.1 := by
    intro r hr e
    obtain ⟨A, B, e1, e2⟩ := hx
    obtain ⟨A', x', B', e1', g1, g2, g3⟩ := h2.ruleset r hr
    have : x = x' := last_rule_unique e1 e1' (by rw [g2, e]) e2 (by rw [g2]; exact g3)
    rw [← g1, this]
  have hex : ∃ r ∈ σ.toRules, r.id = x.2.id := by
    obtain ⟨A, B, e1, _⟩ := hx
    exact h2.complete x (by rw [e1]; simp)
  obtain ⟨r, hr, e⟩ := hex
  rw [hw]
  refine ⟨?_, fun hpr src hsrc hl hn => ?_⟩
  · rw [C126_rules]
    constructor
    · rintro ⟨r', hr', e', hq⟩
      have hq : db.programsOf r'.ruleset = [] := Classical.not_not.mp hq
      rw [hset r' ((hmem r').mp hr') e'] at hq
      exact hq
    · intro hq
      refine ⟨r, (hmem r).mpr hr, e, fun hne => hne ?_⟩
      show db.programsOf r.ruleset = []
      rw [hset r hr e, hq]
  · refine C126_reported_partial _ _ r ((hmem r).mpr hr) ?_ src ?_ hl hn
    · show db.programsOf r.ruleset ≠ []
      rw [hset r hr e]; exact hpr
    · rw [h2.patterns r hr, e]; exact hsrc

/-! ### Examples -/

/-- A rule with a parser that has no counterpart, a value with a macro, and a pattern that is converted. -/
def sampleReports : List PdbRule :=
  [⟨"1".toList, "ssh".toList, ["a @PCRE:x:.*@ b".toList, "a @NUMBER:n@".toList], [⟨[], "a 1".toList, none⟩], some [("k".toList, "$(echo)".toList), ("l".toList, "v".toList)], none⟩,
   ⟨"2".toList, "none".toList, ["c".toList], [], none, none⟩]

/-- The environment for them: only one of the rulesets has a program. -/
def sampleReportsEnv : Env := ⟨false, fun k => if k = "ssh".toList then ["sshd".toList] else [], fun _ => [], id⟩

example : warnings sampleReportsEnv sampleReports =
    [.macroValue "1".toList "k".toList "$(echo)".toList, .manyPatterns "1".toList, .unsupportedParser "PCRE".toList, .unsupported "PCRE:x:.*".toList,
     .unsupportedParser "PCRE".toList, .unsupported "PCRE:x:.*".toList, .noProgram "2".toList] := by decide +kernel

/-- the hypotheses of `C126_reported_partial` are met -/
example : LeftOut "a @PCRE:x:.*@ b".toList ∧ "a @PCRE:x:.*@ b".toList ∉ silent := ⟨(leftOut_iff _).mpr (.inl (by decide +kernel)), by decide⟩

/-- a pattern that is not left out -/
example : ¬ LeftOut "a @NUMBER:n@".toList := fun h => by
  rcases (leftOut_iff _).mp h with h | h
  · exact absurd h (by decide +kernel)
  · exact absurd h (by decide)

end Verif
