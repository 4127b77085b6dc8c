import Verif.Spec.Readable
import Verif.Props.C103_TextBetween
/-! C103: exactly which XML files the script /repo/utils/pdb2adb can read. -/
namespace Verif
open Spec Perl

namespace Readability

mutual
theorem named_occurs (name : Str) : ∀ x : Xml, x.named name ≠ [] ↔ Occurs name x
  | .text s => by
    rw [Xml.named]
    exact ⟨fun h => absurd rfl h, fun h => by cases h⟩
  | .elem n a cs => by
    rw [Xml.named]
    constructor
    · intro h
      split at h
      · rename_i e; subst e; exact .here a cs
      · obtain ⟨x, hx, ho⟩ := (namedIn_occurs name cs).mp h
        exact .inside n a cs x hx ho
    · intro h
      cases h with
      | here => rw [if_pos rfl]; simp
      | inside _ _ _ x hx ho =>
        split
        · simp
        · exact (namedIn_occurs name cs).mpr ⟨x, hx, ho⟩
theorem namedIn_occurs (name : Str) : ∀ xs : List Xml, Xml.namedIn name xs ≠ [] ↔ ∃ x ∈ xs, Occurs name x
  | [] => by rw [Xml.namedIn]; simp
  | x :: xs => by
    rw [Xml.namedIn]
    have h1 := named_occurs name x
    have h2 := namedIn_occurs name xs
    constructor
    · intro h
      by_cases hx : x.named name = []
      · rw [hx, List.nil_append] at h
        obtain ⟨y, hy, ho⟩ := h2.mp h
        exact ⟨y, List.mem_cons_of_mem _ hy, ho⟩
      · exact ⟨x, List.mem_cons_self .., h1.mp hx⟩
    · rintro ⟨y, hy, ho⟩ e
      rw [List.append_eq_nil_iff] at e
      rcases List.mem_cons.mp hy with rfl | hy
      · exact h1.mpr ho e.1
      · exact h2.mpr ⟨y, hy, ho⟩ e.2
end

theorem parent_some (name : Str) (anc : Ancestors) : (parentNamed name anc).isSome = true ↔ name ∈ anc.map Prod.fst := by
  rw [parentNamed, Option.isSome_map, List.find?_isSome]
  constructor
  · rintro ⟨x, hx, e⟩; exact List.mem_map.mpr ⟨x, hx, of_decide_eq_true e⟩
  · intro h
    obtain ⟨x, hx, e⟩ := List.mem_map.mp h
    exact ⟨x, hx, decide_eq_true e⟩

theorem parent_cases (name : Str) (anc : Ancestors) : (name ∈ anc.map Prod.fst ∧ ∃ a, parentNamed name anc = some a) ∨ (name ∉ anc.map Prod.fst ∧ parentNamed name anc = none) := by
  have h := parent_some name anc
  cases hp : parentNamed name anc with
  | none => rw [hp] at h; exact .inr ⟨fun hm => (by have := h.mpr hm; cases this), rfl⟩
  | some a => rw [hp] at h; exact .inl ⟨h.mp rfl, a, rfl⟩

theorem last_some (name : Str) (cs : List Xml) : (lastChild name cs).isSome = true ↔ ∃ a ds, .elem name a ds ∈ cs := by
  induction cs with
  | nil => simp [lastChild]
  | cons x xs ih =>
    rw [lastChild]
    cases h : lastChild name xs with
    | some r =>
      rw [h] at ih
      obtain ⟨a, ds, hm⟩ := ih.mp rfl
      simp only [Option.isSome_some, true_iff]
      exact ⟨a, ds, List.mem_cons_of_mem _ hm⟩
    | none =>
      rw [h] at ih
      simp only
      split
      · rename_i hn
        cases x with
        | text s => simp [Xml.isNamed] at hn
        | elem n a ds =>
          simp only [Xml.isNamed, decide_eq_true_eq] at hn
          subst hn
          simp only [Option.isSome_some, true_iff]
          exact ⟨a, ds, List.mem_cons_self ..⟩
      · rename_i hn
        simp only [Option.isSome_none, Bool.false_eq_true, false_iff]
        rintro ⟨a, ds, hm⟩
        rcases List.mem_cons.mp hm with e | hm
        · subst e; simp [Xml.isNamed] at hn
        · exact absurd (ih.mpr ⟨a, ds, hm⟩) (by simp)

theorem within_mem {up : List Str} {c p : Str} (h : (decide (up.take 1 = [p]) || decide (up.take 2 = [c, p])) = true) : p ∈ up := by
  rw [Bool.or_eq_true, decide_eq_true_eq, decide_eq_true_eq] at h
  rcases h with h | h
  · exact List.mem_of_mem_take (i := 1) (h ▸ List.mem_singleton.mpr rfl)
  · exact List.mem_of_mem_take (i := 2) (h ▸ by simp)

theorem example_some (we : Bool) (anc : Ancestors) (cs : List Xml) (σ : PdbData) (hr : "rule".toList ∈ anc.map Prod.fst) :
    (exampleHandler we anc cs σ).isSome = true ↔ (we = true → ∃ a ds, .elem "test_message".toList a ds ∈ cs) := by
  rw [exampleHandler]
  rcases parent_cases "rule".toList anc with ⟨_, a, hp⟩ | ⟨hn, _⟩
  · rw [hp]
    cases we with
    | false => simp
    | true =>
      have h := last_some "test_message".toList cs
      cases hl : lastChild "test_message".toList cs with
      | none => rw [hl] at h; simpa using h
      | some r => rw [hl] at h; simpa using h
  · exact absurd hr hn

theorem action_some (anc : Ancestors) (cs : List Xml) (σ : PdbData) :
    (actionHandler anc cs σ).isSome = true ↔ "rule".toList ∈ anc.map Prod.fst ∧ ∃ x ∈ cs, Occurs "message".toList x := by
  rw [actionHandler, ← namedIn_occurs]
  rcases parent_cases "rule".toList anc with ⟨hm, a, hp⟩ | ⟨hn, hp⟩
  · rw [hp]
    simp only [hm, true_and]
    cases Xml.namedIn "message".toList cs with
    | nil => simp
    | cons y ys => simp
  · rw [hp]; simp only [hn, false_and]; simp

theorem handle_some (we : Bool) (anc : Ancestors) (name : Str) (atts : List (Str × Str)) (cs : List Xml) (σ : PdbData) :
    (handle we anc name atts cs σ).isSome = true ↔ InOrder we (anc.map Prod.fst) name cs := by
  -- what the claim is for each name
  have other : ∀ (_ : name ≠ "ruleset".toList) (_ : name ≠ "rule".toList) (_ : name ≠ "description".toList) (_ : name ≠ "action".toList)
      (_ : name = "example".toList → (anc.map Prod.fst).take 1 = ["rule".toList] ∨ (anc.map Prod.fst).take 2 = ["examples".toList, "rule".toList] → we = true →
        ∃ a ds, .elem "test_message".toList a ds ∈ cs), InOrder we (anc.map Prod.fst) name cs :=
    fun h1 h2 h3 h4 h5 => ⟨fun e => absurd e h1, fun e => absurd e h2, fun e => absurd e h3, fun e => absurd e h4, h5⟩
  by_cases h1 : name = "ruleset".toList
  · subst h1
    simp only [handle, if_true]
    constructor
    · intro h
      refine ⟨fun _ => ?_, fun e => absurd e (by decide), fun e => absurd e (by decide), fun e => absurd e (by decide), fun e => absurd e (by decide)⟩
      cases anc with
      | nil => cases h
      | cons a anc => simp
    · intro h
      have := h.ruleset rfl
      cases anc with
      | nil => exact absurd rfl this
      | cons a anc => rfl
  by_cases h2 : name = "rule".toList
  · subst h2
    simp only [handle]
    rw [if_neg (by decide), if_pos trivial]
    rcases parent_cases "ruleset".toList anc with ⟨hm, a, hp⟩ | ⟨hn, hp⟩
    · rw [hp]
      exact ⟨fun _ => ⟨fun e => absurd e (by decide), fun _ => hm, fun e => absurd e (by decide), fun e => absurd e (by decide), fun e => absurd e (by decide)⟩, fun _ => rfl⟩
    · rw [hp]
      exact ⟨fun h => (by cases h), fun h => absurd (h.rule rfl) hn⟩
  by_cases h3 : name = "description".toList
  · subst h3
    simp only [handle]
    rw [if_neg (by decide), if_neg (by decide), if_pos trivial]
    rcases parent_cases "ruleset".toList anc with ⟨hm, a, hp⟩ | ⟨hn, hp⟩
    · rw [hp]
      exact ⟨fun _ => ⟨fun e => absurd e (by decide), fun e => absurd e (by decide), fun _ => hm, fun e => absurd e (by decide), fun e => absurd e (by decide)⟩, fun _ => rfl⟩
    · rw [hp]
      exact ⟨fun h => (by cases h), fun h => absurd (h.description rfl) hn⟩
  by_cases h4 : name = "action".toList
  · subst h4
    have : handle we anc "action".toList atts cs σ = actionHandler anc cs σ := by
      simp only [handle]
      rw [if_neg (by decide), if_neg (by decide), if_neg (by decide), if_neg (by simp), if_neg (by simp), if_neg (by simp), if_pos trivial]
    rw [this, action_some]
    exact ⟨fun h => ⟨fun e => absurd e (by decide), fun e => absurd e (by decide), fun e => absurd e (by decide), fun _ => h, fun e => absurd e (by decide)⟩,
      fun h => h.action rfl⟩
  by_cases h5 : name = "example".toList
  · subst h5
    simp only [handle]
    rw [if_neg (by decide), if_neg (by decide), if_neg (by decide), if_neg (by simp), if_neg (by simp)]
    split
    · rename_i hw
      rw [Bool.and_eq_true] at hw
      rw [example_some _ _ _ _ (within_mem hw.2)]
      have hw' := hw.2
      rw [Bool.or_eq_true, decide_eq_true_eq, decide_eq_true_eq] at hw'
      exact ⟨fun h => other h1 h2 h3 h4 fun _ _ => h, fun h => h.example_ rfl hw'⟩
    · rename_i hw
      refine ⟨fun _ => other h1 h2 h3 h4 fun _ hu => absurd ?_ hw, fun _ => ?_⟩
      · rw [Bool.and_eq_true, Bool.or_eq_true, decide_eq_true_eq, decide_eq_true_eq, decide_eq_true_eq]
        exact ⟨trivial, hu⟩
      · rw [if_neg, if_neg]
        · rfl
        · rw [show decide ("example".toList = "value".toList) = false from rfl]; exact Bool.false_ne_true
        · rw [show decide ("example".toList = "tag".toList) = false from rfl]; exact Bool.false_ne_true
  · have hin : InOrder we (anc.map Prod.fst) name cs := other h1 h2 h3 h4 fun e => absurd e h5
    refine iff_of_true ?_ hin
    have par : ∀ (p : Str), p ∈ anc.map Prod.fst → ∃ a, parentNamed p anc = some a := by
      intro p hp
      rcases parent_cases p anc with ⟨_, h⟩ | ⟨h, _⟩
      · exact h
      · exact absurd hp h
    simp only [handle]
    rw [if_neg h1, if_neg h2, if_neg h3]
    split
    · rename_i hw
      rw [Bool.and_eq_true] at hw
      obtain ⟨a, ha⟩ := par _ (within_mem hw.2)
      rw [ha]; rfl
    · split
      · rename_i hw
        rw [Bool.and_eq_true] at hw
        obtain ⟨a, ha⟩ := par _ (within_mem hw.2)
        rw [ha]; rfl
      · rw [if_neg (by rw [decide_eq_false h5]; exact Bool.false_ne_true)]
        split
        · rename_i hw
          rw [Bool.and_eq_true] at hw
          obtain ⟨a, ha⟩ := par _ (within_mem hw.2)
          rw [ha]; rfl
        · split
          · rename_i hw
            rw [Bool.and_eq_true] at hw
            obtain ⟨a, ha⟩ := par _ (within_mem hw.2)
            rw [ha]; rfl
          · rfl

mutual
theorem read_some (we : Bool) : ∀ (x : Xml) (anc : Ancestors) (σ : PdbData), (readXml we anc x σ).isSome = true ↔ Readable we (anc.map Prod.fst) x
  | .text s, anc, σ => by rw [readXml]; exact ⟨fun _ => .text _ s, fun _ => rfl⟩
  | .elem n a cs, anc, σ => by
    rw [readXml]
    have h := reads_some we cs ((n, a) :: anc) σ
    cases hr : readXmls we ((n, a) :: anc) cs σ with
    | none =>
      rw [hr] at h
      refine ⟨fun e => (by cases e), fun e => ?_⟩
      cases e with
      | elem _ _ _ _ h1 h2 => have := h.mpr h2; cases this
    | some τ =>
      rw [hr] at h
      have h2 := h.mp rfl
      show (handle we anc n a cs τ).isSome = true ↔ _
      rw [handle_some]
      constructor
      · intro h1; exact .elem _ n a cs h1 h2
      · intro e; cases e with | elem _ _ _ _ h1 _ => exact h1
theorem reads_some (we : Bool) : ∀ (xs : List Xml) (anc : Ancestors) (σ : PdbData), (readXmls we anc xs σ).isSome = true ↔ ∀ x ∈ xs, Readable we (anc.map Prod.fst) x
  | [], anc, σ => by rw [readXmls]; simp
  | x :: xs, anc, σ => by
    rw [readXmls, List.forall_mem_cons]
    have h := read_some we x anc σ
    cases hr : readXml we anc x σ with
    | none =>
      rw [hr] at h
      refine ⟨fun e => (by cases e), fun e => ?_⟩
      have := h.mpr e.1; cases this
    | some τ =>
      rw [hr] at h
      have h2 := reads_some we xs anc τ
      show (readXmls we anc xs τ).isSome = true ↔ _
      rw [h2]
      exact ⟨fun e => ⟨h.mp rfl, e⟩, fun e => e.2⟩
end

end Readability

/-- C103: the script reads a file exactly if all its elements are in order; otherwise it stops with an exception. -/
theorem C103_readable (withExamples : Bool) (x : Xml) : (∃ σ, readXml withExamples [] x ⟨[], []⟩ = some σ) ↔ Readable withExamples [] x := by
  have h := Readability.read_some withExamples x [] ⟨[], []⟩
  rw [Option.isSome_iff_exists] at h
  exact h

/-- C103: for a file that has an element that is not in order the script prints nothing. -/
theorem C103_unreadable_dies (opts : Options) (fresh : Nat → Str) (order : List (Val × Val) → List (Val × Val)) (shuffle : List PdbRule → List PdbRule) (x : Xml)
    (h : ¬ Readable opts.examples [] x) : script opts fresh order shuffle x = .dies := by
  cases hr : readXml opts.examples [] x ⟨[], []⟩ with
  | none => rw [script, hr]
  | some σ => exact absurd ((C103_readable _ _).mp ⟨σ, hr⟩) h

/-- C103: every patterndb, with any text between its elements, is readable. -/
theorem C103_patterndb_readable (withExamples : Bool) (db : PatternDb) (x : Xml) (h : withoutText x = withoutText (patternDbXml db)) : Readable withExamples [] x := by
  obtain ⟨σ, h, _⟩ := C103_read_with_text withExamples db x h
  exact (C103_readable _ _).mp ⟨σ, h⟩

/-- an action without a message -/
example : ¬ Readable true [] (.elem "ruleset".toList [] [.elem "rule".toList [] [.elem "action".toList [] [.elem "values".toList [] []]]]) := by
  intro h
  cases h with
  | elem _ _ _ _ h _ => exact h.ruleset rfl rfl

/-- the same in a patterndb: only the action is not in order -/
example : ¬ Readable true [] (.elem "patterndb".toList [] [.elem "ruleset".toList [] [.elem "rule".toList [] [.elem "action".toList [] [.elem "values".toList [] []]]]]) := by
  rw [← C103_readable]
  rintro ⟨σ, h⟩
  exact absurd h (by simp [readXml, readXmls, handle, actionHandler, parentNamed, Xml.namedIn, Xml.named])

end Verif
