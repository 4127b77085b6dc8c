import Verif.Spec.FamilyPanics
import Verif.Props.C66_Panics
import Verif.Props.C75_C76_Families
/-! C75, C76 for texts in any script: exactly when lists of patterns that do not disturb each other make `parse` panic. -/
namespace Verif
open Spec

theorem lists_leading {ps : List Pattern} {t : Table} (h : Lists ps t) (l : Bytes) : (∃ row ∈ t.rows, row.text = l) ↔ Leading ps l :=
  ⟨fun ⟨row, h1, h2⟩ => h2 ▸ (h.rows row h1).1, h.all l⟩

theorem lists_extended {ps : List Pattern} {t : Table} (h : Lists ps t) (b : Bytes) :
    Extended t.rows b ↔ ∃ z, z ≠ [] ∧ Leading ps (b ++ z) := by
  constructor
  · rintro ⟨row, h1, ⟨z, hz⟩, h3⟩
    refine ⟨z, ?_, (lists_leading h _).mp ⟨row, h1, hz.symm⟩⟩
    rintro rfl
    exact h3 (by simpa using hz.symm)
  · rintro ⟨z, hz, hl⟩
    obtain ⟨row, h1, h2⟩ := h.all _ hl
    exact ⟨row, h1, ⟨z, h2.symm⟩, fun e => hz (by rw [e] at h2; simpa using h2)⟩

theorem family_panics {ps : List Pattern} {t : Table} (h : Lists ps t) (x : Bytes) : t.Panics x ↔ FamilyPanics ps x := by
  have e1 : ∀ l, (∀ row ∈ t.rows, row.text ≠ l) ↔ ¬ Leading ps l := fun l => by
    rw [← lists_leading h]
    simp
  have e2 : ∀ b, (∃ r ∈ t.rows, ∃ z, r.text = b ++ z ∧ NonAsciiFirst z) ↔ ∃ z, Leading ps (b ++ z) ∧ NonAsciiFirst z := fun b => by
    constructor
    · rintro ⟨r, h1, z, h2, h3⟩
      exact ⟨z, (lists_leading h _).mp ⟨r, h1, h2⟩, h3⟩
    · rintro ⟨z, h2, h3⟩
      obtain ⟨r, h1, e⟩ := h.all _ h2
      exact ⟨r, h1, z, e, h3⟩
  have e3 : ∀ b, (∃ row ∈ t.rows, row.text = b ∧ ∃ p, row.more = some p ∧ RunsInto p.pattern x) ↔
      ∃ p, Continuing ps b p ∧ RunsInto p.pattern x := fun b => by
    constructor
    · rintro ⟨row, h1, rfl, p, h3, h4⟩
      exact ⟨p, ((h.rows row h1).2.2 p).mp h3, h4⟩
    · rintro ⟨p, h1, h2⟩
      obtain ⟨m, rest, _, e⟩ := id h1
      obtain ⟨row, r1, rfl⟩ := h.all b ⟨p, m, rest, e⟩
      exact ⟨row, r1, rfl, p, ((h.rows row r1).2.2 p).mpr h1, h2⟩
  simp only [Table.Panics, LookupPanics, Deepest, FamilyPanics, stop_iff h, lists_extended h, e1, e2, e3, h.parsers, and_assoc]

/-- C75: for patterns in any script that could be added, parsing a UTF-8 text panics exactly if `FamilyPanics` says so, and otherwise gives the
answer of the family. -/
theorem C75_family_panics (sip : Bytes → UInt64) (ps : List Pattern) (hd : Undisturbed ps) (hu : ∀ p ∈ ps, Utf8Lits p)
    (hne : ∀ p ∈ ps, NonemptyLits p) (hsl : ∀ p ∈ ps, SplitLiterals p) (hcol : NoCollision sip ps) (t : SuffixTree)
    (hb : SuffixTree.build sip ps = .ok t) (text : Bytes) (hx : Utf8 text) :
    (FamilyPanics ps text → t.parse text = .error .slice) ∧
    (¬ FamilyPanics ps text → ∃ r, t.parse text = .ok r ∧ FamilyAnswer ps text r) := by
  obtain ⟨h1, h2⟩ := C66_panics_iff sip ps hu hne hsl hcol t hb text hx
  rw [← family_panics (lists_of hd)]
  refine ⟨h1, fun hn => ?_⟩
  obtain ⟨r, h3, h4⟩ := h2 hn
  exact ⟨r, h3, family_answer (lists_of hd) h4⟩

/-- C76 for any script: two undisturbed lists of the same patterns, those that begin with a parser being in the same order, give matchers that
behave in the same way on every text: the same answers and the same panics. -/
theorem C76_order_any_script (sip : Bytes → UInt64) (ps qs : List Pattern) (hd : Undisturbed ps) (hd' : Undisturbed qs)
    (hsame : ∀ p, p ∈ ps ↔ p ∈ qs) (hpar : parserLed ps = parserLed qs) (hu : ∀ p ∈ ps, Utf8Lits p) (hne : ∀ p ∈ ps, NonemptyLits p)
    (hsl : ∀ p ∈ ps, SplitLiterals p) (hcol : NoCollision sip ps) (t t' : SuffixTree) (hb : SuffixTree.build sip ps = .ok t)
    (hb' : SuffixTree.build sip qs = .ok t') (text : Bytes) (hx : Utf8 text) : t.parse text = t'.parse text := by
  have hcol' : NoCollision sip qs := by
    rintro a b ⟨p, hp, e⟩ ⟨q, hq, e'⟩
    exact hcol a b ⟨p, (hsame p).mpr hp, e⟩ ⟨q, (hsame q).mpr hq, e'⟩
  have e1 : ∀ l p, Alone ps l p ↔ Alone qs l p := fun l p => by simp [Alone, hsame]
  have e2 : ∀ l p, Continuing ps l p ↔ Continuing qs l p := fun l p => by simp [Continuing, hsame]
  have e3 : ∀ l, Leading ps l ↔ Leading qs l := fun l => by simp [Leading, hsame]
  obtain ⟨h1, h2⟩ := C75_family_panics sip ps hd hu hne hsl hcol t hb text hx
  obtain ⟨h1', h2'⟩ := C75_family_panics sip qs hd' (fun p hp => hu p ((hsame p).mpr hp)) (fun p hp => hne p ((hsame p).mpr hp))
    (fun p hp => hsl p ((hsame p).mpr hp)) hcol' t' hb' text hx
  have ep : FamilyPanics ps text ↔ FamilyPanics qs text := by
    simp only [FamilyPanics, FamilyStop, e2, e3, hpar]
  by_cases hp : FamilyPanics ps text
  · rw [h1 hp, h1' (ep.mp hp)]
  · obtain ⟨r, r1, r2⟩ := h2 hp
    obtain ⟨r', r1', r2'⟩ := h2' (fun h => hp (ep.mpr h))
    have : FamilyAnswer ps text r' := by
      simpa only [FamilyAnswer, FamilyStop, e1, e2, e3, hpar] using r2'
    rw [r1, r1', C75_answer_unique ps text r r' r2 this]

/-! A list in another script and its reverse meet the hypotheses. -/

def greekSample : List Pattern :=
  [Samples.pat 1 [.literal b!"xaα ", .parser (Samples.int b!"i")], Samples.pat 2 [.literal b!"xbψ"], Samples.pat 3 [.literal b!"x"],
   Samples.pat 4 [.parser (Samples.int b!"i"), .literal b!"!"]]

theorem greekSample_undisturbed : Undisturbed greekSample ∧ Undisturbed greekSample.reverse := by
  have h : ∀ ps : List Pattern, (ps.Pairwise fun p q => match p.pattern, q.pattern with
      | .literal l :: rest, .literal l' :: rest' => (l' = l → (rest = [] ↔ rest' ≠ [])) ∧ (rest' ≠ [] → l' <+: l → l' = l)
      | .parser a :: _, .parser b :: _ => a ≠ b
      | _, _ => True) → Undisturbed ps := by
    intro ps h
    refine h.imp ?_
    intro p q hpq
    refine ⟨?_, ?_⟩
    · intro l rest l' rest' e e'; rw [e, e'] at hpq; exact hpq
    · intro l rest l' rest' e e'; rw [e, e'] at hpq; exact hpq
  refine ⟨h _ ?_, h _ ?_⟩ <;> simp [greekSample, Samples.pat] <;> decide

theorem greekSample_lits : (∀ p ∈ greekSample, Utf8Lits p) ∧ (∀ p ∈ greekSample, NonemptyLits p) ∧ (∀ p ∈ greekSample, SplitLiterals p) := by
  refine ⟨?_, ?_, ?_⟩
  · intro p hp l hl
    simp [greekSample] at hp
    rcases hp with rfl | rfl | rfl | rfl <;> simp [Samples.pat] at hl <;> subst hl
    · exact ⟨"xaα ".toList, by decide +kernel⟩
    · exact ⟨"xbψ".toList, by decide +kernel⟩
    · exact ⟨"x".toList, by decide +kernel⟩
    · exact ⟨"!".toList, by decide +kernel⟩
  · intro p hp l hl
    simp [greekSample] at hp
    rcases hp with rfl | rfl | rfl | rfl <;> simp [Samples.pat] at hl <;> subst hl <;> simp
  · intro p hp l rest h l'
    simp [greekSample] at hp
    rcases hp with rfl | rfl | rfl | rfl <;> simp [Samples.pat] at h <;> obtain ⟨_, rfl⟩ := h <;> simp

theorem greekSample_hashes : NoCollision Samples.sip greekSample := by
  rintro a b ⟨p, hp, ha⟩ ⟨q, hq, hb⟩ h
  simp [greekSample] at hp hq
  rcases hp with rfl | rfl | rfl | rfl <;> simp [Samples.pat] at ha <;> subst ha <;>
  rcases hq with rfl | rfl | rfl | rfl <;> simp [Samples.pat] at hb <;> subst hb <;>
  first | rfl | (revert h; decide +kernel)

/-- Both lists can be added, and their matchers answer alike and panic on the same texts: `xψ` and `ψ` go on with a character outside ASCII where
literals go on. -/
example : ∀ ps ∈ [greekSample, greekSample.reverse], ([b!"xaα 1", b!"xa", b!"x", b!"xbψ", b!"4!", b!"xψ", b!"ψ"].map fun x =>
      (SuffixTree.build Samples.sip ps >>= fun t => t.parse x)) =
    [.ok (some { pattern := Samples.pat 1 [], values := [(b!"i", b!"1")] }), .ok none, .ok (some { pattern := Samples.pat 3 [], values := [] }),
     .ok (some { pattern := Samples.pat 2 [], values := [] }), .ok (some { pattern := Samples.pat 4 [], values := [(b!"i", b!"4")] }),
     .error .slice, .error .slice] := by decide +kernel

/-- That both lists can be added is needed: one order of two bare literals can be added, the other one panics. -/
theorem C76_adding_depends_on_order :
    ∃ ps : List Pattern, Undisturbed ps ∧ Undisturbed ps.reverse ∧ (∃ t, SuffixTree.build Samples.sip ps = .ok t) ∧
      SuffixTree.build Samples.sip ps.reverse = .error .slice := by
  have key : ((SuffixTree.build Samples.sip [Samples.pat 1 [.literal b!"xα"], Samples.pat 2 [.literal b!"x"]]).toOption.isSome = true) ∧
      (match SuffixTree.build Samples.sip [Samples.pat 2 [.literal b!"x"], Samples.pat 1 [.literal b!"xα"]] with
        | .error e => decide (e = .slice) | .ok _ => false) = true := by decide +kernel
  refine ⟨[Samples.pat 1 [.literal b!"xα"], Samples.pat 2 [.literal b!"x"]], ?_, ?_, ?_, ?_⟩
  · simp [Undisturbed, Samples.pat]; rintro _ _ _ _ rfl rfl rfl rfl; simp
  · simp [Undisturbed, Samples.pat]; rintro _ _ _ _ rfl rfl rfl rfl; simp
  · revert key
    cases SuffixTree.build Samples.sip [Samples.pat 1 [.literal b!"xα"], Samples.pat 2 [.literal b!"x"]] with
    | ok t => exact fun _ => ⟨t, rfl⟩
    | error e => simp [Except.toOption]
  · have k2 := key.2
    simp only [List.reverse_cons, List.reverse_nil, List.nil_append, List.cons_append]
    revert k2
    cases SuffixTree.build Samples.sip [Samples.pat 2 [.literal b!"x"], Samples.pat 1 [.literal b!"xα"]] with
    | ok t => simp
    | error e => simp

end Verif
