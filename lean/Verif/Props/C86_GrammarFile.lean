import Verif.Proofs.Peg
import Verif.Proofs.GrammarRun
import Verif.Spec.Samples
/-! C86: the generated parser implements the grammar file. -/
namespace Verif
open Spec

/-- C86: for every string the grammar file, read as a parsing expression grammar, has exactly one outcome. -/
theorem C86_one_outcome (cs : List Char) : ∃ o, RustPeg.pattern cs o ∧ ∀ o', RustPeg.pattern cs o' → o' = o := by
  have h := good_pattern.impl (encode cs) 0 cs .new ⟨[], rfl, by simp [encode]⟩
  split at h
  · obtain ⟨w, t, _, _, h⟩ := h
    exact ⟨_, h, fun o' h' => good_pattern.det _ _ _ h' h⟩
  · exact ⟨_, h, fun o' h' => good_pattern.det _ _ _ h' h⟩
  · exact ⟨_, h.2, fun o' h' => good_pattern.det _ _ _ h' h.2⟩

/-- C86: a string compiles to the tokens `ts` exactly if the grammar file matches all of it with the value `ts`; it is rejected exactly if the
grammar file fails or leaves something; and compiling panics exactly if an action of the grammar file does. -/
theorem C86_grammar_file (cs : List Char) :
    (∀ ts, compile (encode cs) = .ok (.ok ts) ↔ RustPeg.pattern cs (.matched ts [])) ∧
    ((∃ e, compile (encode cs) = .ok (.error e)) ↔ RustPeg.pattern cs .failed ∨ ∃ ts rest, rest ≠ [] ∧ RustPeg.pattern cs (.matched ts rest)) ∧
    ((∃ e, compile (encode cs) = .error e) ↔ RustPeg.pattern cs .panicked) := by
  have h := good_pattern.impl (encode cs) 0 cs .new ⟨[], rfl, by simp [encode]⟩
  have d := fun {a b} => good_pattern.det cs a b
  split at h
  · rename_i q v st heq
    obtain ⟨w, t, e1, e2, h⟩ := h
    have hq : q = (encode cs).length ↔ t = [] := by
      rw [e1, utf8Of_append]
      constructor
      · intro e
        cases t with
        | nil => rfl
        | cons c t =>
          have := utf8Of_length_pos (w := c :: t) (by simp)
          rw [List.length_append] at e
          omega
      · rintro rfl; simp [encode] at e2 ⊢; exact e2
    by_cases ht : t = []
    · subst ht
      have hc : compile (encode cs) = .ok (.ok v) := by
        unfold compile; simp only [heq, hq.mpr rfl, if_true]
      rw [hc]
      refine ⟨fun ts => ⟨fun e => ?_, fun e => ?_⟩, ⟨fun ⟨e, h'⟩ => by simp at h', ?_⟩, ⟨fun ⟨e, h'⟩ => by simp at h', fun h' => by have := d h h'; simp at this⟩⟩
      · simp at e; rw [← e]; exact h
      · have := d h e; injection this with e1 e2; rw [e1]
      · rintro (h' | ⟨ts, rest, hr, h'⟩)
        · have := d h h'; simp at this
        · have := d h h'; injection this with e1 e2; exact absurd e2.symm hr
    · have hc : ∃ e, compile (encode cs) = .ok (.error e) := by
        unfold compile; simp only [heq, if_neg (fun e => ht (hq.mp e))]
        exact ⟨_, rfl⟩
      obtain ⟨e, hc⟩ := hc
      rw [hc]
      refine ⟨fun ts => ⟨fun e => by simp at e, fun e => ?_⟩, ⟨fun _ => .inr ⟨v, t, ht, h⟩, fun _ => ⟨e, rfl⟩⟩, ⟨fun ⟨e, h'⟩ => by simp at h', fun h' => by have := d h h'; simp at this⟩⟩
      have := d h e; injection this with e1 e2; exact absurd e2 ht
  · rename_i st heq
    have hc : ∃ e, compile (encode cs) = .ok (.error e) := by
      unfold compile; simp only [heq]
      exact ⟨_, rfl⟩
    obtain ⟨e, hc⟩ := hc
    rw [hc]
    refine ⟨fun ts => ⟨fun e => by simp at e, fun e => ?_⟩, ⟨fun _ => .inl h, fun _ => ⟨e, rfl⟩⟩, ⟨fun ⟨e, h'⟩ => by simp at h', fun h' => by have := d h h'; simp at this⟩⟩
    have := d h e; simp at this
  · rename_i e heq
    have hc : compile (encode cs) = .error e := by unfold compile; simp only [heq]
    rw [hc]
    refine ⟨fun ts => ⟨fun e => by simp at e, fun e => ?_⟩, ⟨fun ⟨e, h'⟩ => by simp at h', ?_⟩, ⟨fun _ => h.2, fun _ => ⟨e, rfl⟩⟩⟩
    · have := d h.2 e; simp at this
    · rintro (h' | ⟨ts, rest, hr, h'⟩)
      · have := d h.2 h'; simp at this
      · have := d h.2 h'; simp at this

/-- C86: the language of the grammar file, with the tokens its actions build, is the documented one (`PatternString`). -/
theorem C86_language (cs : List Char) (ts : List Token) : RustPeg.pattern cs (.matched ts []) ↔ PatternString (encode cs) ts := by
  rw [← (C86_grammar_file cs).1 ts]
  exact compile_ok_iff (utf8Of_utf8 cs)

/-- All four outcomes occur: a match of everything, a failure, a match that leaves something, a panic. -/
example : ∃ ts, RustPeg.pattern "é%{INT(min_len=2):x}".toList (.matched ts []) :=
  ⟨_, ((C86_grammar_file _).1 [.literal b!"é", .parser (.int { name := some b!"x", characterSet := b!"0123456789", minLength := some 2, maxLength := none })]).mp (by decide +kernel)⟩

example : RustPeg.pattern [] .failed := by
  obtain ⟨o, h, _⟩ := C86_one_outcome []
  rcases (C86_grammar_file []).2.1.mp ⟨⟨1, 1, 0, [b!"%{", b!"<character>"]⟩, by decide +kernel⟩ with h | ⟨ts, rest, hr, h⟩
  · exact h
  · have := good_pattern.progress _ _ _ h
    simp at this

example : RustPeg.pattern "%{INT(min_len=18446744073709551616)}".toList .panicked := (C86_grammar_file _).2.2.mp ⟨.unwrap, by decide +kernel⟩

end Verif
