import Verif.Props.C40_C45_Loader
import Verif.Spec.Messages
/-! C139: test messages decide only whether a load succeeds.  `pairs` is a list of patterns, each with a second version of it. -/
namespace Verif
open Spec

namespace Messages
variable {T : Type}

theorem loaded_eq {p q : Pattern} (h : OtherMessages p q) : loaded q = loaded p := by
  obtain ⟨h1, h2⟩ := h
  have : q.testMessages.map (fun _ => ([] : List TestMessage)) = p.testMessages.map fun _ => [] := by
    cases hq : q.testMessages <;> cases hp : p.testMessages <;> simp [hq, hp] at h2 ⊢
  unfold loaded
  rw [h1] at this ⊢
  simp only at this ⊢
  rw [this]

theorem uuid_eq {p q : Pattern} (h : OtherMessages p q) : q.uuid = p.uuid := by rw [h.1]

theorem built_eq (I : MatcherImpl T) (pairs : List (Pattern × Pattern)) (h : ∀ c ∈ pairs, OtherMessages c.1 c.2) :
    built I (pairs.map (·.2)) = built I (pairs.map (·.1)) := by
  unfold built
  congr 1
  simp only [List.map_map]
  apply List.map_congr_left
  intro c hc
  exact loaded_eq (h c hc)

theorem validated (I : MatcherImpl T) (pairs : List (Pattern × Pattern)) (h : ∀ c ∈ pairs, OtherMessages c.1 c.2)
    (hm : ∀ c ∈ pairs, ∀ msg ∈ testsOf c.2, msg ∈ testsOf c.1) (m : T) (hv : Validated I (pairs.map (·.1)) m) : Validated I (pairs.map (·.2)) m := by
  refine ⟨by rw [built_eq I pairs h]; exact hv.1, ?_⟩
  intro pre q post he
  obtain ⟨A, B', rfl, rfl, hB⟩ := List.map_eq_append_iff.mp he
  obtain ⟨c, B, rfl, rfl, rfl⟩ := List.map_eq_cons_iff.mp hB
  obtain ⟨m1, h1, h2⟩ := hv.2 (A.map (·.1)) c.1 (B.map (·.1)) (by simp)
  have hc : c ∈ A ++ c :: B := by simp
  refine ⟨m1, ?_, fun msg hmsg => ?_⟩
  · have := built_eq I (A ++ [c]) (fun d hd => h d (by simp at hd ⊢; rcases hd with hd | hd <;> simp [hd]))
    simp only [List.map_append, List.map_cons, List.map_nil] at this
    rw [this]; exact h1
  · rw [uuid_eq (h c hc)]
    exact h2 msg (hm c hc msg hmsg)

end Messages

variable {T : Type}

/-- C139: leaving out test messages, repeating them or giving them in another order cannot make a load fail, and does not change the matcher. -/
theorem C139_fewer (I : MatcherImpl T) (pairs : List (Pattern × Pattern)) (h : ∀ c ∈ pairs, OtherMessages c.1 c.2)
    (hm : ∀ c ∈ pairs, ∀ msg ∈ testsOf c.2, msg ∈ testsOf c.1) (m : T) (rest : List BuildResult)
    (hl : fromSource I (pairs.map fun c => .ok c.1) = .ok (.ok m, rest)) : fromSource I (pairs.map fun c => .ok c.2) = .ok (.ok m, rest) := by
  rw [C40_from_source_ok] at hl ⊢
  obtain ⟨hr, ps, he, hv⟩ := hl
  refine ⟨hr, pairs.map (·.2), by simp [Function.comp_def], Messages.validated I pairs h hm m ?_⟩
  have : (ps.map Except.ok : List BuildResult) = (pairs.map (·.1)).map .ok := by rw [← he]; simp [Function.comp_def]
  have e : ps = pairs.map (·.1) := by
    have := congrArg delivered this
    rwa [delivered_map_ok, delivered_map_ok] at this
  rw [← e]; exact hv

/-- C139: only which test messages there are matters, not their order or number. -/
theorem C139_order (I : MatcherImpl T) (pairs : List (Pattern × Pattern)) (h : ∀ c ∈ pairs, OtherMessages c.1 c.2)
    (hm : ∀ c ∈ pairs, ∀ msg, msg ∈ testsOf c.2 ↔ msg ∈ testsOf c.1) (m : T) (rest : List BuildResult) :
    fromSource I (pairs.map fun c => .ok c.1) = .ok (.ok m, rest) ↔ fromSource I (pairs.map fun c => .ok c.2) = .ok (.ok m, rest) := by
  refine ⟨C139_fewer I pairs h (fun c hc msg => (hm c hc msg).mp) m rest, fun hl => ?_⟩
  have := C139_fewer I (pairs.map fun c => (c.2, c.1)) ?_ ?_ m rest (by simpa [Function.comp_def] using hl)
  · simpa [Function.comp_def] using this
  · intro c hc
    obtain ⟨d, hd, rfl⟩ := List.mem_map.mp hc
    obtain ⟨h1, h2⟩ := h d hd
    refine ⟨?_, h2.symm⟩
    show d.1 = { d.2 with testMessages := d.1.testMessages }
    rw [h1]
  · intro c hc msg hmsg
    obtain ⟨d, hd, rfl⟩ := List.mem_map.mp hc
    exact (hm d hd msg).mpr hmsg

/-- C139: whatever test messages they have, lists of otherwise the same patterns give the same matcher if they can be loaded. -/
theorem C139_same_matcher (I : MatcherImpl T) (pairs : List (Pattern × Pattern)) (h : ∀ c ∈ pairs, OtherMessages c.1 c.2) (m m' : T)
    (rest rest' : List BuildResult) (hl : fromSource I (pairs.map fun c => .ok c.1) = .ok (.ok m, rest))
    (hl' : fromSource I (pairs.map fun c => .ok c.2) = .ok (.ok m', rest')) : m = m' := by
  have e : ∀ f : Pattern × Pattern → Pattern, delivered (pairs.map fun c => .ok (f c)) = pairs.map f := fun f => by
    have := delivered_map_ok (pairs.map f)
    rwa [List.map_map] at this
  have h1 := ((C42_ignore_errors I _ m).mp (C42_agrees I _ _ m hl)).1
  have h2 := ((C42_ignore_errors I _ m').mp (C42_agrees I _ _ m' hl')).1
  rw [e] at h1 h2
  rw [Messages.built_eq I pairs h, h1] at h2
  exact Except.ok.inj h2

/-- C139: if errors are ignored, test messages matter only if parsing them panics. -/
theorem C139_ignored (I : MatcherImpl T) (pairs : List (Pattern × Pattern)) (h : ∀ c ∈ pairs, OtherMessages c.1 c.2) (m m' : T)
    (hl : fromSourceIgnoreErrors I (pairs.map fun c => .ok c.1) = .ok m) (hl' : fromSourceIgnoreErrors I (pairs.map fun c => .ok c.2) = .ok m') :
    m = m' := by
  have e : ∀ f : Pattern × Pattern → Pattern, delivered (pairs.map fun c => .ok (f c)) = pairs.map f := fun f => by
    have := delivered_map_ok (pairs.map f)
    rwa [List.map_map] at this
  have h1 := ((C42_ignore_errors I _ m).mp hl).1
  have h2 := ((C42_ignore_errors I _ m').mp hl').1
  rw [e] at h1 h2
  rw [Messages.built_eq I pairs h, h1] at h2
  exact Except.ok.inj h2

end Verif
