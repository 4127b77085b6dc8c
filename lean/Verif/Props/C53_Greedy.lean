import Verif.Props.C20_Order
/-! C53: what exactly a trailing GREEDY does. -/
namespace Verif
open Spec

theorem one_greedy_table (p : Pattern) (L : Bytes) (g : GreedyParser) (hp : p.pattern = [.literal L, .parser (.greedy g)]) :
    Table.of [p] = ⟨[⟨L, none, some p⟩], []⟩ := by
  unfold Table.of
  simp only [List.foldl_cons, List.foldl_nil]
  unfold Table.add
  rw [hp]
  simp [addLiteralLed, rowOf, Extended]

theorem one_greedy_proper (sip : Bytes → UInt64) (p : Pattern) (L : Bytes) (g : GreedyParser) (hp : p.pattern = [.literal L, .parser (.greedy g)])
    (hL : L ≠ []) (hu : Utf8 L) : Proper sip [p] := by
  refine ⟨?_, ?_, ?_, ?_⟩
  · intro q hq l hl; rw [List.mem_singleton.mp hq, hp] at hl; simp at hl; subst hl; exact hu
  · intro q hq l hl; rw [List.mem_singleton.mp hq, hp] at hl; simp at hl; subst hl; exact hL
  · intro q hq l rest e l'; rw [List.mem_singleton.mp hq, hp] at e; simp at e; rw [← e.2]; simp
  · rintro a b ⟨q, hq, e⟩; rw [List.mem_singleton.mp hq, hp] at e; simp at e

/-- C53, exactly: with a pattern that consists of a literal and a trailing GREEDY, a text that begins with the literal is matched with everything after
it as the value, unless nothing is left (no match) or the literal begins with a character outside ASCII (panic). -/
theorem C53_exact (sip : Bytes → UInt64) (p : Pattern) (L rest : Bytes) (g : GreedyParser)
    (hp : p.pattern = [.literal L, .parser (.greedy g)]) (hg : g.endString = none) (hL : L ≠ []) (hLu : Utf8 L) (hr : Utf8 rest) :
    (NonAsciiFirst L → (SuffixTree.build sip [p] >>= fun t => t.parse (L ++ rest)) = .error .slice) ∧
    (¬ NonAsciiFirst L → rest = [] → (SuffixTree.build sip [p] >>= fun t => t.parse (L ++ rest)) = .ok none) ∧
    (¬ NonAsciiFirst L → rest ≠ [] →
      ∃ res, (SuffixTree.build sip [p] >>= fun t => t.parse (L ++ rest)) = .ok (some res) ∧ IsResult res p [(.greedy g, rest)]) := by
  have hpr := one_greedy_proper sip p L g hp hL hLu
  have hT := one_greedy_table p L g hp
  obtain ⟨t, hb⟩ : ∃ t, SuffixTree.build sip [p] = .ok t := ⟨_, build_single ..⟩
  rw [hb]
  have hx : Utf8 (L ++ rest) := utf8_append hLu hr
  have h := C66_panics_iff sip [p] hpr.utf8 hpr.nonempty hpr.split hpr.hashes t hb (L ++ rest) hx
  rw [hT] at h
  have hfirst : ∀ y, NonAsciiFirst (L ++ y) → NonAsciiFirst L := by
    rintro y ⟨b, t, e, hb⟩
    cases L with
    | nil => exact absurd rfl hL
    | cons c L => simp at e; exact ⟨c, L, rfl, e.1 ▸ hb⟩
  have hpan : NonAsciiFirst L → (Table.mk [⟨L, none, some p⟩] []).Panics (L ++ rest) := by
    intro hn
    refine .inl ⟨[], L ++ rest, rfl, by simp [hL], .inl rfl, ⟨_, List.mem_singleton.mpr rfl, List.nil_prefix, hL⟩, .inr ?_⟩
    exact ⟨_, List.mem_singleton.mpr rfl, L, rfl, hn⟩
  have hnp : ¬ NonAsciiFirst L → ¬ (Table.mk [⟨L, none, some p⟩] []).Panics (L ++ rest) := by
    rintro hn (⟨b, y, e, _, hs, ⟨r, hr1, hr2, hr3⟩, hc⟩ | ⟨_, b, _, ⟨_, A, q, B, e, _⟩ | ⟨_, row, hrow, _, q, hq, hrun⟩⟩)
    · have hb0 : b = [] := by
        rcases hs with h | ⟨s, hs, e', _⟩ | ⟨s, hs, s', hs', hne, _⟩
        · exact h
        · rw [List.mem_singleton.mp hs] at e'
          rw [List.mem_singleton.mp hr1] at hr3
          exact absurd e' hr3
        · rw [List.mem_singleton.mp hs, List.mem_singleton.mp hs'] at hne
          exact absurd rfl hne
      subst hb0
      rcases hc with hc | ⟨r', hr', z, e', hz⟩
      · simp only [List.nil_append] at e
        rw [← e] at hc
        exact hn (hfirst _ hc)
      · rw [List.mem_singleton.mp hr'] at e'
        simp only [List.nil_append] at e'
        subst e'
        exact hn hz
    · simp at e
    · rw [List.mem_singleton.mp hrow] at hq
      simp only [Option.some.injEq] at hq
      subst hq
      rw [hp] at hrun
      generalize hxx : L ++ rest = x at hrun
      cases hrun with
      | here _ _ _ _ hc =>
        subst hxx
        rcases hc with hc | hc
        · exact hn (hfirst _ hc)
        · exact hn hc
      | literal _ _ y hrun =>
        have : rest = y := List.append_cancel_left hxx
        subst this
        generalize hrr : rest = x at hrun
        cases hrun with
        | cut _ _ v _ hm hv =>
          simp only [ParserMatch, hg] at hm
          rw [hm, ← hrr] at hv
          exact hv hr
        | parser _ _ v y _ hrun => cases hrun
  refine ⟨fun hn => h.1 (hpan hn), ?_, ?_⟩
  · intro hn e
    obtain ⟨r, hr, ha⟩ := h.2 (hnp hn)
    subst e
    rw [show (Except.ok t >>= fun t => t.parse (L ++ [])) = t.parse (L ++ []) from rfl, hr]
    have := ha.1 _ (List.mem_singleton.mpr rfl) (by simp)
    rw [this]
    rfl
  · intro hn e
    obtain ⟨r, hr, ha⟩ := h.2 (hnp hn)
    rw [show (Except.ok t >>= fun t => t.parse (L ++ rest)) = t.parse (L ++ rest) from rfl, hr]
    have hm : MatchesStrict p.pattern (L ++ rest) [(.greedy g, rest)] := by
      rw [hp]
      refine .literal L _ rest _ (fun _ => e) ?_
      have := MatchesStrict.parser (.greedy g) [] rest [] [] (by simp [ParserMatch, hg]) .nil
      simpa using this
    obtain ⟨res, er, hres⟩ := (answer_one_row hL e ha).1 [] p [] _ rfl (by simp) hm
    exact ⟨res, by rw [er], hres⟩

/-! The three cases: `app%{GREEDY:x}` and `é%{GREEDY:x}`. -/

example : (SuffixTree.build Samples.sip [Samples.pat 1 [.literal b!"app", .parser (Samples.greedy b!"x" none)]] >>= fun t => t.parse b!"appé") =
      .ok (some ⟨Samples.pat 1 [], [(b!"x", b!"é")]⟩) ∧
    (SuffixTree.build Samples.sip [Samples.pat 1 [.literal b!"app", .parser (Samples.greedy b!"x" none)]] >>= fun t => t.parse b!"app") = .ok none ∧
    (SuffixTree.build Samples.sip [Samples.pat 1 [.literal b!"é", .parser (Samples.greedy b!"x" none)]] >>= fun t => t.parse b!"éa") =
      .error .slice := by decide +kernel

end Verif
