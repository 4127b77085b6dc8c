import Verif.Proofs.SuffixPanic
import Verif.Props.C66_Panics
/-! C73, C74: the answers and the panics of the suffix-array matcher for every history. -/
namespace Verif
open Spec

/-- C73: for every history of patterns with UTF-8 literals (and any parsers) and every UTF-8 text, building succeeds, and unless `parse` panics
its answer is the one described by `SuffixAnswer`. -/
theorem C73_answer (sip : Bytes → UInt64) (ps : List Pattern) (hu : ∀ p ∈ ps, Utf8Lits p) (hcol : NoCollision sip ps) :
    ∃ t, SuffixTable.build sip ps = .ok t ∧ ∀ text, Utf8 text → ∀ r, t.parse text = .ok r → SuffixAnswer ps text r := by
  obtain ⟨t, hb, _⟩ := sbuild_reach sip ps
  exact ⟨t, hb, fun text hx r hr => suffix_answer hb hu hcol hx hr⟩

/-- C73: if some pattern begins with a literal, exactly one leading literal is chosen for each text. -/
theorem C73_chosen (ps : List Pattern) (hu : ∀ p ∈ ps, Utf8Lits p) (text : Bytes) (hx : Utf8 text) (hl : ∃ l, Leads ps l) :
    ∃ l, Chosen ps text l ∧ ∀ l', Chosen ps text l' → l' = l := by
  obtain ⟨t, _, h⟩ := sbuild_reach (fun _ => 0) ps
  obtain ⟨e, _, _, hc⟩ := lcp_chosen h hu hx hl
  exact ⟨_, hc, fun l' h' => chosen_unique h' hc⟩

theorem firstLoose_unique {ps : List Pattern} {x : Bytes} {r r' : Option MatchResult} (h : FirstLoose ps x r) (h' : FirstLoose ps x r') :
    r = r' := by
  by_cases hc : ∀ p ∈ ps, ¬∃ caps, LooseMatches p.pattern x caps
  · rw [h.2 hc, h'.2 hc]
  · have : ∃ A p B caps, ps = A ++ p :: B ∧ (∀ a ∈ A, ¬∃ caps, LooseMatches a.pattern x caps) ∧ LooseMatches p.pattern x caps := by
      clear h h'
      induction ps with
      | nil => simp at hc
      | cons q ps ih =>
        by_cases hq : ∃ caps, LooseMatches q.pattern x caps
        · obtain ⟨caps, hq⟩ := hq
          exact ⟨[], q, ps, caps, rfl, by simp, hq⟩
        · obtain ⟨A, p, B, caps, h1, h2, h3⟩ := ih (fun h => hc (by
            intro p hp
            rcases List.mem_cons.mp hp with rfl | hp
            · exact hq
            · exact h p hp))
          refine ⟨q :: A, p, B, caps, by simp [h1], ?_, h3⟩
          intro a ha
          rcases List.mem_cons.mp ha with rfl | ha
          · exact hq
          · exact h2 a ha
    obtain ⟨A, p, B, caps, h1, h2, h3⟩ := this
    obtain ⟨res, e, hr⟩ := h.1 A p B caps h1 h2 h3
    obtain ⟨res', e', hr'⟩ := h'.1 A p B caps h1 h2 h3
    rw [e, e', isResult_unique hr hr']

/-- C73: the description leaves no choice: it has at most one answer for each text. -/
theorem C73_answer_unique (ps : List Pattern) (hu : ∀ p ∈ ps, Utf8Lits p) (text : Bytes) (hx : Utf8 text) (r r' : Option MatchResult)
    (h : SuffixAnswer ps text r) (h' : SuffixAnswer ps text r') : r = r' := by
  by_cases hno : ∀ l, ¬ Leads ps l
  · exact firstLoose_unique (h.1 hno) (h'.1 hno)
  · obtain ⟨l, hc, _⟩ := C73_chosen ps hu text hx (Classical.not_forall_not.mp hno)
    obtain ⟨a, b⟩ := h.2 l hc
    obtain ⟨a', b'⟩ := h'.2 l hc
    by_cases hp : text <+: l
    · cases hw : wholeFor ps l with
      | some p => rw [(a hp).1 p (lastWhole_iff.mpr hw), (a' hp).1 p (lastWhole_iff.mpr hw)]
      | none =>
        have hn : ∀ p ∈ ps, p.pattern ≠ [.literal l] := by
          intro p hp e
          have := List.find?_eq_none.mp hw p (by simpa using hp)
          simp [e] at this
        rw [(a hp).2 hn, (a' hp).2 hn]
    · cases hw : moreFor ps l with
      | some p => exact firstLoose_unique ((b hp).1 p (lastMore_iff.mpr hw)) ((b' hp).1 p (lastMore_iff.mpr hw))
      | none =>
        have hn : ∀ p ∈ ps, ∀ rest, rest ≠ [] → p.pattern ≠ .literal l :: rest := by
          intro p hp rest hr e
          have := List.find?_eq_none.mp hw p (by simpa using hp)
          simp [e, hr] at this
        rw [(b hp).2 hn, (b' hp).2 hn]

/-- C74: for every history of patterns with UTF-8 literals (and any parsers) and every UTF-8 text, parsing panics exactly if one of the patterns
that are asked has a parser whose value ends inside a character, and otherwise gives the answer of C73. -/
theorem C74_panics_iff (sip : Bytes → UInt64) (ps : List Pattern) (hu : ∀ p ∈ ps, Utf8Lits p) (hcol : NoCollision sip ps) (text : Bytes)
    (hx : Utf8 text) :
    (SuffixTrouble ps text → (SuffixTable.build sip ps >>= fun t => t.parse text) = .error .slice) ∧
    (¬SuffixTrouble ps text → ∃ r, (SuffixTable.build sip ps >>= fun t => t.parse text) = .ok r ∧ SuffixAnswer ps text r) := by
  obtain ⟨t, hb, _⟩ := sbuild_reach sip ps
  have ho := suffix_outcome hb hu hcol hx
  rw [hb]
  refine ⟨ho.1, fun h => ?_⟩
  obtain ⟨r, hr⟩ := ho.2 h
  exact ⟨r, hr, suffix_answer hb hu hcol hx hr⟩

theorem trouble_ascii {toks : List Token} {x : Bytes} (h : LooseTrouble toks x) : ¬ Ascii x := by
  induction h with
  | cut a toks v x h hv =>
    intro hx
    obtain ⟨y, rfl⟩ := parserMatch_prefix h
    exact hv (ascii_utf8 fun b hb => hx b (by simp [hb]))
  | literal l c y toks _ _ _ _ ih => intro hx; exact ih fun b hb => hx b (by simp [hb])
  | parser a toks v y _ _ ih => intro hx; exact ih fun b hb => hx b (by simp [hb])

theorem suffixTrouble_ascii {ps : List Pattern} {x : Bytes} (h : SuffixTrouble ps x) : ¬ Ascii x := by
  rcases h with ⟨_, _, p, _, _, _, h⟩ | ⟨_, _, _, p, _, h⟩ <;> exact trouble_ascii h

/-- C74: on ASCII texts the suffix-array matcher never panics, whatever the patterns. -/
theorem C74_ascii (sip : Bytes → UInt64) (ps : List Pattern) (hu : ∀ p ∈ ps, Utf8Lits p) (hcol : NoCollision sip ps) (text : Bytes)
    (hx : Ascii text) : ∃ r, (SuffixTable.build sip ps >>= fun t => t.parse text) = .ok r ∧ SuffixAnswer ps text r :=
  (C74_panics_iff sip ps hu hcol text (ascii_utf8 hx)).2 fun h => suffixTrouble_ascii h hx

/-- C74 for patterns compiled from UTF-8 pattern strings: no condition on the literals is needed. -/
theorem C74_compiled (sip : Bytes → UInt64) (ps : List Pattern) (hc : ∀ p ∈ ps, ∃ s, Utf8 s ∧ compile s = .ok (.ok p.pattern))
    (hcol : NoCollision sip ps) (text : Bytes) (hx : Utf8 text) :
    (SuffixTrouble ps text → (SuffixTable.build sip ps >>= fun t => t.parse text) = .error .slice) ∧
    (¬SuffixTrouble ps text → ∃ r, (SuffixTable.build sip ps >>= fun t => t.parse text) = .ok r ∧ SuffixAnswer ps text r) := by
  refine C74_panics_iff sip ps (fun p hp => ?_) hcol text hx
  obtain ⟨s, hs, h⟩ := hc p hp
  intro l hl
  exact (compiled_utf8 hs h).1 l hl

/-! A history that meets the hypotheses, and some of its answers: `apple5` goes on with `apple`, for which nothing continues; `ap` is a beginning
of both `app` and `apple` but is itself a leading literal of the history, with no pattern of its own; `apq7` has as much in common with `ap`,
`app` and `apple` as with `apricot`, and goes on with `apple`, the last one before it. -/

example : (∀ p ∈ tableSample, Utf8Lits p) ∧ NoCollision Samples.sip tableSample :=
  ⟨fun p hp => asciiLits_utf8 (tableSample_ok.1 p hp), tableSample_hashes⟩

example : (SuffixTable.build Samples.sip tableSample >>= fun t => t.parse b!"apple5") = .ok none := by decide +kernel
example : (SuffixTable.build Samples.sip tableSample >>= fun t => t.parse b!"ap") = .ok none := by decide +kernel
example : (SuffixTable.build Samples.sip tableSample >>= fun t => t.parse b!"app5") =
    .ok (some ⟨Samples.pat 3 [], [(b!"j", b!"5")]⟩) := by decide +kernel
example : (SuffixTable.build Samples.sip tableSample >>= fun t => t.parse b!"apr") = .ok (some ⟨Samples.pat 5 [], []⟩) := by decide +kernel

example : Chosen tableSample b!"app" b!"app" := ⟨⟨_, List.mem_cons_self .., rfl⟩, .inl rfl⟩

/-- A history and a text that run into trouble: a SET of `é` cuts the character `Ã`. -/
def troubleSample : List Pattern := [Samples.pat 1 [.literal b!"a", .parser (Samples.set b!"s" b!"é")]]

example : SuffixTrouble troubleSample b!"aÃ" ∧ ¬ SuffixTrouble troubleSample b!"aé" := by
  have hu : ∀ p ∈ troubleSample, Utf8Lits p := by
    intro p hp l hl
    simp [troubleSample] at hp; subst hp; simp [Samples.pat] at hl; subst hl
    exact ascii_utf8 (by decide)
  have hcol : NoCollision Samples.sip troubleSample := by
    rintro a b ⟨p, hp, ha⟩
    simp [troubleSample] at hp; subst hp; simp [Samples.pat] at ha
  refine ⟨Classical.byContradiction fun hn => ?_, fun h => ?_⟩
  · obtain ⟨r, hr, _⟩ := (C74_panics_iff Samples.sip troubleSample hu hcol b!"aÃ" ⟨['a', 'Ã'], by decide⟩).2 hn
    have : (SuffixTable.build Samples.sip troubleSample >>= fun t => t.parse b!"aÃ") = .error .slice := by decide +kernel
    rw [this] at hr; simp at hr
  · have hr := (C74_panics_iff Samples.sip troubleSample hu hcol b!"aé" ⟨['a', 'é'], by decide⟩).1 h
    have : (SuffixTable.build Samples.sip troubleSample >>= fun t => t.parse b!"aé") =
      .ok (some ⟨Samples.pat 1 [], [(b!"s", b!"é")]⟩) := by decide +kernel
    rw [this] at hr; simp at hr

end Verif
