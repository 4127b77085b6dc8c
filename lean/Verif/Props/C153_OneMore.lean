import Verif.Props.C152_SuffixLoads
/-! C153: a pattern that is appended to a source can be tested with few of the others. -/
namespace Verif
open Spec Fewer

namespace OneMore

/-- One more pattern: the ones before it are validated as before. -/
theorem validated_snoc {T : Type} (I : MatcherImpl T) {A : List Pattern} {p : Pattern} {m m' : T} (h : Validated I A m) (hb : built I (A ++ [p]) = .ok m')
    (hp : ∀ msg ∈ testsOf p, PassesIn I m' p.uuid msg) : Validated I (A ++ [p]) m' := by
  refine ⟨hb, fun pre q post e => ?_⟩
  rcases List.append_eq_append_iff.mp e with ⟨W, w1, w2⟩ | ⟨W, w1, w2⟩
  · cases W with
    | nil =>
      simp at w1 w2
      obtain ⟨rfl, rfl⟩ := w2
      subst w1
      exact ⟨m', hb, hp⟩
    | cons w W => simp at w2
  · cases W with
    | nil =>
      simp at w1 w2
      obtain ⟨rfl, rfl⟩ := w2
      subst w1
      exact ⟨m', hb, hp⟩
    | cons w W =>
      simp at w2
      obtain ⟨rfl, _⟩ := w2
      exact h.2 pre q W w1

theorem loads_snoc {T : Type} (I : MatcherImpl T) {A : List Pattern} {p : Pattern} (h : ∃ m, fromSource I (A.map .ok) = .ok (.ok m, []))
    (hp : ∃ m, built I (A ++ [p]) = .ok m ∧ ∀ msg ∈ testsOf p, PassesIn I m p.uuid msg) : ∃ m, fromSource I ((A ++ [p]).map .ok) = .ok (.ok m, []) := by
  obtain ⟨m, hm⟩ := h
  obtain ⟨m', hb, hp⟩ := hp
  rw [C40_from_source_ok] at hm
  obtain ⟨_, ps', e', hv⟩ := hm
  have e' : A = ps' := by
    have := congrArg delivered e'
    rwa [delivered_map_ok, delivered_map_ok] at this
  subst e'
  exact ⟨m', (C40_from_source_ok _ _ _ _).mpr ⟨rfl, _, rfl, validated_snoc I hv hb hp⟩⟩

/-- The parts of a list that end with its last pattern. -/
theorem parts_snoc {A qs : List Pattern} {p : Pattern} (hA : p ∉ A) (h : qs.Sublist (A ++ [p])) (hp : p ∈ qs) : ∃ X : List Pattern, X.Sublist A ∧ qs = X ++ [p] := by
  obtain ⟨X, Y, rfl, hX, hY⟩ := List.sublist_append_iff.mp h
  refine ⟨X, hX, ?_⟩
  cases hY with
  | cons _ k =>
    cases k
    exact absurd (hX.subset (by simpa using hp)) hA
  | cons_cons _ k => cases k; rfl

theorem passes_of_loads {T : Type} {I : MatcherImpl T} {X : List Pattern} {p : Pattern} (h : ∃ m, fromSource I ((X ++ [p]).map .ok) = .ok (.ok m, [])) :
    ∃ m, built I (X ++ [p]) = .ok m ∧ ∀ msg ∈ testsOf p, PassesIn I m p.uuid msg := by
  obtain ⟨m, hm⟩ := h
  rw [C40_from_source_ok] at hm
  obtain ⟨_, ps', e', _, hv⟩ := hm
  have e' : X ++ [p] = ps' := by
    have := congrArg delivered e'
    rwa [delivered_map_ok, delivered_map_ok] at this
  exact hv X p [] e'.symm

end OneMore
open OneMore

/-- C153, trie: a pattern can be appended to a source that loads if its test messages pass after every two of the patterns. -/
theorem C153_trie (sip : Bytes → UInt64) (A : List Pattern) (p : Pattern) (hps : Plain sip (A ++ [p])) (hd : (A ++ [p]).Pairwise fun p q => p.uuid ≠ q.uuid)
    (hmsg : ∀ msg ∈ testsOf p, Ascii msg.message) (hA : ∃ m, fromSource (trieMatcher sip) (A.map .ok) = .ok (.ok m, []))
    (h : ∀ X : List Pattern, X.Sublist A → X.length ≤ 2 →
      ∃ m, built (trieMatcher sip) (X ++ [p]) = .ok m ∧ ∀ msg ∈ testsOf p, PassesIn (trieMatcher sip) m p.uuid msg) :
    ∃ m, fromSource (trieMatcher sip) ((A ++ [p]).map .ok) = .ok (.ok m, []) := by
  have hpA : p ∉ A := fun k => (List.pairwise_append.mp hd).2.2 p k p (by simp) rfl
  obtain ⟨t, hb, _⟩ := build_ascii sip ((A ++ [p]).map loaded) (loaded_plain hps).ascii
  refine loads_snoc _ hA ⟨t, hb, fun msg hin => ?_⟩
  obtain ⟨m, k1, k2⟩ := C150_message sip (A ++ [p]) hps hd p (by simp) msg (hmsg msg hin) (by
    intro qs h1 h2 h3
    obtain ⟨X, hX, rfl⟩ := parts_snoc hpA h1 h3
    obtain ⟨m, g1, g2⟩ := h X hX (by simpa using h2)
    exact ⟨m, g1, g2 msg hin⟩)
  have hb' : built (trieMatcher sip) (A ++ [p]) = .ok t := hb
  rw [k1] at hb'
  simp only [Except.ok.injEq] at hb'
  exact hb' ▸ k2

/-- C153, suffix array: a pattern can be appended to a source that loads if its test messages pass after every one of the patterns. -/
theorem C153_suffix_array (sip : Bytes → UInt64) (A : List Pattern) (p : Pattern) (hu : ∀ q ∈ A ++ [p], Utf8Lits q) (hcol : NoCollision sip (A ++ [p]))
    (hd : (A ++ [p]).Pairwise fun p q => p.uuid ≠ q.uuid) (hmsg : ∀ msg ∈ testsOf p, Utf8 msg.message)
    (hA : ∃ m, fromSource (suffixArrayMatcher sip) (A.map .ok) = .ok (.ok m, []))
    (h : ∀ X : List Pattern, X.Sublist A → X.length ≤ 1 →
      ∃ m, built (suffixArrayMatcher sip) (X ++ [p]) = .ok m ∧ ∀ msg ∈ testsOf p, PassesIn (suffixArrayMatcher sip) m p.uuid msg) :
    ∃ m, fromSource (suffixArrayMatcher sip) ((A ++ [p]).map .ok) = .ok (.ok m, []) := by
  have hpA : p ∉ A := fun k => (List.pairwise_append.mp hd).2.2 p k p (by simp) rfl
  obtain ⟨t, hb⟩ := sfile_built sip (A ++ [p])
  refine loads_snoc _ hA ⟨t, hb, fun msg hin => ?_⟩
  obtain ⟨m, k1, k2⟩ := SuffixLoads.message_passes (n := 2) hu hcol hd (p := p) (by simp) (hmsg msg hin) (by omega) (by
    intro hf
    rw [List.map_append] at hf ⊢
    refine SuffixLoads.last_found ?_ ?_ ?_ (hmsg msg hin) hf
    · have := utf8_loaded hu; rwa [List.map_append] at this
    · have := noCollision_loaded hcol; rwa [List.map_append] at this
    · have := loaded_apart hd; rwa [List.map_append] at this) (by
    intro qs h1 h2 h3
    obtain ⟨X, hX, rfl⟩ := parts_snoc hpA h1 h3
    obtain ⟨m, g1, g2⟩ := h X hX (by simpa using h2)
    exact ⟨m, g1, g2 msg hin⟩)
  rw [k1] at hb
  simp only [Except.ok.injEq] at hb
  exact hb ▸ k2

/-- C153: for the trie one of the patterns at a time is not enough, for the suffix array it is not enough to test the new pattern alone. -/
theorem C153_others_count : (∃ (A : List Pattern) (p : Pattern), Plain Samples.sip (A ++ [p]) ∧ ((A ++ [p]).Pairwise fun p q => p.uuid ≠ q.uuid) ∧
      (∀ msg ∈ testsOf p, Ascii msg.message) ∧ (∃ m, fromSource (trieMatcher Samples.sip) (A.map .ok) = .ok (.ok m, [])) ∧
      (∀ X : List Pattern, X.Sublist A → X.length ≤ 1 →
        ∃ m, built (trieMatcher Samples.sip) (X ++ [p]) = .ok m ∧ ∀ msg ∈ testsOf p, PassesIn (trieMatcher Samples.sip) m p.uuid msg) ∧
      ¬∃ m, fromSource (trieMatcher Samples.sip) ((A ++ [p]).map .ok) = .ok (.ok m, [])) ∧
    ∃ (A : List Pattern) (p : Pattern), (∀ q ∈ A ++ [p], Utf8Lits q) ∧ NoCollision Samples.sip (A ++ [p]) ∧
      ((A ++ [p]).Pairwise fun p q => p.uuid ≠ q.uuid) ∧ (∀ msg ∈ testsOf p, Utf8 msg.message) ∧
      (∃ m, fromSource (suffixArrayMatcher Samples.sip) (A.map .ok) = .ok (.ok m, [])) ∧
      (∃ m, built (suffixArrayMatcher Samples.sip) [p] = .ok m ∧ ∀ msg ∈ testsOf p, PassesIn (suffixArrayMatcher Samples.sip) m p.uuid msg) ∧
      ¬∃ m, fromSource (suffixArrayMatcher Samples.sip) ((A ++ [p]).map .ok) = .ok (.ok m, []) := by
  constructor
  · refine ⟨[Triples.ab, Triples.ac], Triples.rest, ⟨?_, ?_, ?_, ?_⟩, by decide +kernel, ?_, loads_iff.mp (by decide +kernel), ?_, ?_⟩
    · intro p hp l hl
      simp [Triples.ab, Triples.ac, Triples.rest, tested] at hp
      rcases hp with rfl | rfl | rfl <;> simp [Samples.pat] at hl <;> subst hl <;> decide
    · intro p hp l hl
      simp [Triples.ab, Triples.ac, Triples.rest, tested] at hp
      rcases hp with rfl | rfl | rfl <;> simp [Samples.pat] at hl <;> subst hl <;> decide
    · intro p hp l rest' e l'
      simp [Triples.ab, Triples.ac, Triples.rest, tested] at hp
      rcases hp with rfl | rfl | rfl <;> simp [Samples.pat] at e <;> first | (rw [← e.2]; simp) | (rw [e.2]; simp)
    · have key : ∀ a, (∃ p ∈ [Triples.ab, Triples.ac] ++ [Triples.rest], p.pattern.head? = some (.parser a)) → a = Samples.greedy b!"x" none := by
        rintro a ⟨p, hp, e⟩
        simp [Triples.ab, Triples.ac, Triples.rest, tested] at hp
        rcases hp with rfl | rfl | rfl <;> simp [Samples.pat] at e
        exact e.symm
      intro a b ha hb _
      rw [key a ha, key b hb]
    · intro msg hm
      simp [Triples.rest, tested, testsOf, Pattern.withUuid] at hm
      subst hm
      decide
    · have key : ∀ X ∈ Three.subs [Triples.ab, Triples.ac], X.length ≤ 1 →
          loads (fromSource (trieMatcher Samples.sip) ((X ++ [Triples.rest]).map .ok)) = true := by decide +kernel
      exact fun X hX hl => passes_of_loads (loads_iff.mp (key X (Three.mem_subs hX) hl))
    · rw [← loads_iff]
      decide +kernel
  · refine ⟨[SuffixLoads.one], SuffixLoads.same, ?_, ?_, by decide +kernel, ?_, loads_iff.mp (by decide +kernel), ?_, ?_⟩
    · intro p hp l hl
      simp [SuffixLoads.one, SuffixLoads.same, tested] at hp
      rcases hp with rfl | rfl <;> simp [Samples.pat] at hl <;> subst hl <;> exact ascii_utf8 (by decide)
    · have key : ∀ a, (∃ p ∈ [SuffixLoads.one] ++ [SuffixLoads.same], p.pattern.head? = some (.parser a)) → a = Samples.int b!"x" := by
        rintro a ⟨p, hp, e⟩
        simp [SuffixLoads.one, SuffixLoads.same, tested] at hp
        rcases hp with rfl | rfl <;> simp [Samples.pat] at e
        exact e.symm
      intro a b ha hb _
      rw [key a ha, key b hb]
    · intro msg hm
      simp [SuffixLoads.same, tested, testsOf, Pattern.withUuid] at hm
      subst hm
      exact ascii_utf8 (by decide)
    · exact passes_of_loads (X := []) (loads_iff.mp (by decide +kernel))
    · rw [← loads_iff]
      decide +kernel

example : ∃ m, fromSource (trieMatcher Samples.sip) (Triples.sample.map .ok) = .ok (.ok m, []) := by
  have key : ∀ X ∈ Three.subs [Triples.ab, Triples.rest, Triples.bd], X.length ≤ 2 →
      loads (fromSource (trieMatcher Samples.sip) ((X ++ [Triples.bde]).map .ok)) = true := by decide +kernel
  exact C153_trie Samples.sip [Triples.ab, Triples.rest, Triples.bd] Triples.bde Triples.sample_plain (by decide +kernel)
    (Triples.sample_ascii _ (by decide +kernel)) (loads_iff.mp (by decide +kernel)) fun X hX hl => passes_of_loads (loads_iff.mp (key X (Three.mem_subs hX) hl))

example : ∃ m, fromSource (suffixArrayMatcher Samples.sip) (SuffixLoads.sources.map .ok) = .ok (.ok m, []) := by
  have key : ∀ X ∈ Three.subs [SuffixLoads.one, SuffixLoads.two], X.length ≤ 1 →
      loads (fromSource (suffixArrayMatcher Samples.sip) ((X ++ [SuffixLoads.three]).map .ok)) = true := by decide +kernel
  exact C153_suffix_array Samples.sip [SuffixLoads.one, SuffixLoads.two] SuffixLoads.three SuffixLoads.sources_utf8 SuffixLoads.sources_hashes (by decide +kernel)
    (SuffixLoads.sources_messages _ (by decide +kernel)) (loads_iff.mp (by decide +kernel)) fun X hX hl => passes_of_loads (loads_iff.mp (key X (Three.mem_subs hX) hl))

end Verif
