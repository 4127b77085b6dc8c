import Verif.Props.C98_SuffixChange
import Verif.Props.C81_Validated
/-! C99: what becomes of a test message that passed when it was checked, in a suffix array. -/
namespace Verif
open Spec

theorem noCollision_loaded {sip : Bytes → UInt64} {ps : List Pattern} (h : NoCollision sip ps) : NoCollision sip (ps.map loaded) := by
  have := loaded_noCollision (ps := ps.reverse) (noCollision_sub h (fun p hp => List.mem_reverse.mp hp))
  rwa [List.reverse_reverse] at this

theorem utf8_loaded {ps : List Pattern} (h : ∀ p ∈ ps, Utf8Lits p) : ∀ p ∈ ps.map loaded, Utf8Lits p := by
  intro p hp
  obtain ⟨q, hq, rfl⟩ := List.mem_map.mp hp
  exact h q hq

theorem leads_loaded {ps : List Pattern} {l : Bytes} : Leads (ps.map loaded) l ↔ Leads ps l := by
  simp only [Leads, List.mem_map]
  constructor
  · rintro ⟨_, ⟨p, hp, rfl⟩, h⟩; exact ⟨p, hp, h⟩
  · rintro ⟨p, hp, h⟩; exact ⟨_, ⟨p, hp, rfl⟩, h⟩

theorem unrivalled_loaded {ps qs : List Pattern} (h : Unrivalled ps qs) : Unrivalled (ps.map loaded) (qs.map loaded) := by
  intro A q B a e hq
  obtain ⟨A', B', rfl, rfl, h3⟩ := List.map_eq_append_iff.mp e
  obtain ⟨q', B'', rfl, rfl, rfl⟩ := List.map_eq_cons_iff.mp h3
  rcases h A' q' B'' a rfl hq with ⟨l, g⟩ | g
  · left
    refine ⟨l, ?_⟩
    rw [← List.map_append]
    exact leads_loaded.mpr g
  · right
    intro p hp
    rw [← List.map_append] at hp
    obtain ⟨p', hp', rfl⟩ := List.mem_map.mp hp
    exact g p' hp'

/-- C99: a test message that passed when the suffix array was built is, in the finished one, still answered correctly, or not matched, or answered by
a pattern added later that the text does (loosely) match (or `parse` panics, see C74). -/
theorem C99_validated (sip : Bytes → UInt64) (ps : List Pattern) (hu : ∀ p ∈ ps, Utf8Lits p) (hcol : NoCollision sip ps) (t : SuffixTable)
    (h : Validated (suffixArrayMatcher sip) ps t) (pre : List Pattern) (p : Pattern) (post : List Pattern) (hpp : ps = pre ++ p :: post)
    (hl : Unrivalled (pre ++ [p]) post) (msg : TestMessage) (hm : msg ∈ testsOf p) (hx : Utf8 msg.message) (a : Option MatchResult)
    (ha : t.parse msg.message = .ok a) :
    Passes p.uuid msg a ∨ a = none ∨
      ∃ q ∈ post, ∃ res caps, a = some res ∧ LooseMatches q.pattern msg.message caps ∧ IsResult res (loaded q) caps := by
  obtain ⟨hb, hv⟩ := h
  obtain ⟨m1, hm1, hall⟩ := hv pre p post hpp
  obtain ⟨b, hb1, hpass⟩ := hall msg hm
  have e : ps = (pre ++ [p]) ++ post := by rw [hpp]; simp
  have hbt : SuffixTable.build sip (ps.map loaded) = .ok t := hb
  have hm1t : SuffixTable.build sip ((pre ++ [p]).map loaded) = .ok m1 := hm1
  have hul := utf8_loaded hu
  have hcl := noCollision_loaded hcol
  rw [e, List.map_append] at hul hcl hbt
  rcases C98_sequence sip _ _ hul hcl (unrivalled_loaded hl) msg.message hx b a (by rw [hm1t]; exact hb1) (by rw [hbt]; exact ha) with g | g | ⟨q, hq, g⟩
  · exact .inl (g ▸ hpass)
  · exact .inr (.inl g)
  · obtain ⟨q', hq', rfl⟩ := List.mem_map.mp hq
    exact .inr (.inr ⟨q', hq', g⟩)

/-- C99: the message passes in the finished suffix array if it has more in common with a leading literal of the pattern or one before it than with
those of all the later patterns. -/
theorem C99_still_passes (sip : Bytes → UInt64) (ps : List Pattern) (hu : ∀ p ∈ ps, Utf8Lits p) (hcol : NoCollision sip ps) (t : SuffixTable)
    (h : Validated (suffixArrayMatcher sip) ps t) (pre : List Pattern) (p : Pattern) (post : List Pattern) (hpp : ps = pre ++ p :: post)
    (msg : TestMessage) (hm : msg ∈ testsOf p) (hx : Utf8 msg.message) (l0 c0 : Bytes) (h0 : Leads (pre ++ [p]) l0)
    (hc0 : LongestCommonPrefix l0 msg.message c0)
    (hq : ∀ q ∈ post, ∀ l, q.pattern.head? = some (.literal l) → ∀ c, LongestCommonPrefix l msg.message c → c.length < c0.length) :
    PassesIn (suffixArrayMatcher sip) t p.uuid msg := by
  obtain ⟨hb, hv⟩ := h
  obtain ⟨m1, hm1, hall⟩ := hv pre p post hpp
  obtain ⟨b, hb1, hpass⟩ := hall msg hm
  have e : ps = (pre ++ [p]) ++ post := by rw [hpp]; simp
  have hbt : SuffixTable.build sip (ps.map loaded) = .ok t := hb
  have hm1t : SuffixTable.build sip ((pre ++ [p]).map loaded) = .ok m1 := hm1
  have hul := utf8_loaded hu
  have hcl := noCollision_loaded hcol
  rw [e, List.map_append] at hul hcl hbt
  have := C98_farther_sequence sip _ _ hul hcl msg.message hx l0 c0 (leads_loaded.mpr h0) hc0 (by
    intro q hq1 l hql
    obtain ⟨q', hq', rfl⟩ := List.mem_map.mp hq1
    exact hq q' hq' l hql)
  rw [hbt, hm1t] at this
  exact ⟨b, this.trans hb1, hpass⟩

/-- C99 for files: in a suffix array loaded by `from_file` every test message of the file is answered correctly, or not matched, or answered by a
pattern that stands earlier in the file and that the text does (loosely) match (or `parse` panics). -/
theorem C99_from_file (d : Deps) (hs : d.Utf8Strings) (sip : Bytes → UInt64) (path : Bytes) (t : SuffixTable)
    (h : fromFile d (suffixArrayMatcher sip) path = .ok (.ok t)) :
    ∃ file, loadFile d path = .ok (.ok file) ∧
      (NoCollision sip file.patterns → ∀ before p after, file.patterns = before ++ p :: after → Unrivalled (after.reverse ++ [p]) before.reverse →
        ∀ msg ∈ testsOf p, Utf8 msg.message → ∀ a, t.parse msg.message = .ok a → Passes p.uuid msg a ∨ a = none ∨
          ∃ q ∈ before, ∃ res caps, a = some res ∧ LooseMatches q.pattern msg.message caps ∧ IsResult res (loaded q) caps) := by
  obtain ⟨file, hl, hv⟩ := (C60_from_file d _ path t).mp h
  refine ⟨file, hl, ?_⟩
  intro hcol before p after e hun msg hm hx a ha
  have hu : ∀ q ∈ file.patterns.reverse, Utf8Lits q := fun q hq => (compiledUtf8_lits (loaded_compiled d hs hl q (List.mem_reverse.mp hq))).1
  rcases C99_validated sip _ hu (noCollision_sub hcol (fun p hp => List.mem_reverse.mp hp)) t hv after.reverse p before.reverse (by rw [e]; simp)
    hun msg hm hx a ha with g | g | ⟨q, hq, g⟩
  · exact .inl g
  · exact .inr (.inl g)
  · exact .inr (.inr ⟨q, List.mem_reverse.mp hq, g⟩)

/-! A list meeting the hypotheses, whose messages show the three outcomes. -/

/-- `app%{GREEDY}` with three test messages, `apple %{INT}` and `é`. -/
def suffixValidatedSample : List Pattern :=
  [Samples.withTests (Samples.pat 1 [.literal b!"app", .parser (Samples.greedy b!"g" none)])
    [Samples.msg b!"app é" [(b!"g", b!" é")] none, Samples.msg b!"applx" [] none, Samples.msg b!"apple 1" [] none],
   Samples.pat 2 [.literal b!"apple ", .parser (Samples.int b!"i")],
   Samples.pat 3 [.literal b!"é"]]

/-- The list is accepted. `app é` is still answered by the first pattern, `applx` is not matched any more and `apple 1` is answered by the second. -/
example : (match fromSource (suffixArrayMatcher Samples.sip) (suffixValidatedSample.map .ok) with
      | .ok (.ok t, []) => some ((t.parse b!"app é").map fun r => r.map fun r => r.pattern.uuid,
          (t.parse b!"applx").map fun r => r.map fun r => r.pattern.uuid, (t.parse b!"apple 1").map fun r => r.map fun r => r.pattern.uuid)
      | _ => none) = some (.ok (some 1), .ok none, .ok (some 2)) := by decide +kernel

example : Unrivalled (suffixValidatedSample.take 1) (suffixValidatedSample.drop 1) := unrivalled_of_literal ⟨b!"app", _, List.mem_cons_self .., rfl⟩ _

example : (∀ p ∈ suffixValidatedSample, Utf8Lits p) ∧ NoCollision Samples.sip suffixValidatedSample := by
  refine ⟨fun p hp l hl => ?_, ?_⟩
  · simp [suffixValidatedSample, Samples.pat, Samples.withTests] at hp
    rcases hp with rfl | rfl | rfl <;> simp at hl <;> subst hl
    · exact ascii_utf8 (by decide)
    · exact ascii_utf8 (by decide)
    · exact ⟨['é'], by decide⟩
  · rintro a b ⟨p, hp, ha⟩
    simp [suffixValidatedSample, Samples.pat, Samples.withTests] at hp
    rcases hp with rfl | rfl | rfl <;> simp at ha

/-- `app é` has more in common with `app` than with `é`. -/
example : LongestCommonPrefix b!"app" b!"app é" b!"app" ∧ ∀ c, LongestCommonPrefix b!"é" b!"app é" c → c.length < b!"app".length := by
  refine ⟨⟨ascii_utf8 (by decide), by simp, by simp, fun c' _ h _ => h.length_le⟩, ?_⟩
  rintro c ⟨_, h1, _⟩
  have := h1.length_le
  simp at this ⊢
  omega

end Verif
