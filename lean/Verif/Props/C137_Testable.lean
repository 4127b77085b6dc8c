import Verif.Props.C111_Satisfiable
import Verif.Props.C119_Tested
/-! C137: the patterns that can have a test message. -/
namespace Verif
open Spec

namespace Testable

theorem uuid_of_isResult {r : MatchResult} {p : Pattern} {caps} (h : IsResult r p caps) : r.pattern.uuid = p.uuid := by rw [h.1]

/-- A message that expects what the answer holds passes. -/
theorem passes {p : Pattern} {r : MatchResult} {caps} (h : IsResult r p caps) (text : Bytes) :
    Passes p.uuid { message := text, values := r.values, tags := p.tags } (some r) := by
  refine ⟨r, rfl, uuid_of_isResult h, ?_, ?_⟩
  · intro expected he
    exact ⟨expected, by rw [h.1]; exact he, fun t ht => ht⟩
  · intro kv hkv
    have ho := h.2.1
    have hg : r.values.get? kv.1 = some kv.2 := (mem_iff_get ho kv.1 kv.2).mp hkv
    have hf := find?_reverse_ordered ho kv.1
    rw [hg] at hf
    unfold valueOf
    rw [List.reverse_append, List.find?_append]
    cases hx : r.values.reverse.find? (fun e => decide (e.1 = kv.1)) with
    | none => rw [hx] at hf; simp at hf
    | some e => rw [hx] at hf; simpa using hf

/-- A list of one pattern with one test message that passes can be loaded. -/
theorem loads {T : Type} (I : MatcherImpl T) {p : Pattern} {m : T} (hb : built I [p] = .ok m) (h : ∀ msg ∈ testsOf p, PassesIn I m p.uuid msg) :
    fromSource I [.ok p] = .ok (.ok m, []) := by
  have : fromSource I ([p].map .ok) = .ok (.ok m, []) := by
    rw [C40_from_source_ok]
    refine ⟨rfl, [p], rfl, hb, ?_⟩
    intro pre q post e
    cases pre with
    | nil =>
      simp at e
      obtain ⟨rfl, -⟩ := e
      exact ⟨m, hb, h⟩
    | cons _ pre => simp at e
  exact this

end Testable

/-- C137: a pattern that was loaded with a test message can match something: a list with a test message for a pattern that never matches is rejected. -/
theorem C137_shows (sip : Bytes → UInt64) (ps : List Pattern) (h8 : ∀ p ∈ ps, Utf8Lits p) (hcol : NoCollision sip ps) (hu : UuidsTell ps) (t : SuffixTree)
    (rest : List BuildResult) (h : fromSource (trieMatcher sip) (ps.map .ok) = .ok (.ok t, rest)) (p : Pattern) (hp : p ∈ ps) (msg : TestMessage)
    (hm : msg ∈ testsOf p) (hmu : Utf8 msg.message) (s : Bytes) (hs : Utf8 s) (hc : compile s = .ok (.ok p.pattern)) : Satisfiable p.pattern := by
  obtain ⟨A, B, rfl⟩ := List.append_of_mem hp
  obtain ⟨m1, hb, hall⟩ := (validated_of h).2 A p B rfl
  obtain ⟨a, ha, res, rfl, hid, _⟩ := hall msg hm
  have hsub : ∀ q ∈ A ++ [p], q ∈ A ++ p :: B := by intro q hq; simp at hq ⊢; rcases hq with hq | hq <;> simp [hq]
  have h8' : ∀ q ∈ (A ++ [p]).map loaded, Utf8Lits q := by
    intro q hq
    obtain ⟨q', hq', rfl⟩ := List.mem_map.mp hq
    exact h8 q' (hsub q' hq')
  have hcol' : NoCollision sip ((A ++ [p]).map loaded) := by
    rintro a b ⟨p', hp', e⟩ ⟨q', hq', e'⟩
    obtain ⟨p1, hp1, rfl⟩ := List.mem_map.mp hp'
    obtain ⟨q1, hq1, rfl⟩ := List.mem_map.mp hq'
    exact hcol a b ⟨p1, hsub p1 hp1, e⟩ ⟨q1, hsub q1 hq1, e'⟩
  have hu' : UuidsTell ((A ++ [p]).map loaded) := uuidsTell_loaded (ps := A ++ [p]) fun x hx y hy => hu x (hsub x hx) y (hsub y hy)
  false_or_by_contra
  rename_i hn
  exact C111_never sip _ h8' hcol' m1 hb msg.message hmu res ha s hs (loaded p) hc hn
    (fun q hq e => hu' q hq (loaded p) (List.mem_map_of_mem (by simp)) e) hid

/-- C137: every pattern string that can match anything has a test message with which it can be loaded; the message can state the values of all named
parsers and the tags of the pattern. -/
theorem C137_exists (sip : Bytes → UInt64) (s : Bytes) (hs : Ascii s) (p : Pattern) (hc : compile s = .ok (.ok p.pattern)) (h : Satisfiable p.pattern) :
    ∃ text values caps, Ascii text ∧ MatchesStrict p.pattern text caps ∧ HasCaptures values caps ∧
      (∃ t, fromSource (trieMatcher sip) [.ok { p with testMessages := some [{ message := text, values, tags := p.tags }] }] = .ok (.ok t, [])) ∧
      ∃ t, fromSource (suffixArrayMatcher sip) [.ok { p with testMessages := some [{ message := text, values, tags := p.tags }] }] = .ok (.ok t, []) := by
  obtain ⟨x, caps, h1, h2, -, -⟩ :=
    text_exists h (compiledShape (ascii_utf8 hs) hc) (compiled_plainSets hs hc) (compiled_ascii hs hc) none (by simp)
  have hc' : compile s = .ok (.ok ({ p with testMessages := some [] } : Pattern).pattern) := hc
  obtain ⟨r, h3, h4, -⟩ := C52_end_to_end sip s hs { p with testMessages := some [] } hc' x h1
  obtain ⟨res, rfl, h5⟩ := h4 caps h2
  obtain ⟨res', h6, h7⟩ := C52_suffix_array sip s hs { p with testMessages := some [] } hc' x h1 caps h2
  have he : res' = res := isResult_unique h7 h5
  subst he
  refine ⟨x, res'.values, caps, h1, h2, h5.2, ?_, ?_⟩
  · cases hb : SuffixTree.build sip [{ p with testMessages := some [] }] with
    | error e => rw [hb] at h3; cases h3
    | ok t =>
      rw [hb] at h3
      refine ⟨t, Testable.loads (trieMatcher sip) hb ?_⟩
      intro msg hmsg
      simp only [testsOf, Option.getD_some, List.mem_singleton] at hmsg
      subst hmsg
      exact ⟨_, h3, Testable.passes (p := { p with testMessages := some [] }) h5 x⟩
  · cases hb : SuffixTable.build sip [{ p with testMessages := some [] }] with
    | error e => rw [hb] at h6; cases h6
    | ok t =>
      rw [hb] at h6
      refine ⟨t, Testable.loads (suffixArrayMatcher sip) hb ?_⟩
      intro msg hmsg
      simp only [testsOf, Option.getD_some, List.mem_singleton] at hmsg
      subst hmsg
      exact ⟨_, h6, Testable.passes (p := { p with testMessages := some [] }) h5 x⟩

/-- C137: there is a test message for a pattern string exactly if it can match anything. -/
theorem C137_exactly (sip : Bytes → UInt64) (s : Bytes) (hs : Ascii s) (p : Pattern) (hc : compile s = .ok (.ok p.pattern)) :
    (∃ msg t, Utf8 msg.message ∧ fromSource (trieMatcher sip) [.ok { p with testMessages := some [msg] }] = .ok (.ok t, [])) ↔ Satisfiable p.pattern := by
  constructor
  · rintro ⟨msg, t, hm, h⟩
    refine C137_shows sip [{ p with testMessages := some [msg] }] ?_ ?_ ?_ t [] h { p with testMessages := some [msg] } (by simp) msg (by simp [testsOf])
      hm s (ascii_utf8 hs) hc
    · intro q hq l hl
      simp at hq; subst hq
      exact ascii_utf8 (compiled_ascii hs hc l hl)
    · rintro a b ⟨q, hq, e⟩ ⟨q', hq', e'⟩ _
      simp at hq hq'; subst hq; subst hq'
      rw [e] at e'; simpa using e'
    · intro q hq q' hq' _
      simp at hq hq'; rw [hq, hq']
  · intro h
    obtain ⟨x, values, caps, h1, -, -, ⟨t, h2⟩, -⟩ := C137_exists sip s hs p hc h
    exact ⟨_, t, ascii_utf8 h1, h2⟩

end Verif
