import Verif.Proofs.TrieMore
import Verif.Spec.Samples
/-! C11–C14, C51, C54: soundness of the trie matcher, its extracted values, and panics. -/
namespace Verif
open Spec

/-- C11: whatever patterns were added (with no hash collision between parsers that start patterns), a result of `parse` belongs to an
added pattern whose tokens match the whole text. -/
theorem C11_trie_sound (sip : Bytes → UInt64) (ps : List Pattern) (hu : ∀ p ∈ ps, Utf8Lits p) (hcol : NoCollision sip ps)
    (t : SuffixTree) (hb : SuffixTree.build sip ps = .ok t) (text : Bytes) (hx : Utf8 text) (r : MatchResult)
    (hr : t.parse text = .ok (some r)) :
    ∃ p ∈ ps, ∃ caps, Matches p.pattern text caps ∧ IsResult r p caps := by
  have hi := (build_induct (sip := sip) (fun _ _ => True) trivial (fun _ _ _ _ _ _ _ _ => trivial) hu hb).1
  obtain ⟨as, caps, h1, h2, h3⟩ := parse_sound hi hx hr
  obtain ⟨p, hp, rfl, hq⟩ := build_fpath hu hcol hb as _ h1
  exact ⟨p, hp, caps, matches_flat.mpr h2, hq, h3⟩

/-- C12: the values of a match are exactly the named captures of the matched pattern, the leftmost capture of a name winning.
The captures are determined by the pattern and the text. -/
theorem C12_values_are_captures (sip : Bytes → UInt64) (ps : List Pattern) (hu : ∀ p ∈ ps, Utf8Lits p) (hcol : NoCollision sip ps)
    (t : SuffixTree) (hb : SuffixTree.build sip ps = .ok t) (text : Bytes) (hx : Utf8 text) (r : MatchResult)
    (hr : t.parse text = .ok (some r)) :
    ∃ p ∈ ps, ∃ caps, r.pattern = { p with pattern := [] } ∧ Matches p.pattern text caps ∧
      (∀ caps', Matches p.pattern text caps' → caps' = caps) ∧ OrderedMap r.values ∧
      ∀ k v, (k, v) ∈ r.values ↔
        ∃ before a after, caps = before ++ (a, v) :: after ∧ nameOf a = some k ∧ ∀ c ∈ before, nameOf c.1 ≠ some k := by
  obtain ⟨p, hp, caps, h1, h2, h3, h4⟩ := C11_trie_sound sip ps hu hcol t hb text hx r hr
  refine ⟨p, hp, caps, h2, h1, fun caps' h' => matches_unique h' h1, h3, ?_⟩
  intro k v
  rw [h4, capture, Option.map_eq_some_iff]
  simp only [List.find?_eq_some_iff_append]
  constructor
  · rintro ⟨⟨a, v'⟩, ⟨h5, as, bs, rfl, h6⟩, rfl⟩
    exact ⟨as, a, bs, rfl, by simpa using h5, by simpa using h6⟩
  · rintro ⟨before, a, after, rfl, h5, h6⟩
    exact ⟨(a, v), ⟨by simpa using h5, before, after, rfl, by simpa using h6⟩, rfl⟩

/-- C51: name, uuid, values and tags of the reported pattern are those of an added pattern that matches the text. -/
theorem C51_metadata (sip : Bytes → UInt64) (ps : List Pattern) (hu : ∀ p ∈ ps, Utf8Lits p) (hcol : NoCollision sip ps)
    (t : SuffixTree) (hb : SuffixTree.build sip ps = .ok t) (text : Bytes) (hx : Utf8 text) (r : MatchResult)
    (hr : t.parse text = .ok (some r)) :
    ∃ p ∈ ps, (∃ caps, Matches p.pattern text caps) ∧ r.pattern.uuid = p.uuid ∧ r.pattern.name = p.name ∧
      r.pattern.values = p.values ∧ r.pattern.tags = p.tags ∧ r.pattern.testMessages = p.testMessages ∧ r.pattern.pattern = [] := by
  obtain ⟨p, hp, caps, h1, h2, _⟩ := C11_trie_sound sip ps hu hcol t hb text hx r hr
  exact ⟨p, hp, ⟨caps, h1⟩, by rw [h2], by rw [h2], by rw [h2], by rw [h2], by rw [h2], by rw [h2]⟩

/-- The pattern contains a GREEDY without end string directly followed by a SET or INT. -/
def GreedyThenSet (toks : List Token) : Prop :=
  ∃ before g a after, toks = before ++ .parser (.greedy g) :: .parser a :: after ∧ g.endString = none ∧
    (∃ s, a = .set s ∨ a = .int s)

theorem greedyThenSet_no_match {toks : List Token} (h : GreedyThenSet toks) (x : Bytes) (caps) : ¬ Matches toks x caps := by
  obtain ⟨before, g, a, after, rfl, hg, s, ha⟩ := h
  intro hm
  induction before generalizing x caps with
  | nil =>
    simp only [List.nil_append] at hm
    generalize hx : x = x0 at hm
    cases hm with
    | parser _ _ v y caps' h1 h2 =>
      simp only [ParserMatch, hg] at h1
      have hy : y = [] := by
        have := congrArg List.length h1
        simp at this; exact this
      subst hy
      generalize hz : ([] : Bytes) = z at h2
      cases h2 with
      | parser _ _ v' y' caps'' h3 h4 =>
        have hv : v' = [] := by simp at hz; exact hz.1
        rcases ha with rfl | rfl
        · exact h3.nonempty hv
        · exact h3.nonempty hv
  | cons tok before ih =>
    cases hm with
    | literal _ _ x' _ hm => exact ih _ _ hm
    | parser _ _ v x' caps' _ hm => exact ih _ _ hm

/-- C54: a pattern with a GREEDY without end string directly followed by a SET or INT is never the answer. -/
theorem C54_greedy_then_set_never (sip : Bytes → UInt64) (ps : List Pattern) (hu : ∀ p ∈ ps, Utf8Lits p) (hcol : NoCollision sip ps)
    (t : SuffixTree) (hb : SuffixTree.build sip ps = .ok t) (text : Bytes) (hx : Utf8 text) (r : MatchResult)
    (hr : t.parse text = .ok (some r)) :
    (∀ p ∈ ps, GreedyThenSet p.pattern → ∀ q ∈ ps, q.pattern ≠ p.pattern → q.uuid ≠ p.uuid) →
    ∀ p ∈ ps, GreedyThenSet p.pattern → r.pattern.uuid ≠ p.uuid := by
  intro huniq p hp hg he
  obtain ⟨q, hq, ⟨caps, h1⟩, h2, _⟩ := C51_metadata sip ps hu hcol t hb text hx r hr
  by_cases hpq : q.pattern = p.pattern
  · rw [hpq] at h1; exact greedyThenSet_no_match hg _ _ h1
  · exact huniq p hp hg q hq hpq (by rw [← h2, he])

/-- C54, for a trie that holds only such patterns: no text matches. -/
theorem C54_only_greedy_then_set (sip : Bytes → UInt64) (ps : List Pattern) (hu : ∀ p ∈ ps, Utf8Lits p) (hcol : NoCollision sip ps)
    (hg : ∀ p ∈ ps, GreedyThenSet p.pattern)
    (t : SuffixTree) (hb : SuffixTree.build sip ps = .ok t) (text : Bytes) (hx : Utf8 text) (r : Option MatchResult)
    (hr : t.parse text = .ok r) : r = none := by
  cases r with
  | none => rfl
  | some r =>
    obtain ⟨p, hp, caps, h1, _⟩ := C11_trie_sound sip ps hu hcol t hb text hx r hr
    exact absurd h1 (greedyThenSet_no_match (hg p hp) _ _)

/-- C13: with ASCII literals and texts neither `add_pattern` nor `parse` panics, whatever the parsers are. -/
theorem C13_ascii_never_panics (sip : Bytes → UInt64) (ps : List Pattern) (hu : ∀ p ∈ ps, AsciiLits p) :
    ∃ t, SuffixTree.build sip ps = .ok t ∧ (∀ p, AsciiLits p → ∃ t', t.addPattern sip p = .ok t') ∧
      ∀ text, Ascii text → ∃ r, t.parse text = .ok r := by
  obtain ⟨t, h1, h2⟩ := build_ascii sip ps hu
  refine ⟨t, h1, ?_, fun text hx => parse_total_trie h2 hx⟩
  intro p hp
  obtain ⟨t', h, _⟩ := insert_step_ascii sip h2 p hp
  exact ⟨t', h⟩

/-- Instances of the hypotheses of C11/C12/C13: two patterns, one repeated name, and a text that matches. -/
def sampleHistory : List Pattern :=
  [Samples.pat 1 [.literal b!"app", .parser (Samples.int b!"pid"), .literal b!": ", .parser (Samples.greedy b!"msg" none)],
   Samples.pat 2 [.parser (Samples.int b!"x"), .literal b!"-", .parser (Samples.int b!"x")],
   Samples.pat 3 [.parser (Samples.greedy b!"all" none)]]

example : ∀ p ∈ sampleHistory, AsciiLits p := by
  intro p hp l hl
  simp [sampleHistory, Samples.pat] at hp
  rcases hp with rfl | rfl | rfl <;> simp at hl
  · rcases hl with rfl | rfl <;> decide
  · subst hl; decide

/-- The hash distinguishes the two leading parsers, so the history has no collision. -/
example : NoCollision Samples.sip sampleHistory := by
  have h : (Samples.int b!"x").hashOs Samples.sip ≠ (Samples.greedy b!"all" none).hashOs Samples.sip := by decide +kernel
  intro a b ⟨p, hp, ha⟩ ⟨q, hq, hb⟩ he
  simp [sampleHistory, Samples.pat] at hp hq
  rcases hp with rfl | rfl | rfl <;> rcases hq with rfl | rfl | rfl <;> simp at ha hb <;> subst ha <;> subst hb
  · rfl
  · exact absurd he h
  · exact absurd he.symm h
  · rfl

example : (SuffixTree.build Samples.sip sampleHistory >>= fun t => t.parse b!"app42: up") =
    .ok (some { pattern := Samples.pat 1 [], values := [(b!"msg", b!"up"), (b!"pid", b!"42")] }) := by decide +kernel

/-- the leftmost of two equal names wins -/
example : (SuffixTree.build Samples.sip sampleHistory >>= fun t => t.parse b!"1-2") =
    .ok (some { pattern := Samples.pat 2 [], values := [(b!"x", b!"1")] }) := by decide +kernel

example : GreedyThenSet (Samples.pat 1 [.literal b!"a", .parser (Samples.greedy b!"g" none), .parser (Samples.int b!"i")]).pattern :=
  ⟨[.literal b!"a"], _, _, [], rfl, rfl, _, .inr rfl⟩

/-- C14 is false: after adding the literal pattern `abc`, parsing `é` slices inside a character and panics. -/
theorem C14_refuted : ∃ (ps : List Pattern) (text : Bytes), (∀ p ∈ ps, Utf8Lits p) ∧ Utf8 text ∧
    ∀ sip : Bytes → UInt64, ∃ t, SuffixTree.build sip ps = .ok t ∧ ∃ e, t.parse text = .error e := by
  refine ⟨[Samples.pat 1 [.literal b!"abc"]], [0xC3, 0xA9], ?_, ?_, ?_⟩
  · intro p hp l hl
    simp at hp; subst hp
    simp [Samples.pat] at hl; subst hl
    exact ascii_utf8 (by decide)
  · exact ⟨['é'], by decide⟩
  · intro sip
    refine ⟨single [.literal b!"abc"] (Samples.pat 1 []), ?_, ?_⟩
    · have := insert_new sip [.literal b!"abc"] (Samples.pat 1 [.literal b!"abc"]) rfl
      simp only [SuffixTree.build, List.foldlM_cons, List.foldlM_nil, SuffixTree.addPattern, this]
      rfl
    · exact ⟨.slice, by decide +kernel⟩

/-- The part of C14 that holds: no panic with ASCII literals and texts (any parsers), and for every UTF-8 history a `parse` that does not
panic is sound (C11). -/
theorem C14_no_panic_partial (sip : Bytes → UInt64) (ps : List Pattern) (hu : ∀ p ∈ ps, AsciiLits p) (text : Bytes) (hx : Ascii text) :
    ∃ r, (SuffixTree.build sip ps >>= fun t => t.parse text) = .ok r := by
  obtain ⟨t, h1, _, h2⟩ := C13_ascii_never_panics sip ps hu
  obtain ⟨r, hr⟩ := h2 text hx
  exact ⟨r, by rw [h1]; exact hr⟩

end Verif
