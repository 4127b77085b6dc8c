import Verif.Proofs.SuffixFam
import Verif.Props.C15_C24_Trie
import Verif.Model.SuffixClone
/-! C25–C31 (and the suffix-array part of C24 and C50): the suffix-array matcher. -/
namespace Verif
open Spec

/-- The pattern's literals and end strings are valid UTF-8 (as all Rust strings are) and its SET arguments are ASCII. -/
def Supported (p : Pattern) : Prop :=
  Utf8Lits p ∧ ∀ a, Token.parser a ∈ p.pattern → AsciiParser a ∧ Utf8Parser a

/-- C26: adding never panics, and parsing does not panic if SET arguments are ASCII. -/
theorem C26_never_panics (sip : Bytes → UInt64) (ps : List Pattern) :
    ∃ t, SuffixTable.build sip ps = .ok t ∧ ((∀ p ∈ ps, Supported p) → ∀ text, Utf8 text → ∃ r, t.parse text = .ok r) := by
  obtain ⟨t, h1, h2⟩ := sbuild_reach sip ps
  exact ⟨t, h1, fun hg text hx => reach_total h2 hg hx⟩

/-- The ASCII condition of C26 is needed: a SET of `é` applied to `Ã` panics. -/
example : (SuffixTable.build Samples.sip [Samples.pat 1 [.parser (Samples.set b!"s" b!"é")]] >>= fun t => t.parse b!"Ã") = .error .slice := by
  decide +kernel

example : Supported (Samples.pat 1 [.literal b!"é", .parser (Samples.int b!"i"), .parser (Samples.greedy b!"g" (some b!"ő")), .literal b!"ő"]) := by
  refine ⟨?_, ?_⟩
  · intro l hl
    simp [Samples.pat] at hl
    rcases hl with rfl | rfl
    · exact ⟨['é'], by decide⟩
    · exact ⟨['ő'], by decide⟩
  · intro a ha
    simp [Samples.pat] at ha
    rcases ha with rfl | rfl
    · exact ⟨(by decide : Ascii (intDelegate (some b!"i")).characterSet), trivial⟩
    · refine ⟨trivial, ?_⟩
      intro e he
      simp at he; subst he
      exact ⟨['ő'], by decide⟩

/-- C25: for every history (of patterns of any kind) in which `L` was added as a pattern of its own, `parse(L)` returns the last such pattern. -/
theorem C25_literal_map (sip : Bytes → UInt64) (before after : List Pattern) (p : Pattern) (L : Bytes) (hL : Utf8 L)
    (hp : p.pattern = [.literal L]) (hlast : ∀ q ∈ after, q.pattern ≠ [.literal L]) :
    (SuffixTable.build sip (before ++ p :: after) >>= fun t => t.parse L) =
      .ok (some { pattern := { p with pattern := [] }, values := [] }) := by
  obtain ⟨t, h1, h2⟩ := sbuild_reach sip (before ++ p :: after)
  rw [h1]
  show t.parse L = _
  rw [reach_literal h2 hL ⟨p, by simp, by rw [hp]; rfl⟩]
  have : wholeFor (before ++ p :: after) L = some p := by
    unfold wholeFor
    rw [List.find?_eq_some_iff_append]
    refine ⟨by simp [hp], after.reverse, before.reverse, by simp, ?_⟩
    intro q hq
    simpa using hlast q (by simpa using hq)
  rw [this]
  rfl

example : ∀ q ∈ [Samples.pat 2 [.literal b!"abc"], Samples.pat 3 [.literal b!"ab", .parser (Samples.int b!"i")], Samples.pat 4 [.parser (Samples.greedy b!"g" none)]],
    q.pattern ≠ [.literal b!"ab"] := by decide

/-- C27: after every history, `longest_common_prefix` finds nothing exactly if no pattern starts with a literal, and otherwise the entry of a
leading literal whose longest common prefix with the text is longest among all leading literals. -/
theorem C27_longest_common_prefix (sip : Bytes → UInt64) (ps : List Pattern) (hu : ∀ p ∈ ps, Utf8Lits p) (text : Bytes) (hx : Utf8 text) :
    ∃ r, (SuffixTable.build sip ps >>= fun t => t.longestCommonPrefix text) = .ok r ∧
      (r = none ↔ ¬∃ p ∈ ps, ∃ l, p.pattern.head? = some (.literal l)) ∧
      ∀ e, r = some e → (∃ p ∈ ps, p.pattern.head? = some (.literal e.literal)) ∧
        ∀ p ∈ ps, ∀ l c c', p.pattern.head? = some (.literal l) → LongestCommonPrefix e.literal text c → LongestCommonPrefix l text c' →
          c'.length ≤ c.length := by
  obtain ⟨t, h1, h2⟩ := sbuild_reach sip ps
  rw [h1]
  show ∃ r, t.longestCommonPrefix text = .ok r ∧ _
  have hus := reach_utf8 h2 hu
  rcases lcp_spec h2.sorted hus hx with ⟨h3, h4⟩ | ⟨e, he, h3, h4⟩
  · refine ⟨none, h4, ?_, by simp⟩
    simp only [true_iff]
    rintro ⟨p, hp, l, e⟩
    obtain ⟨e, he, _⟩ := (reach_has h2 l).mpr ⟨p, hp, e⟩
    rw [h3] at he; simp at he
  · obtain ⟨p0, hp0, e0⟩ := (reach_has h2 e.literal).mp ⟨e, he, rfl⟩
    refine ⟨some e, h3, ?_, ?_⟩
    · simp only [reduceCtorEq, false_iff]
      exact not_not_intro ⟨p0, hp0, _, e0⟩
    · intro e' hee
      simp at hee; subst hee
      refine ⟨⟨p0, hp0, e0⟩, ?_⟩
      intro p hp l c c' hpl hc hc'
      obtain ⟨e', he', rfl⟩ := (reach_has h2 l).mpr ⟨p, hp, hpl⟩
      rw [lcp_iff (hus e he) hx] at hc
      rw [lcp_iff (hus e' he') hx] at hc'
      have := h4 e' he'
      have h5 := cpl_le e.literal text
      have h6 := cpl_le e'.literal text
      rw [hc, hc', List.length_take, List.length_take]
      omega

/-- A table with three literal-led patterns and one parser-led pattern: C27 applies and the longest entry is found. -/
example : (SuffixTable.build Samples.sip [Samples.pat 1 [.literal b!"a"], Samples.pat 2 [.literal b!"abd"], Samples.pat 3 [.literal b!"b"],
    Samples.pat 4 [.parser (Samples.int b!"i")]] >>= fun t => (fun r => r.map (·.literal)) <$> t.longestCommonPrefix b!"abc") = .ok (some b!"abd") := by
  decide +kernel

/-- C28 is false: `abc%{INT:x}` is reported for the text `ab5`. -/
theorem C28_refuted : ∃ (p : Pattern) (text : Bytes) (r : MatchResult), AsciiLits p ∧ Ascii text ∧
    (SuffixTable.build Samples.sip [p] >>= fun t => t.parse text) = .ok (some r) ∧ ¬∃ caps, Matches p.pattern text caps := by
  refine ⟨Samples.pat 1 [.literal b!"abc", .parser (Samples.int b!"x")], b!"ab5",
    { pattern := Samples.pat 1 [], values := [(b!"x", b!"5")] }, ?_, by decide, by decide +kernel, ?_⟩
  · intro l hl
    simp [Samples.pat] at hl; subst hl; decide
  · rintro ⟨caps, h⟩
    simp only [Samples.pat] at h
    generalize hx : (b!"ab5" : Bytes) = x at h
    cases h with
    | literal _ _ y _ _ => simp at hx

/-- C28, the part that holds: a result belongs to an added pattern which matches the text except that literals may have been
cut short (`LooseMatches`), and it carries the values of that match.  In particular the reported pattern was added. -/
theorem C28_loose_partial (sip : Bytes → UInt64) (ps : List Pattern) (hu : ∀ p ∈ ps, Utf8Lits p) (hcol : NoCollision sip ps) (t : SuffixTable)
    (hb : SuffixTable.build sip ps = .ok t) (text : Bytes) (hx : Utf8 text) (r : MatchResult) (hr : t.parse text = .ok (some r)) :
    ∃ p ∈ ps, ∃ caps, LooseMatches p.pattern text caps ∧ IsResult r p caps :=
  reach_sound (reach_of_build hb) hu hcol hx hr

/-- A history with two literal-led and two parser-led patterns for which C28 says something: the result is the loose match of pattern 2. -/
example : (SuffixTable.build Samples.sip [Samples.pat 1 [.literal b!"abx"], Samples.pat 2 [.literal b!"ab", .parser (Samples.int b!"i")],
    Samples.pat 3 [.parser (Samples.int b!"j")], Samples.pat 4 [.parser (Samples.greedy b!"g" none)]] >>= fun t => t.parse b!"a17") =
    .ok (some { pattern := Samples.pat 2 [], values := [(b!"i", b!"17")] }) := by decide +kernel

theorem loose_litFree {toks : List Token} {x : Bytes} {caps} (h : LooseMatches toks x caps) (hf : LitFree toks) : Matches toks x caps := by
  induction h with
  | nil => exact .nil
  | last l x _ => exact absurd (by simp) (hf l)
  | literal l => exact absurd (by simp) (hf l)
  | parser a toks v y caps h1 h2 ih => exact .parser _ _ _ _ _ h1 (ih fun l hl => hf l (by simp [hl]))

/-- C28, second part that holds: if no added pattern contains a literal the matcher is sound. -/
theorem C28_literal_free_partial (sip : Bytes → UInt64) (ps : List Pattern) (hf : ∀ p ∈ ps, ∀ l, Token.literal l ∉ p.pattern)
    (hcol : NoCollision sip ps) (t : SuffixTable) (hb : SuffixTable.build sip ps = .ok t) (text : Bytes) (hx : Utf8 text) (r : MatchResult)
    (hr : t.parse text = .ok (some r)) : ∃ p ∈ ps, ∃ caps, Matches p.pattern text caps ∧ IsResult r p caps := by
  obtain ⟨p, hp, caps, h1, h2⟩ := reach_sound (reach_of_build hb) (fun p hp l hl => absurd hl (hf p hp l)) hcol hx hr
  exact ⟨p, hp, caps, loose_litFree h1 (hf p hp), h2⟩

theorem sbuild_single (sip : Bytes → UInt64) (p : Pattern) : SuffixTable.build sip [p] = .ok (ssingle p.pattern p.strip) := by
  have := sinsert_new sip p.pattern p rfl
  simp only [SuffixTable.build, List.foldlM_cons, List.foldlM_nil, SuffixTable.addPattern, this]
  rfl

/-- C29: a table holding one pattern returns it, with its captures, on every text of the pattern that does not end right after a literal with
tokens following. -/
theorem C29_single_complete (sip : Bytes → UInt64) (p : Pattern) (hs : Supported p) (hne : p.pattern ≠ []) (text : Bytes) (hx : Utf8 text) (caps)
    (hm : MatchesStrict p.pattern text caps) :
    ∃ res, (SuffixTable.build sip [p] >>= fun t => t.parse text) = .ok (some res) ∧ IsResult res p caps := by
  rw [sbuild_single]
  show ∃ res, (ssingle p.pattern p.strip).parse text = .ok (some res) ∧ _
  obtain ⟨r, hr⟩ := ssingle_total (q := p.strip) hs hx
  obtain ⟨res, rfl, h1, h2⟩ := (ssingle_answers hne hs.1 hx hr).1 caps (strict_loose hm hs.1)
  exact ⟨res, hr, h1, h2⟩

/-- C29, exact form: a table holding one pattern answers exactly the texts that match loosely. -/
theorem C29_single_exact (sip : Bytes → UInt64) (p : Pattern) (hs : Supported p) (hne : p.pattern ≠ []) (text : Bytes) (hx : Utf8 text) :
    ∃ r, (SuffixTable.build sip [p] >>= fun t => t.parse text) = .ok r ∧
      (∀ caps, LooseMatches p.pattern text caps → ∃ res, r = some res ∧ IsResult res p caps) ∧
      ((¬∃ caps, LooseMatches p.pattern text caps) → r = none) := by
  rw [sbuild_single]
  show ∃ r, (ssingle p.pattern p.strip).parse text = .ok r ∧ _
  obtain ⟨r, hr⟩ := ssingle_total (q := p.strip) hs hx
  exact ⟨r, hr, ssingle_answers hne hs.1 hx hr⟩

/-- C29 in a concrete case with a literal, an integer and a greedy value. -/
example : (SuffixTable.build Samples.sip [Samples.pat 1 [.literal b!"a", .parser (Samples.int b!"i"), .literal b!":", .parser (Samples.greedy b!"g" (some b!"-")),
    .literal b!"-"]] >>= fun t => t.parse b!"a12:xyz-") =
    .ok (some { pattern := Samples.pat 1 [], values := [(b!"g", b!"xyz"), (b!"i", b!"12")] }) := by decide +kernel

/-- ASCII patterns on ASCII texts do not panic in the suffix-array matcher, whatever the SET arguments. -/
theorem table_ascii_total {toks : List Token} {q : Pattern} (hl : LitsP Ascii toks) {x : Bytes} (hx : Ascii x) :
    ∃ r, (ssingle toks q).parse x = .ok r := by
  induction toks generalizing x with
  | nil =>
    rw [sparse_nolit (lcp_nil rfl x)]
    simp only [ssingle, SuffixTable.new]
    rw [sparseWithParsers]; exact ⟨_, rfl⟩
  | cons tok rest ih =>
    have hl' : LitsP Ascii rest := fun l h => hl l (by simp [h])
    cases tok with
    | literal l =>
      have hll := ascii_utf8 (hl l (by simp))
      rcases lcp_spec (t := ssingle (.literal l :: rest) q) (by simp [ssingle, SSorted])
        (by intro e he; simp [ssingle] at he; rw [he]; exact hll) (ascii_utf8 hx) with ⟨h1, _⟩ | ⟨e, h1, h2, _⟩
      · simp [ssingle] at h1
      · simp [ssingle] at h1
        rw [sparse_lit (ascii_utf8 hx) (by rw [h1]; exact hll) h2]
        split
        · exact ⟨_, rfl⟩
        · split
          · exact ⟨_, rfl⟩
          · rename_i c hc
            rw [h1] at hc
            by_cases hr : rest = [] <;> simp [hr] at hc
            rw [← hc]; exact ih hl' (ascii_drop hx _)
    | parser a =>
      rw [sparse_nolit (lcp_nil rfl x)]
      simp only [ssingle]
      apply sparseWithParsers_total
      intro m hm
      simp at hm; subst hm
      obtain ⟨r, hr⟩ := parse_total_ascii a hx
      rw [ParserE.parse, hr]
      cases r with
      | none => exact ⟨_, rfl⟩
      | some v =>
        obtain ⟨hpm, hb⟩ := (parse_some a x v).mp hr
        simp only
        rw [ltrunc, sliceFrom_ok hb]
        simp only
        split
        · rename_i d hd
          by_cases hr : rest = [] <;> simp [hr] at hd
          obtain ⟨r, hr⟩ := ih hl' (ascii_drop hx v.length)
          rw [← hd, hr]
          cases r <;> exact ⟨_, rfl⟩
        · split <;> exact ⟨_, rfl⟩

/-- C29 for ASCII texts: nothing is asked of SET arguments. -/
theorem C29_single_complete_ascii (sip : Bytes → UInt64) (p : Pattern) (ha : AsciiLits p) (hne : p.pattern ≠ []) (text : Bytes) (hx : Ascii text) (caps)
    (hm : MatchesStrict p.pattern text caps) :
    ∃ res, (SuffixTable.build sip [p] >>= fun t => t.parse text) = .ok (some res) ∧ IsResult res p caps := by
  have hu : LitsP Utf8 p.pattern := fun l hl => ascii_utf8 (ha l hl)
  rw [sbuild_single]
  show ∃ res, (ssingle p.pattern p.strip).parse text = .ok (some res) ∧ _
  obtain ⟨r, hr⟩ := table_ascii_total (q := p.strip) ha hx
  obtain ⟨res, rfl, h1, h2⟩ := (ssingle_answers hne hu (ascii_utf8 hx) hr).1 caps (strict_loose hm hu)
  exact ⟨res, hr, h1, h2⟩

/-- C30 is false: `abc%{INT:x}` and the text `ab5`. -/
theorem C30_refuted : ∃ (ps : List Pattern) (text : Bytes), (∀ p ∈ ps, AsciiLits p) ∧ Ascii text ∧
    (SuffixTree.build Samples.sip ps >>= fun t => t.parse text) ≠ (SuffixTable.build Samples.sip ps >>= fun t => t.parse text) := by
  refine ⟨[Samples.pat 1 [.literal b!"abc", .parser (Samples.int b!"x")]], b!"ab5", ?_, by decide, by decide +kernel⟩
  intro p hp l hl
  simp at hp; subst hp
  simp [Samples.pat] at hl; subst hl; decide

/-- C30, first part that holds: for patterns without literals the two matchers give the same answer on every text (and panic alike). -/
theorem C30_literal_free_partial (sip : Bytes → UInt64) (ps : List Pattern) (hf : ∀ p ∈ ps, ∀ l, Token.literal l ∉ p.pattern) (text : Bytes) :
    (SuffixTree.build sip ps >>= fun t => t.parse text) = (SuffixTable.build sip ps >>= fun t => t.parse text) := litFree_same sip ps hf text

/-- C30, second part that holds: for families with incomparable leading literals the two matchers give the same result on every text that one
of the patterns matches. -/
theorem C30_incomparable_partial (sip : Bytes → UInt64) (ps : List Pattern) (hs : ∀ p ∈ ps, Supported p) (ha : ∀ p ∈ ps, AsciiLits p)
    (hl : ∀ p ∈ ps, NonemptyLits p) (hinc : Incomparable ps) (text : Bytes) (hx : Ascii text) (p : Pattern) (hp : p ∈ ps) (caps)
    (hm : MatchesStrict p.pattern text caps) :
    ∃ res, IsResult res p caps ∧ (SuffixTree.build sip ps >>= fun t => t.parse text) = .ok (some res) ∧
      (SuffixTable.build sip ps >>= fun t => t.parse text) = .ok (some res) := by
  obtain ⟨r, h1, h2, _⟩ := C19_incomparable_ascii sip ps ha hl hinc text hx
  obtain ⟨res, rfl, h3⟩ := h2 p hp caps hm
  obtain ⟨t, h4, h5⟩ := sbuild_reach sip ps
  obtain ⟨r', h6⟩ := reach_total h5 hs (ascii_utf8 hx)
  obtain ⟨res', rfl, h7⟩ := reach_incomparable h5 (fun p hp => (hs p hp).1) hinc (ascii_utf8 hx) h6 hp hm
  refine ⟨res, h3, h1, ?_⟩
  rw [h4]
  show t.parse text = _
  rw [h6, isResult_unique h7 h3]

/-- C30, third part that holds: in histories of literal patterns both matchers return the same for every text that was added. -/
theorem C30_literals_partial (sip : Bytes → UInt64) (ps : List Pattern) (ha : ∀ p ∈ ps, AsciiLits p) (hl : ∀ p ∈ ps, ∃ l, p.pattern = [.literal l])
    (p : Pattern) (hp : p ∈ ps) (L : Bytes) (hL : p.pattern = [.literal L]) :
    (SuffixTree.build sip ps >>= fun t => t.parse L) = (SuffixTable.build sip ps >>= fun t => t.parse L) := by
  have haL : Ascii L := ha p hp L (by rw [hL]; simp)
  rw [C16_literal_map_ascii sip ps ha hl L haL]
  obtain ⟨t, h4, h5⟩ := sbuild_reach sip ps
  rw [h4]
  show _ = t.parse L
  rw [reach_literal h5 (ascii_utf8 haL) ⟨p, hp, by rw [hL]; rfl⟩]
  rfl

/-- C31 is false: next to the literal `abc` the pattern `%{GREEDY:g}` no longer matches `xyz`. -/
theorem C31_refuted : ∃ (lit par : Pattern) (text : Bytes), AsciiLits lit ∧ Ascii text ∧ lit.pattern = [.literal b!"abc"] ∧
    (∃ a, par.pattern = [.parser a]) ∧ (¬∃ caps, Matches lit.pattern text caps) ∧
    (∃ r, (SuffixTable.build Samples.sip [par] >>= fun t => t.parse text) = .ok (some r)) ∧
    (SuffixTable.build Samples.sip [lit, par] >>= fun t => t.parse text) = .ok none := by
  refine ⟨Samples.pat 1 [.literal b!"abc"], Samples.pat 2 [.parser (Samples.greedy b!"g" none)], b!"xyz", ?_, by decide, rfl, ⟨_, rfl⟩, ?_,
    ⟨{ pattern := Samples.pat 2 [], values := [(b!"g", b!"xyz")] }, by decide +kernel⟩, by decide +kernel⟩
  · intro l hl
    simp [Samples.pat] at hl; subst hl; decide
  · rintro ⟨caps, h⟩
    simp only [Samples.pat] at h
    generalize hx : (b!"xyz" : Bytes) = x at h
    cases h with
    | literal _ _ y _ _ => simp at hx

/-- C31 fails always: as soon as one pattern starts with a literal, no pattern starting with a parser is ever reported. -/
theorem C31_parsers_never_tried_refuted (sip : Bytes → UInt64) (ps : List Pattern) (hu : ∀ p ∈ ps, Utf8Lits p)
    (hlit : ∃ p ∈ ps, ∃ l, p.pattern.head? = some (.literal l)) (t : SuffixTable) (hb : SuffixTable.build sip ps = .ok t) (text : Bytes)
    (hx : Utf8 text) (r : MatchResult) (hr : t.parse text = .ok (some r)) :
    ∃ p ∈ ps, (∃ l, p.pattern.head? = some (.literal l)) ∧ ∃ caps, LooseMatches p.pattern text caps ∧ IsResult r p caps := by
  have h := reach_of_build hb
  have hus := reach_utf8 h hu
  rcases lcp_spec h.sorted hus hx with ⟨h1, _⟩ | ⟨e, he, h1, _⟩
  · exfalso
    obtain ⟨p, hp, l, e⟩ := hlit
    obtain ⟨e, he, _⟩ := (reach_has h l).mpr ⟨p, hp, e⟩
    rw [h1] at he; simp at he
  · rw [sparse_lit hx (hus e he) h1] at hr
    obtain ⟨h2, h3⟩ := reach_lit h he
    split at hr
    · rename_i hk
      cases hq : e.pattern with
      | none => rw [hq] at hr; simp at hr
      | some q =>
        rw [hq] at hr; simp at hr
        obtain ⟨p, hp, e1, rfl⟩ := h2 q hq
        refine ⟨p, hp, ⟨_, by rw [e1]; rfl⟩, [], ?_, ?_⟩
        · rw [e1]; exact .last _ _ ((cpl_eq_length_right (hus e he) hx).mp hk)
        · rw [← hr]; exact ⟨rfl, hasCaptures_nil _⟩
    · rename_i hk
      split at hr
      · simp at hr
      · rename_i c hc
        obtain ⟨p, hp, rest, hne, e1, rfl⟩ := h3 c hc
        have hans := litE_child_answers (hus e he) hne hx hk
          (ssingle_answers hne (fun l hl => hu p hp l (by rw [e1]; simp [hl]))
            (boundary_split hx (cpl_boundary_right (hus e he) hx)).2 hr)
        obtain ⟨caps, h4, h5, h6⟩ := sanswers_some hans
        exact ⟨p, hp, ⟨_, by rw [e1]; rfl⟩, caps, by rw [e1]; exact h4, h5, h6⟩

/-- C31, the part that holds: without literal-led patterns, parser-led patterns (starting with different parsers) are tried in insertion order
and the first that loosely matches is the answer; hence a pattern is reported on every text it matches unless an earlier one matches loosely. -/
theorem C31_parser_led_partial (sip : Bytes → UInt64) (ps : List Pattern) (hs : ∀ p ∈ ps, Supported p) (hled : DistinctParserLed ps)
    (hcol : NoCollision sip ps) (text : Bytes) (hx : Utf8 text) :
    ∃ r, (SuffixTable.build sip ps >>= fun t => t.parse text) = .ok r ∧
      (∀ before p after caps, ps = before ++ p :: after → (∀ q ∈ before, ¬∃ caps, LooseMatches q.pattern text caps) →
        MatchesStrict p.pattern text caps → ∃ res, r = some res ∧ IsResult res p caps) ∧
      ((∀ p ∈ ps, ¬∃ caps, LooseMatches p.pattern text caps) → r = none) := by
  obtain ⟨t, h1, h2, h3⟩ := sfold_parserLed (sip := sip) ps [] SuffixTable.new (by simpa using hled.1) (by
    refine List.Pairwise.imp_of_mem ?_ hled.2
    intro p q hp hq h a rest b rest' ea eb hh
    exact h a rest b rest' ea eb (hcol a b ⟨p, hp, by rw [ea]; rfl⟩ ⟨q, hq, by rw [eb]; rfl⟩ hh)) rfl rfl
  obtain ⟨r, hr⟩ := reach_total (reach_of_build (ps := ps) h1) hs hx
  have hf := hr
  rw [sparse_nolit (lcp_nil h2 text), h3] at hf
  have := sparsers_first (fun p hp => (hs p hp).1) hled.1 hx hf
  refine ⟨r, ?_, ?_, this.2⟩
  · unfold SuffixTable.build
    rw [h1]; exact hr
  · intro A p B caps h4 h5 h6
    exact this.1 A p B caps h4 h5 (strict_loose h6 (hs p (by rw [h4]; simp)).1)

/-- C31: three parser-led patterns, the second one matches. -/
example : (SuffixTable.build Samples.sip [Samples.pat 1 [.parser (Samples.int b!"i"), .literal b!"x"], Samples.pat 2 [.parser (Samples.set b!"s" b!"0123y")],
    Samples.pat 3 [.parser (Samples.greedy b!"g" none)]] >>= fun t => t.parse b!"12y") =
    .ok (some { pattern := Samples.pat 2 [], values := [(b!"s", b!"12y")] }) := by decide +kernel

/-- C24 for the suffix-array matcher: re-adding a pattern with the same tokens replaces it (all histories). -/
theorem C24_readd_replaces_suffix_array (sip : Bytes → UInt64) (ps : List Pattern) (p q : Pattern) (hpq : p.pattern = q.pattern) :
    SuffixTable.build sip (ps ++ [p, q]) = SuffixTable.build sip (ps ++ [q]) := by
  obtain ⟨t, h1, h2⟩ := sbuild_reach sip ps
  obtain ⟨t1, h3, _⟩ := reach_step h2 p
  have h4 := sinsert_twice h2 hpq h3
  have happ : ∀ qs, SuffixTable.build sip (ps ++ qs) = qs.foldlM (fun t p => t.addPattern sip p) t := by
    intro qs
    have h1' := h1
    unfold SuffixTable.build at h1' ⊢
    rw [List.foldlM_append, h1']
    rfl
  rw [happ, happ]
  simp only [bind, Except.bind, List.foldlM_cons, List.foldlM_nil, SuffixTable.addPattern, h3, h4]

/-- C23 for the suffix-array matcher. -/
theorem C23_new_matches_nothing_suffix_array (text : Bytes) : SuffixTable.new.parse text = .ok none := by
  rw [sparse_nolit (lcp_nil rfl text)]
  simp only [SuffixTable.new]
  rw [sparseWithParsers]

/-- C23 for the suffix-array matcher. -/
theorem C23_empty_pattern_suffix_array (sip : Bytes → UInt64) (t : SuffixTable) (p : Pattern) (hp : p.pattern = []) : t.addPattern sip p = .ok t :=
  sinsert_empty sip t p hp

mutual
theorem suffixTable_clone_id : (t : SuffixTable) → t.clone = t
  | ⟨ls, ps⟩ => by rw [SuffixTable.clone, scloneLits_id ls, sclonePars_id ps]
theorem scloneLits_id : (ls : List LiteralE) → scloneLits ls = ls
  | [] => by rw [scloneLits]
  | n :: ls => by rw [scloneLits, literalE_clone_id n, scloneLits_id ls]
theorem sclonePars_id : (ls : List ParserE) → sclonePars ls = ls
  | [] => by rw [sclonePars]
  | n :: ls => by rw [sclonePars, parserE_clone_id n, sclonePars_id ls]
theorem literalE_clone_id : (n : LiteralE) → n.clone = n
  | ⟨p, l, n⟩ => by rw [LiteralE.clone, optPattern_clone_id, scloneOpt_id n]
theorem parserE_clone_id : (n : ParserE) → n.clone = n
  | ⟨p, a, n⟩ => by rw [ParserE.clone, boxedClone_id, optPattern_clone_id, scloneOpt_id n]
theorem scloneOpt_id : (n : Option SuffixTable) → scloneOpt n = n
  | none => by rw [scloneOpt]
  | some t => by rw [scloneOpt, suffixTable_clone_id t]
end

/-- C50 for the suffix-array matcher. -/
theorem C50_clone_suffix_array (sip : Bytes → UInt64) (t : SuffixTable) :
    (∀ text, t.clone.parse text = t.parse text) ∧
    (∀ ps : List Pattern, ps.foldlM (fun t p => t.addPattern sip p) t.clone = ps.foldlM (fun t p => t.addPattern sip p) t) := by
  rw [suffixTable_clone_id]; exact ⟨fun _ => rfl, fun _ => rfl⟩

end Verif
