import Verif.Proofs.TrieMore
import Verif.Spec.Samples
import Verif.Model.Clone
/-! C15–C24, C50, C53: what the trie matcher answers after histories of `add_pattern`. -/
namespace Verif
open Spec

theorem build_append (sip : Bytes → UInt64) (ps qs : List Pattern) :
    SuffixTree.build sip (ps ++ qs) = (SuffixTree.build sip ps >>= fun t => qs.foldlM (fun t p => t.addPattern sip p) t) := by
  simp [SuffixTree.build, List.foldlM_append]

theorem build_inv {sip : Bytes → UInt64} {ps : List Pattern} {t : SuffixTree} (hu : ∀ p ∈ ps, Utf8Lits p)
    (hb : SuffixTree.build sip ps = .ok t) : Inv Utf8 t :=
  (build_induct (sip := sip) (fun _ _ => True) trivial (fun _ _ _ _ _ _ _ _ => trivial) hu hb).1

theorem build_snoc {sip : Bytes → UInt64} {ps : List Pattern} {p : Pattern} {t : SuffixTree} (hb : SuffixTree.build sip (ps ++ [p]) = .ok t) :
    ∃ t0, SuffixTree.build sip ps = .ok t0 ∧ t0.insert sip p = .ok t := by
  rw [build_append] at hb
  cases h : SuffixTree.build sip ps with
  | error e => rw [h] at hb; simp [bind, Except.bind] at hb
  | ok t0 =>
    rw [h] at hb
    refine ⟨t0, rfl, ?_⟩
    simp only [bind, Except.bind, List.foldlM_cons, List.foldlM_nil, SuffixTree.addPattern, pure, Except.pure] at hb
    cases h2 : t0.insert sip p with
    | error e => rw [h2] at hb; simp at hb
    | ok t1 => rw [h2] at hb; simpa using hb

theorem build_run_ascii {sip : Bytes → UInt64} {ps : List Pattern} (hu : ∀ p ∈ ps, AsciiLits p) {text : Bytes} (hx : Ascii text) :
    ∃ t r, SuffixTree.build sip ps = .ok t ∧ t.parse text = .ok r ∧
      (SuffixTree.build sip ps >>= fun t => t.parse text) = .ok r := by
  obtain ⟨t, h1, h2⟩ := build_ascii sip ps hu
  obtain ⟨r, hr⟩ := parse_total_trie h2 hx
  exact ⟨t, r, h1, hr, by rw [h1]; exact hr⟩

/-! ### C15, C21: literal patterns -/

/-- Adding `p` does not concern the answer for the text `L`: `p` starts with a parser, is another literal, starts with
`L` itself followed by more tokens, or starts with a literal that is not a prefix of `L`. -/
def Harmless (L : Bytes) (p : Pattern) : Prop :=
  ∀ l rest, p.pattern = .literal l :: rest → (rest = [] ∧ l ≠ L) ∨ (rest ≠ [] ∧ (l = L ∨ ¬ l <+: L))

theorem step_val {sip : Bytes → UInt64} {t t' : SuffixTree} {p : Pattern} {L : Bytes} (h : Step sip t p t') (hi : Inv Utf8 t)
    (hL : Harmless L p) : val t' L = val t L := by
  cases h with
  | empty he => rfl
  | par a rest he => exact val_parsers t _ L
  | lit l rest he t' h =>
    rcases hL l rest he with ⟨rfl, hne⟩ | ⟨hr, rfl | hnp⟩
    · exact ins_val_other (goodUpd_updLit _ _) h hi (Ne.symm hne) (.inl fun n => by simp [updLit, setPat])
    · obtain ⟨m, h1, h2⟩ := ins_found (goodUpd_updLit _ _) h hi
      have : (updLit rest p.strip m).pattern = m.pattern := by
        unfold updLit
        rw [if_neg (by simpa using hr)]; rfl
      rw [← h2, ← this]
      unfold val
      rw [h1]
    · exact ins_val_other (goodUpd_updLit _ _) h hi (by rintro rfl; exact hnp (List.prefix_refl _)) (.inr hnp)

theorem step_val_literal {sip : Bytes → UInt64} {t t' : SuffixTree} {p : Pattern} {L : Bytes} (h : Step sip t p t') (hi : Inv Utf8 t)
    (hp : p.pattern = [.literal L]) : val t' L = some p.strip := by
  cases h with
  | empty he => rw [hp] at he; simp at he
  | par a rest he => rw [hp] at he; simp at he
  | lit l rest he t' h =>
    rw [hp] at he; simp at he
    obtain ⟨rfl, rfl⟩ := he
    obtain ⟨m, h1, h2⟩ := ins_found (goodUpd_updLit _ _) h hi
    unfold val
    rw [h1]
    rfl

theorem utf8_of_literal {p : Pattern} {L : Bytes} (hp : p.pattern = [.literal L]) (h : Utf8Lits p) : Utf8 L := h L (by rw [hp]; simp)

/-- C15 and C21, for all UTF-8 histories: after adding the literal pattern `p` and then patterns that do not concern its literal `L`, `parse(L)` returns
`p` with no values, unless it panics. -/
theorem literal_precedence (sip : Bytes → UInt64) (before after : List Pattern) (p : Pattern) (L : Bytes) (hp : p.pattern = [.literal L])
    (hu : ∀ q ∈ before ++ p :: after, Utf8Lits q) (hafter : ∀ q ∈ after, Harmless L q)
    (t : SuffixTree) (hb : SuffixTree.build sip (before ++ p :: after) = .ok t) :
    val t L = some p.strip := by
  rw [show before ++ p :: after = (before ++ [p]) ++ after by simp, build_append] at hb
  cases h1 : SuffixTree.build sip (before ++ [p]) with
  | error e => rw [h1] at hb; simp [bind, Except.bind] at hb
  | ok t1 =>
    rw [h1] at hb
    simp only [bind, Except.bind] at hb
    obtain ⟨t0, h2, h3⟩ := build_snoc h1
    have hi0 := build_inv (fun q hq => hu q (by simp [hq])) h2
    obtain ⟨hs, hi1⟩ := step_of_insert hi0 (hu p (by simp)) h3
    have hv := step_val_literal hs hi0 hp
    have := foldlM_induct (P := Utf8) (fun qs t => (∀ q ∈ qs, Harmless L q) → val t L = some p.strip)
      (fun ps t q t' hr hi hl hm => by
        obtain ⟨a, b⟩ := step_of_insert hi hl hr
        refine ⟨b, fun hh => ?_⟩
        rw [step_val a hi (hh q (by simp))]
        exact hm fun q' hq' => hh q' (by simp [hq']))
      after [] t1 t hi1 (fun _ => hv) (fun q hq => hu q (by simp [hq])) hb
    exact this.2 (by simpa using hafter)

/-- C15: right after a literal pattern was added it is what `parse` returns for its literal (all UTF-8 histories; unless `parse` panics). -/
theorem C15_literal_after_add (sip : Bytes → UInt64) (ps : List Pattern) (p : Pattern) (L : Bytes) (hp : p.pattern = [.literal L])
    (hu : ∀ q ∈ ps ++ [p], Utf8Lits q) (t : SuffixTree) (hb : SuffixTree.build sip (ps ++ [p]) = .ok t) (r : Option MatchResult)
    (hr : t.parse L = .ok r) : r = some { pattern := { p with pattern := [] }, values := [] } :=
  parse_of_val (build_inv hu hb) (utf8_of_literal hp (hu p (by simp)))
    (literal_precedence sip ps [] p L hp hu (by simp) t hb) hr

/-- C15 for ASCII histories, where nothing panics. -/
theorem C15_literal_after_add_ascii (sip : Bytes → UInt64) (ps : List Pattern) (p : Pattern) (L : Bytes) (hp : p.pattern = [.literal L])
    (hu : ∀ q ∈ ps ++ [p], AsciiLits q) :
    (SuffixTree.build sip (ps ++ [p]) >>= fun t => t.parse L) = .ok (some { pattern := { p with pattern := [] }, values := [] }) := by
  obtain ⟨t, r, h1, h2, h3⟩ := build_run_ascii (sip := sip) hu (hu p (by simp) L (by rw [hp]; simp))
  rw [h3, C15_literal_after_add sip ps p L hp (fun q hq => asciiLits_utf8 (hu q hq)) t h1 r h2]

/-- C21: literals take precedence over parsers, and keep doing so while patterns are added that do not concern the literal. -/
theorem C21_literal_precedence (sip : Bytes → UInt64) (before after : List Pattern) (p : Pattern) (L : Bytes) (hp : p.pattern = [.literal L])
    (hu : ∀ q ∈ before ++ p :: after, Utf8Lits q) (hafter : ∀ q ∈ after, Harmless L q) (t : SuffixTree)
    (hb : SuffixTree.build sip (before ++ p :: after) = .ok t) (r : Option MatchResult) (hr : t.parse L = .ok r) :
    r = some { pattern := { p with pattern := [] }, values := [] } :=
  parse_of_val (build_inv hu hb) (utf8_of_literal hp (hu p (by simp))) (literal_precedence sip before after p L hp hu hafter t hb) hr

/-- C21 for ASCII histories, where nothing panics. -/
theorem C21_literal_precedence_ascii (sip : Bytes → UInt64) (before after : List Pattern) (p : Pattern) (L : Bytes)
    (hp : p.pattern = [.literal L]) (hu : ∀ q ∈ before ++ p :: after, AsciiLits q) (hafter : ∀ q ∈ after, Harmless L q) :
    (SuffixTree.build sip (before ++ p :: after) >>= fun t => t.parse L) =
      .ok (some { pattern := { p with pattern := [] }, values := [] }) := by
  obtain ⟨t, r, h1, h2, h3⟩ := build_run_ascii (sip := sip) hu (hu p (by simp) L (by rw [hp]; simp))
  rw [h3, C21_literal_precedence sip before after p L hp (fun q hq => asciiLits_utf8 (hu q hq)) hafter t h1 r h2]

/-- Patterns meeting the hypotheses of C21: a parser that also matches the text, an extension and an unrelated literal are added later. -/
example : ∀ q ∈ [Samples.pat 2 [.parser (Samples.greedy b!"g" none)], Samples.pat 3 [.literal b!"42", .parser (Samples.int b!"i")],
    Samples.pat 4 [.literal b!"423"], Samples.pat 5 [.literal b!"43", .parser (Samples.int b!"i")]], Harmless b!"42" q := by
  intro q hq l rest he
  simp at hq
  rcases hq with rfl | rfl | rfl | rfl <;> simp [Samples.pat] at he
  · obtain ⟨rfl, rfl⟩ := he; exact .inr ⟨by simp, .inl rfl⟩
  · obtain ⟨rfl, rfl⟩ := he; exact .inl ⟨rfl, by decide⟩
  · obtain ⟨rfl, rfl⟩ := he; exact .inr ⟨by simp, .inr (by decide)⟩

/-! ### C16: literal-only tries -/

/-- The last pattern of the history whose literal is the text. -/
def lastFor (ps : List Pattern) (text : Bytes) : Option Pattern := ps.reverse.find? fun p => decide (p.pattern = [.literal text])

theorem build_literals {sip : Bytes → UInt64} {ps : List Pattern} {t : SuffixTree} (hu : ∀ p ∈ ps, Utf8Lits p)
    (hl : ∀ p ∈ ps, ∃ l, p.pattern = [.literal l]) (hb : SuffixTree.build sip ps = .ok t) :
    Inv Utf8 t ∧ NoParsers t ∧ ∀ x, val t x = (lastFor ps x).map Pattern.strip := by
  have key := build_induct (sip := sip) (fun ps t => (∀ p ∈ ps, ∃ l, p.pattern = [.literal l]) →
      NoParsers t ∧ ∀ x, val t x = (lastFor ps x).map Pattern.strip)
    (fun _ => ⟨.mk _ rfl (by simp [SuffixTree.new]), fun x => by rw [val_none (by rfl)]; rfl⟩)
    (fun ps t p t' hs hi hlp ih hl => by
      obtain ⟨h1, h2⟩ := ih fun p hp => hl p (by simp [hp])
      obtain ⟨l, hp⟩ := hl p (by simp)
      refine ⟨?_, ?_⟩
      · cases hs with
        | empty he => exact h1
        | par a rest he => rw [hp] at he; simp at he
        | lit l' rest he t' h =>
          rw [hp] at he; simp at he
          obtain ⟨rfl, rfl⟩ := he
          exact ins_noParsers (q := p.strip) h h1
      · intro x
        unfold lastFor
        simp only [List.reverse_append, List.reverse_cons, List.reverse_nil, List.nil_append, List.singleton_append, List.find?_cons]
        by_cases hx : l = x
        · subst hx
          rw [step_val_literal hs hi hp]
          simp [hp]
        · have hd : decide (p.pattern = [Token.literal x]) = false := by simp [hp, hx]
          rw [hd]
          have := step_val (L := x) hs hi (by
            intro l' rest he
            rw [hp] at he; simp at he
            obtain ⟨rfl, rfl⟩ := he
            exact .inl ⟨rfl, hx⟩)
          rw [this, h2]; rfl)
    hu hb
  exact ⟨key.1, key.2 hl⟩

/-- C16: a trie of literal patterns answers with the last pattern added for exactly the text (all UTF-8 histories; unless `parse` panics). -/
theorem C16_literal_map (sip : Bytes → UInt64) (ps : List Pattern) (hu : ∀ p ∈ ps, Utf8Lits p) (hl : ∀ p ∈ ps, ∃ l, p.pattern = [.literal l])
    (t : SuffixTree) (hb : SuffixTree.build sip ps = .ok t) (text : Bytes) (hx : Utf8 text) (r : Option MatchResult)
    (hr : t.parse text = .ok r) :
    r = (lastFor ps text).map fun p => { pattern := { p with pattern := [] }, values := [] } := by
  obtain ⟨h1, h2, h3⟩ := build_literals hu hl hb
  rw [parse_noParsers h2 h1 hx hr, h3, Option.map_map]
  rfl

/-- C16 for ASCII histories and texts, where nothing panics. -/
theorem C16_literal_map_ascii (sip : Bytes → UInt64) (ps : List Pattern) (hu : ∀ p ∈ ps, AsciiLits p)
    (hl : ∀ p ∈ ps, ∃ l, p.pattern = [.literal l]) (text : Bytes) (hx : Ascii text) :
    (SuffixTree.build sip ps >>= fun t => t.parse text) =
      .ok ((lastFor ps text).map fun p => { pattern := { p with pattern := [] }, values := [] }) := by
  obtain ⟨t, r, h1, h2, h3⟩ := build_run_ascii (sip := sip) hu hx
  rw [h3, C16_literal_map sip ps (fun q hq => asciiLits_utf8 (hu q hq)) hl t h1 text (ascii_utf8 hx) r h2]

example : lastFor [Samples.pat 1 [.literal b!"ab"], Samples.pat 2 [.literal b!"a"], Samples.pat 3 [.literal b!"ab"], Samples.pat 4 [.literal b!"ac"]]
    b!"ab" = some (Samples.pat 3 [.literal b!"ab"]) := by decide

/-! ### C18, C53: one pattern -/

theorem build_single (sip : Bytes → UInt64) (p : Pattern) : SuffixTree.build sip [p] = .ok (single p.pattern p.strip) := by
  have := insert_new sip p.pattern p rfl
  simp only [SuffixTree.build, List.foldlM_cons, List.foldlM_nil, SuffixTree.addPattern, this]
  rfl

/-- C18: a trie holding one pattern without empty literals matches exactly the texts of that pattern that do not end right after a literal with
tokens following, and extracts the captures (all UTF-8 patterns and texts; unless `parse` panics). -/
theorem C18_single_pattern (sip : Bytes → UInt64) (p : Pattern) (hne : p.pattern ≠ []) (hu : Utf8Lits p) (hl : NonemptyLits p)
    (t : SuffixTree) (hb : SuffixTree.build sip [p] = .ok t) (text : Bytes) (hx : Utf8 text) (r : Option MatchResult)
    (hr : t.parse text = .ok r) :
    (∀ caps, MatchesStrict p.pattern text caps → ∃ res, r = some res ∧ IsResult res p caps) ∧
    (∀ res, r = some res → ∃ caps, MatchesStrict p.pattern text caps ∧ IsResult res p caps) := by
  rw [build_single] at hb
  simp at hb; subst hb
  have h := single_answers hne hu hl hx hr
  refine ⟨fun caps hc => ?_, ?_⟩
  · obtain ⟨res, h1, h2, h3⟩ := h.1 caps hc
    exact ⟨res, h1, h2, h3⟩
  · rintro res rfl
    by_cases hc : ∃ caps, MatchesStrict p.pattern text caps
    · obtain ⟨caps, hc⟩ := hc
      obtain ⟨res', h1, h2, h3⟩ := h.1 caps hc
      simp at h1; subst h1
      exact ⟨caps, hc, h2, h3⟩
    · have := h.2 hc; simp at this

/-- C18 for ASCII literals and texts: `parse` returns normally and answers as specified. -/
theorem C18_single_pattern_ascii (sip : Bytes → UInt64) (p : Pattern) (hne : p.pattern ≠ []) (hu : AsciiLits p) (hl : NonemptyLits p)
    (text : Bytes) (hx : Ascii text) :
    ∃ r, (SuffixTree.build sip [p] >>= fun t => t.parse text) = .ok r ∧
    (∀ caps, MatchesStrict p.pattern text caps → ∃ res, r = some res ∧ IsResult res p caps) ∧
    (∀ res, r = some res → ∃ caps, MatchesStrict p.pattern text caps ∧ IsResult res p caps) := by
  obtain ⟨t, r, h1, h2, h3⟩ := build_run_ascii (sip := sip) (ps := [p]) (by simpa using hu) hx
  exact ⟨r, h3, C18_single_pattern sip p hne (asciiLits_utf8 hu) hl t h1 text (ascii_utf8 hx) r h2⟩

/-- A text matching in the sense of C18. -/
example : MatchesStrict [.literal b!"a", .parser (Samples.greedy b!"g" (some b!"-")), .literal b!"-"] b!"abc-"
    [(Samples.greedy b!"g" (some b!"-"), b!"bc")] := by
  refine .literal b!"a" _ b!"bc-" _ (by decide) (.parser _ _ b!"bc" b!"-" [] ?_ (.literal b!"-" [] [] [] (by decide) .nil))
  refine ⟨⟨[], rfl⟩, ?_⟩
  intro v' r' h
  have : v'.length ≠ 0 ∧ v'.length ≠ 1 := by
    constructor
    · intro h0; rw [List.length_eq_zero_iff] at h0; subst h0; simp at h
    · intro h0; obtain ⟨c, rfl⟩ := List.length_eq_one_iff.mp h0; simp at h
  simp; omega

/-- C53 is false: `app%{GREEDY:x}` does not match `app`. -/
theorem C53_refuted : ∃ (p : Pattern) (L : Bytes) (g : GreedyParser), p.pattern = [.literal L, .parser (.greedy g)] ∧ g.endString = none ∧
    L ≠ [] ∧ Ascii L ∧ ∀ sip : Bytes → UInt64, (SuffixTree.build sip [p] >>= fun t => t.parse (L ++ [])) = .ok none := by
  refine ⟨Samples.pat 1 [.literal b!"app", .parser (Samples.greedy b!"x" none)], b!"app", { name := some b!"x", endString := none }, rfl, rfl,
    by decide, by decide, fun sip => ?_⟩
  rw [build_single]
  decide +kernel

/-- C53, the part that holds: a trailing GREEDY takes every non-empty remainder. -/
theorem C53_trailing_greedy_partial (sip : Bytes → UInt64) (p : Pattern) (L rest : Bytes) (g : GreedyParser)
    (hp : p.pattern = [.literal L, .parser (.greedy g)]) (hg : g.endString = none) (hL : L ≠ []) (hLa : Ascii L) (hr : rest ≠ []) (hra : Ascii rest) :
    ∃ res, (SuffixTree.build sip [p] >>= fun t => t.parse (L ++ rest)) = .ok (some res) ∧ IsResult res p [(.greedy g, rest)] := by
  obtain ⟨r, h1, h2, _⟩ := C18_single_pattern_ascii sip p (by rw [hp]; simp) (by intro l hl; rw [hp] at hl; simp at hl; subst hl; exact hLa)
    (by intro l hl; rw [hp] at hl; simp at hl; subst hl; exact hL) (L ++ rest) (ascii_append.mpr ⟨hLa, hra⟩)
  have hm : MatchesStrict p.pattern (L ++ rest) [(.greedy g, rest)] := by
    rw [hp]
    refine .literal L _ rest _ (fun _ => hr) ?_
    have := MatchesStrict.parser (.greedy g) [] rest [] [] (by simp [ParserMatch, hg]) .nil
    simpa using this
  obtain ⟨res, rfl, h3⟩ := h2 _ hm
  exact ⟨res, h1, h3⟩

/-! ### C19: incomparable leading literals -/

/-- C19: if the leading literals are pairwise incomparable, every pattern matches exactly what it matches alone (all UTF-8 families; unless
`parse` panics). -/
theorem C19_incomparable (sip : Bytes → UInt64) (ps : List Pattern) (hu : ∀ p ∈ ps, Utf8Lits p) (hl : ∀ p ∈ ps, NonemptyLits p)
    (hinc : Incomparable ps) (t : SuffixTree) (hb : SuffixTree.build sip ps = .ok t) (text : Bytes) (hx : Utf8 text)
    (r : Option MatchResult) (hr : t.parse text = .ok r) :
    (∀ p ∈ ps, ∀ caps, MatchesStrict p.pattern text caps → ∃ res, r = some res ∧ IsResult res p caps) ∧
    (∀ res, r = some res → ∃ p ∈ ps, ∃ caps, MatchesStrict p.pattern text caps ∧ IsResult res p caps) := by
  obtain ⟨hi, hpf, hheads⟩ := build_heads hu hl hinc hb
  have ans : ∀ p ∈ ps, ∀ l rest, p.pattern = .literal l :: rest → l <+: text → Answers p.pattern p.strip text r := by
    intro p hp l rest he hpre
    obtain ⟨y, rfl⟩ := hpre
    rw [he]
    refine parse_head ((hheads _ _ _).mpr ⟨p, hp, rest, he, rfl, rfl⟩) rfl rfl hpf hi ?_ hx hr
    intro hr0 z hz r hr
    refine single_answers hr0 ?_ ?_ hz hr
    · intro l' hl'; exact hu p hp l' (by rw [he]; simp [hl'])
    · intro l' hl'; exact hl p hp l' (by rw [he]; simp [hl'])
  refine ⟨?_, ?_⟩
  · intro p hp caps hc
    obtain ⟨l, rest, he⟩ := hinc.1 p hp
    have hpre : l <+: text := by
      rw [he] at hc
      obtain ⟨y, rfl, _⟩ := strict_lit_inv hc
      exact List.prefix_append _ _
    obtain ⟨res, h1, h2, h3⟩ := (ans p hp l rest he hpre).1 caps hc
    exact ⟨res, h1, h2, h3⟩
  · rintro res rfl
    by_cases hex : ∃ p ∈ ps, ∃ l rest, p.pattern = .literal l :: rest ∧ l <+: text
    · obtain ⟨p, hp, l, rest, he, hpre⟩ := hex
      have h := ans p hp l rest he hpre
      by_cases hc : ∃ caps, MatchesStrict p.pattern text caps
      · obtain ⟨caps, hc⟩ := hc
        obtain ⟨res', h1, h2, h3⟩ := h.1 caps hc
        simp at h1; subst h1
        exact ⟨p, hp, caps, hc, h2, h3⟩
      · have := h.2 hc; simp at this
    · exfalso
      obtain ⟨c, rest, hw, hc⟩ := walk_nohead hpf (x := text) (by
        intro h pat ch hh hpre
        obtain ⟨p, hp, rest, he, _⟩ := (hheads _ _ _).mp hh
        exact hex ⟨p, hp, h, rest, he, hpre⟩)
      have := parse_partial hi hx hr
      rw [hw] at this
      simp only at this
      rw [hc, parseWithParsers] at this
      simp at this

/-- C19 for ASCII families and texts, where nothing panics; in addition the answer is the one of a trie holding only the matching pattern. -/
theorem C19_incomparable_ascii (sip : Bytes → UInt64) (ps : List Pattern) (hu : ∀ p ∈ ps, AsciiLits p) (hl : ∀ p ∈ ps, NonemptyLits p)
    (hinc : Incomparable ps) (text : Bytes) (hx : Ascii text) :
    ∃ r, (SuffixTree.build sip ps >>= fun t => t.parse text) = .ok r ∧
    (∀ p ∈ ps, ∀ caps, MatchesStrict p.pattern text caps → ∃ res, r = some res ∧ IsResult res p caps) ∧
    (∀ res, r = some res → ∃ p ∈ ps, ∃ caps, MatchesStrict p.pattern text caps ∧ IsResult res p caps) := by
  obtain ⟨t, r, h1, h2, h3⟩ := build_run_ascii (sip := sip) hu hx
  exact ⟨r, h3, C19_incomparable sip ps (fun q hq => asciiLits_utf8 (hu q hq)) hl hinc t h1 text (ascii_utf8 hx) r h2⟩

example : Incomparable [Samples.pat 1 [.literal b!"app", .parser (Samples.int b!"i")], Samples.pat 2 [.literal b!"apx"],
    Samples.pat 3 [.literal b!"b", .parser (Samples.int b!"i")]] := by
  refine ⟨?_, ?_⟩
  · intro p hp
    simp at hp
    rcases hp with rfl | rfl | rfl <;> exact ⟨_, _, rfl⟩
  · simp only [List.pairwise_cons, List.mem_cons, List.not_mem_nil, or_false, forall_eq_or_imp, forall_eq, Samples.pat, List.cons.injEq,
      Token.literal.injEq, and_imp]
    refine ⟨⟨?_, ?_⟩, ?_, by simp⟩ <;> (rintro _ _ _ _ rfl rfl rfl rfl; decide)

/-! ### C22: parser alternatives -/

/-- C22: patterns starting with different parsers are tried in insertion order; the first one that alone matches the text is the answer
(all UTF-8 families; unless `parse` panics). -/
theorem C22_insertion_order (sip : Bytes → UInt64) (ps : List Pattern) (hu : ∀ p ∈ ps, Utf8Lits p) (hl : ∀ p ∈ ps, NonemptyLits p)
    (hled : DistinctParserLed ps) (hcol : NoCollision sip ps) (t : SuffixTree) (hb : SuffixTree.build sip ps = .ok t) (text : Bytes)
    (hx : Utf8 text) (r : Option MatchResult) (hr : t.parse text = .ok r) : FirstAnswer ps text r := by
  refine parserLed_first hu hl ⟨hled.1, ?_⟩ hb hx hr
  have := hled.2
  refine List.Pairwise.imp_of_mem ?_ this
  intro p q hp hq h a rest b rest' ea eb hh
  exact h a rest b rest' ea eb (hcol a b ⟨p, hp, by rw [ea]; rfl⟩ ⟨q, hq, by rw [eb]; rfl⟩ hh)

/-- C22 for ASCII families and texts, where nothing panics. -/
theorem C22_insertion_order_ascii (sip : Bytes → UInt64) (ps : List Pattern) (hu : ∀ p ∈ ps, AsciiLits p) (hl : ∀ p ∈ ps, NonemptyLits p)
    (hled : DistinctParserLed ps) (hcol : NoCollision sip ps) (text : Bytes) (hx : Ascii text) :
    ∃ r, (SuffixTree.build sip ps >>= fun t => t.parse text) = .ok r ∧ FirstAnswer ps text r := by
  obtain ⟨t, r, h1, h2, h3⟩ := build_run_ascii (sip := sip) hu hx
  exact ⟨r, h3, C22_insertion_order sip ps (fun q hq => asciiLits_utf8 (hu q hq)) hl hled hcol t h1 text (ascii_utf8 hx) r h2⟩

example : DistinctParserLed [Samples.pat 1 [.parser (Samples.int b!"i"), .literal b!"x"], Samples.pat 2 [.parser (Samples.set b!"s" b!"0123")],
    Samples.pat 3 [.parser (Samples.greedy b!"g" none)]] := by
  refine ⟨?_, ?_⟩
  · intro p hp
    simp at hp
    rcases hp with rfl | rfl | rfl <;> exact ⟨_, _, rfl⟩
  · simp only [List.pairwise_cons, List.mem_cons, List.not_mem_nil, or_false, forall_eq_or_imp, forall_eq, Samples.pat, List.cons.injEq,
      Token.parser.injEq, and_imp]
    refine ⟨⟨?_, ?_⟩, ?_, by simp⟩ <;> (rintro _ _ _ _ rfl rfl rfl rfl; decide)

/-! ### C17, C20: later additions and insertion order -/

/-- C17 is false: adding `app%{INT:a}y` removes `app%{INT:a}x`. -/
theorem C17_refuted : ∃ (ps : List Pattern) (q : Pattern) (text : Bytes), (∀ p ∈ ps ++ [q], AsciiLits p) ∧ Ascii text ∧
    (∃ r, (SuffixTree.build Samples.sip ps >>= fun t => t.parse text) = .ok (some r)) ∧
    (SuffixTree.build Samples.sip (ps ++ [q]) >>= fun t => t.parse text) = .ok none := by
  refine ⟨[Samples.pat 1 [.literal b!"app", .parser (Samples.int b!"a"), .literal b!"x"]],
    Samples.pat 2 [.literal b!"app", .parser (Samples.int b!"a"), .literal b!"y"], b!"app5x", ?_, by decide,
    ⟨{ pattern := Samples.pat 1 [], values := [(b!"a", b!"5")] }, by decide +kernel⟩, by decide +kernel⟩
  intro p hp l hl
  simp at hp
  rcases hp with rfl | rfl <;> simp [Samples.pat] at hl <;> rcases hl with rfl | rfl <;> decide

/-- C17, first part that holds: adding a pattern that starts with a parser not yet used at the start of a pattern leaves every match as it is. -/
theorem C17_new_parser_partial (sip : Bytes → UInt64) (ps : List Pattern) (q : Pattern) (hu : ∀ p ∈ ps ++ [q], Utf8Lits p) (a : Parser)
    (rest : List Token) (hq : q.pattern = .parser a :: rest)
    (hnew : ∀ p ∈ ps, ∀ b, p.pattern.head? = some (.parser b) → b.hashOs sip ≠ a.hashOs sip)
    (t t' : SuffixTree) (hb : SuffixTree.build sip ps = .ok t) (hb' : SuffixTree.build sip (ps ++ [q]) = .ok t') (text : Bytes) (hx : Utf8 text)
    (res : MatchResult) (r' : Option MatchResult) (hr : t.parse text = .ok (some res)) (hr' : t'.parse text = .ok r') : r' = some res := by
  obtain ⟨t0, h0, h1⟩ := build_snoc hb'
  rw [hb] at h0; simp at h0; subst h0
  have hi := build_inv (fun p hp => hu p (by simp [hp])) hb
  have hi' := build_inv hu hb'
  have hpar : ∀ m ∈ t.parserChildren, ∃ p ∈ ps, p.pattern.head? = some (.parser m.parser) := by
    have := build_induct (sip := sip) (fun ps t => ∀ m ∈ t.parserChildren, ∃ p ∈ ps, p.pattern.head? = some (.parser m.parser))
      (by simp [SuffixTree.new])
      (fun ps t p t' hs hi hl ih m hm => by
        rcases step_parsers hs hm with ⟨n, hn, he⟩ | he
        · obtain ⟨p', hp', e⟩ := ih n hn
          exact ⟨p', by simp [hp'], by rw [← he]; exact e⟩
        · exact ⟨p, by simp, he⟩)
      (fun p hp => hu p (by simp [hp])) hb
    exact this.2
  rw [insert_par sip t q a rest hq, insertParser_run] at h1
  simp at h1; subst h1
  refine parse_more_parsers hi hi' hx rfl (ns := [updPar rest q.strip (ParserNode.new a)]) ?_ hr hr'
  apply insPar_append
  intro n hn
  obtain ⟨p, hp, e⟩ := hpar n hn
  exact hnew p hp _ e

/-- C17, second part that holds: adding a pattern whose leading literal starts with another byte than the text does not change the answer. -/
theorem C17_other_first_byte_partial (sip : Bytes → UInt64) (ps : List Pattern) (q : Pattern) (hu : ∀ p ∈ ps ++ [q], Utf8Lits p) (l : Bytes)
    (rest : List Token) (hq : q.pattern = .literal l :: rest) (text : Bytes) (hx : Utf8 text) (hfirst : text.head? ≠ l.head?)
    (t t' : SuffixTree) (hb : SuffixTree.build sip ps = .ok t) (hb' : SuffixTree.build sip (ps ++ [q]) = .ok t')
    (r r' : Option MatchResult) (hr : t.parse text = .ok r) (hr' : t'.parse text = .ok r') : r' = r := by
  obtain ⟨t0, h0, h1⟩ := build_snoc hb'
  rw [hb] at h0; simp at h0; subst h0
  have hi := build_inv (fun p hp => hu p (by simp [hp])) hb
  obtain ⟨hs, hi'⟩ := step_of_insert hi (hu q (by simp)) h1
  have hrk : rk text ≠ rk l := by
    intro h
    apply hfirst
    cases text <;> cases l <;> simp [rk] at h ⊢
    exact UInt8.toNat_inj.mp h
  cases hs with
  | empty he => rw [hq] at he; simp at he
  | par a rest' he => rw [hq] at he; simp at he
  | lit l' rest' he t' h =>
    rw [hq] at he; simp at he
    obtain ⟨rfl, rfl⟩ := he
    exact parse_congr hi hi' hx (ins_hit_other (goodUpd_updLit _ _) h hi hrk) (ins_parsers h) hr hr'

/-- C17, third part that holds: a text that is answered by a literal pattern keeps being answered by it while patterns are added that do not concern
the literal (see C21). -/
theorem C17_literal_kept_partial (sip : Bytes → UInt64) (ps qs : List Pattern) (hu : ∀ p ∈ ps ++ qs, AsciiLits p)
    (p : Pattern) (L : Bytes) (hp : p.pattern = [.literal L]) (before after : List Pattern) (hps : ps = before ++ p :: after)
    (hafter : ∀ q ∈ after ++ qs, Harmless L q) :
    (SuffixTree.build sip (ps ++ qs) >>= fun t => t.parse L) = .ok (some { pattern := { p with pattern := [] }, values := [] }) := by
  subst hps
  rw [show before ++ p :: after ++ qs = before ++ p :: (after ++ qs) by simp] at hu ⊢
  exact C21_literal_precedence_ascii sip before (after ++ qs) p L hp hu hafter

/-- A result is determined by the pattern and its captures. -/
theorem isResult_unique {r r' : MatchResult} {p : Pattern} {caps} (h : IsResult r p caps) (h' : IsResult r' p caps) : r = r' := by
  have h1 : r.values = r'.values := orderedMap_ext h.2.1 h'.2.1 fun k => by
    rw [(hasCaptures_iff.mp h.2).2, (hasCaptures_iff.mp h'.2).2]
  have h2 : r.pattern = r'.pattern := h.1.trans h'.1.symm
  cases r; cases r'; simp at h1 h2; rw [h1, h2]

/-- C20 is false: the two orders of `app%{INT:a}x` and `app%{INT:a}y` differ on `app5x`. -/
theorem C20_refuted : ∃ (ps qs : List Pattern) (text : Bytes), ps.Perm qs ∧ (∀ p ∈ ps, AsciiLits p) ∧ Ascii text ∧
    (SuffixTree.build Samples.sip ps >>= fun t => t.parse text) ≠ (SuffixTree.build Samples.sip qs >>= fun t => t.parse text) := by
  refine ⟨[Samples.pat 1 [.literal b!"app", .parser (Samples.int b!"a"), .literal b!"x"],
    Samples.pat 2 [.literal b!"app", .parser (Samples.int b!"a"), .literal b!"y"]],
    [Samples.pat 2 [.literal b!"app", .parser (Samples.int b!"a"), .literal b!"y"],
    Samples.pat 1 [.literal b!"app", .parser (Samples.int b!"a"), .literal b!"x"]], b!"app5x", ?_, ?_, by decide, by decide +kernel⟩
  · exact List.Perm.swap _ _ _
  · intro p hp l hl
    simp at hp
    rcases hp with rfl | rfl <;> simp [Samples.pat] at hl <;> rcases hl with rfl | rfl <;> decide

theorem incomparable_perm {ps qs : List Pattern} (h : ps.Perm qs) (hi : Incomparable ps) : Incomparable qs := by
  refine ⟨fun p hp => hi.1 p (h.mem_iff.mpr hp), ?_⟩
  refine (h.pairwise_iff ?_).mp hi.2
  intro p q hpq l rest l' rest' e e'
  have := hpq l' rest' l rest e' e
  exact ⟨this.2, this.1⟩

/-- C20, first part that holds: for families with incomparable leading literals the insertion order does not matter. -/
theorem C20_incomparable_partial (sip : Bytes → UInt64) (ps qs : List Pattern) (hperm : ps.Perm qs) (hu : ∀ p ∈ ps, AsciiLits p)
    (hl : ∀ p ∈ ps, NonemptyLits p) (hinc : Incomparable ps) (text : Bytes) (hx : Ascii text) :
    (SuffixTree.build sip ps >>= fun t => t.parse text) = (SuffixTree.build sip qs >>= fun t => t.parse text) := by
  obtain ⟨r, h1, h2, h3⟩ := C19_incomparable_ascii sip ps hu hl hinc text hx
  obtain ⟨r', h1', h2', h3'⟩ := C19_incomparable_ascii sip qs (fun p hp => hu p (hperm.mem_iff.mpr hp)) (fun p hp => hl p (hperm.mem_iff.mpr hp))
    (incomparable_perm hperm hinc) text hx
  rw [h1, h1']
  cases r with
  | some res =>
    obtain ⟨p, hp, caps, hm, hres⟩ := h3 res rfl
    obtain ⟨res', rfl, hres'⟩ := h2' p (hperm.mem_iff.mp hp) caps hm
    rw [isResult_unique hres hres']
  | none =>
    cases r' with
    | none => rfl
    | some res' =>
      obtain ⟨p, hp, caps, hm, _⟩ := h3' res' rfl
      obtain ⟨res, h, _⟩ := h2 p (hperm.mem_iff.mpr hp) caps hm
      simp at h

theorem lastFor_distinct {ps : List Pattern} (hd : ps.Pairwise fun p q => p.pattern ≠ q.pattern) {text : Bytes} {p : Pattern} :
    lastFor ps text = some p ↔ p ∈ ps ∧ p.pattern = [.literal text] := by
  unfold lastFor
  rw [List.find?_eq_some_iff_append]
  constructor
  · rintro ⟨h1, as, bs, h2, _⟩
    refine ⟨?_, by simpa using h1⟩
    rw [← List.mem_reverse, h2]; simp
  · rintro ⟨h1, h2⟩
    refine ⟨by simpa using h2, ?_⟩
    obtain ⟨A, B, rfl⟩ := List.append_of_mem h1
    refine ⟨B.reverse, A.reverse, by simp, ?_⟩
    intro q hq
    simp at hq
    rw [List.pairwise_append, List.pairwise_cons] at hd
    have := hd.2.1.1 q hq
    rw [h2] at this
    simpa using Ne.symm this

/-- C20, second part that holds: for literal patterns with different literals the insertion order does not matter. -/
theorem C20_literals_partial (sip : Bytes → UInt64) (ps qs : List Pattern) (hperm : ps.Perm qs) (hu : ∀ p ∈ ps, AsciiLits p)
    (hl : ∀ p ∈ ps, ∃ l, p.pattern = [.literal l]) (hd : ps.Pairwise fun p q => p.pattern ≠ q.pattern) (text : Bytes) (hx : Ascii text) :
    (SuffixTree.build sip ps >>= fun t => t.parse text) = (SuffixTree.build sip qs >>= fun t => t.parse text) := by
  rw [C16_literal_map_ascii sip ps hu hl text hx, C16_literal_map_ascii sip qs (fun p hp => hu p (hperm.mem_iff.mpr hp))
    (fun p hp => hl p (hperm.mem_iff.mpr hp)) text hx]
  have hd' : qs.Pairwise fun p q => p.pattern ≠ q.pattern := (hperm.pairwise_iff fun {x y} h => Ne.symm h).mp hd
  have : lastFor ps text = lastFor qs text := by
    cases h : lastFor ps text with
    | some p =>
      rw [lastFor_distinct hd] at h
      exact ((lastFor_distinct hd').mpr ⟨hperm.mem_iff.mp h.1, h.2⟩).symm
    | none =>
      cases h' : lastFor qs text with
      | none => rfl
      | some p =>
        rw [lastFor_distinct hd'] at h'
        have := (lastFor_distinct hd).mpr ⟨hperm.mem_iff.mpr h'.1, h'.2⟩
        rw [h] at this; simp at this
  rw [this]

/-! ### C23, C24, C50 -/

theorem new_lookup (x : Bytes) : SuffixTree.new.lookupLiteral x = .ok (.err SuffixTree.new x.length) := by
  have e1 : SuffixTree.new.search x = .ok .notFound := by
    unfold SuffixTree.search
    rw [show SuffixTree.new.literalChildren = [] from rfl, bsearch_nil]
    rfl
  unfold SuffixTree.lookupLiteral
  rw [e1]

/-- C23: an empty matcher matches no text. -/
theorem C23_new_matches_nothing (text : Bytes) (hx : Utf8 text) : SuffixTree.new.parse text = .ok none := by
  rw [parse_walk_of_lookup inv_new hx (new_lookup text), walk_none rfl]
  simp only
  rw [show SuffixTree.new.parserChildren = [] from rfl, parseWithParsers]

/-- C23: adding a pattern without tokens changes nothing. -/
theorem C23_empty_pattern (sip : Bytes → UInt64) (t : SuffixTree) (p : Pattern) (hp : p.pattern = []) : t.addPattern sip p = .ok t :=
  insert_empty sip t p hp

/-- C24: adding `q` after a pattern `p` with the same tokens gives the trie that adding `q` alone gives (all ASCII histories). -/
theorem C24_readd_replaces (sip : Bytes → UInt64) (ps : List Pattern) (p q : Pattern) (hu : ∀ x ∈ ps ++ [p], AsciiLits x)
    (hpq : p.pattern = q.pattern) : SuffixTree.build sip (ps ++ [p, q]) = SuffixTree.build sip (ps ++ [q]) := by
  obtain ⟨t, h1, h2⟩ := build_ascii sip ps (fun x hx => hu x (by simp [hx]))
  obtain ⟨t1, h3, _⟩ := insert_step_ascii sip h2 p (hu p (by simp))
  have h4 := insert_twice sip h2 hpq (hu p (by simp)) h3
  rw [build_append, build_append, h1]
  simp only [bind, Except.bind, List.foldlM_cons, List.foldlM_nil, SuffixTree.addPattern, h3, h4]

/-- C24 is not vacuous: the second pattern really replaces the first. -/
example : (SuffixTree.build Samples.sip [Samples.pat 1 [.literal b!"a", .parser (Samples.int b!"i")], Samples.pat 2 [.literal b!"a", .parser (Samples.int b!"i")]]
    >>= fun t => t.parse b!"a7") = .ok (some { pattern := Samples.pat 2 [], values := [(b!"i", b!"7")] }) := by decide +kernel

theorem boxedClone_id (a : Parser) : a.boxedClone = a := by cases a <;> rfl

theorem token_clone_id (t : Token) : t.clone = t := by
  cases t with
  | parser a => simp [Token.clone, boxedClone_id]
  | literal l => rfl

theorem pattern_clone_id (p : Pattern) : p.clone = p := by
  have : p.pattern.map Token.clone = p.pattern := by
    rw [show Token.clone = id from funext token_clone_id]; simp
  simp [Pattern.clone, this]

theorem optPattern_clone_id (p : Option Pattern) : p.map Pattern.clone = p := by
  cases p <;> simp [pattern_clone_id]

mutual
theorem suffixTree_clone_id : (t : SuffixTree) → t.clone = t
  | ⟨ls, ps⟩ => by rw [SuffixTree.clone, cloneLits_id ls, clonePars_id ps]
theorem cloneLits_id : (ls : List LiteralNode) → cloneLits ls = ls
  | [] => by rw [cloneLits]
  | n :: ls => by rw [cloneLits, literalNode_clone_id n, cloneLits_id ls]
theorem clonePars_id : (ls : List ParserNode) → clonePars ls = ls
  | [] => by rw [clonePars]
  | n :: ls => by rw [clonePars, parserNode_clone_id n, clonePars_id ls]
theorem literalNode_clone_id : (n : LiteralNode) → n.clone = n
  | ⟨l, v, p, n⟩ => by rw [LiteralNode.clone, optPattern_clone_id, cloneOpt_id n]
theorem parserNode_clone_id : (n : ParserNode) → n.clone = n
  | ⟨a, p, n⟩ => by rw [ParserNode.clone, boxedClone_id, optPattern_clone_id, cloneOpt_id n]
theorem cloneOpt_id : (n : Option SuffixTree) → cloneOpt n = n
  | none => by rw [cloneOpt]
  | some t => by rw [cloneOpt, suffixTree_clone_id t]
end

/-- C50: a clone answers every text like the original, also after any additions made to both.  (That additions to one of the two do
not show in the other is not a theorem here: values of the model are immutable, and the Rust types own their data.) -/
theorem C50_clone (sip : Bytes → UInt64) (t : SuffixTree) :
    (∀ text, t.clone.parse text = t.parse text) ∧
    (∀ ps : List Pattern, ps.foldlM (fun t p => t.addPattern sip p) t.clone = ps.foldlM (fun t p => t.addPattern sip p) t) := by
  rw [suffixTree_clone_id]; exact ⟨fun _ => rfl, fun _ => rfl⟩

end Verif
