import Verif.Spec.Looser
import Verif.Props.C125_ActAlike
/-! C131: looser length limits. -/
namespace Verif
open Spec

namespace Loose

theorem looser_match {a b : Parser} (h : Looser a b) {x v : Bytes} (hm : ParserMatch a x v) : ParserMatch b x v := by
  cases h with
  | runs _ _ p q ha hb hc hl =>
    rw [takesRuns_match ha, setMatch_iff, runLength_iff] at hm
    rw [takesRuns_match hb, setMatch_iff, runLength_iff, ← calc_congr hc]
    exact ⟨hl _ hm.1, hm.2⟩
  | greedy => exact hm

variable {φ : Parser → Parser} {g : Pattern → Pattern}

theorem rewrites (h : Loosens φ g) : Rewrites φ g := ⟨h.tokens⟩

theorem loosen_strict (h : Loosens φ g) {toks : List Token} {x : Bytes} {caps : List (Parser × Bytes)} (hm : MatchesStrict toks x caps) :
    MatchesStrict (toks.map (replaceToken φ)) x (replaceCaps φ caps) := by
  induction hm with
  | nil => exact .nil
  | literal l toks x caps h1 _ ih => exact .literal l _ x _ (by simpa using h1) ih
  | parser a toks v x caps h1 _ ih => exact .parser _ _ v x _ (looser_match (h.looser a) h1) ih

theorem loosen_loose (h : Loosens φ g) {toks : List Token} {x : Bytes} {caps : List (Parser × Bytes)} (hm : LooseMatches toks x caps) :
    LooseMatches (toks.map (replaceToken φ)) x (replaceCaps φ caps) := by
  induction hm with
  | nil => exact .nil
  | last l x h => exact .last l x h
  | literal l c y toks caps h1 h2 h3 _ ih => exact .literal l c y _ _ (by simpa using h1) h2 h3 ih
  | parser a toks v x caps h1 _ ih => exact .parser _ _ v x _ (looser_match (h.looser a) h1) ih

theorem capture_same (h : Loosens φ g) (caps : List (Parser × Bytes)) (k : Bytes) : capture (replaceCaps φ caps) k = capture caps k := by
  unfold capture replaceCaps
  rw [List.find?_map]
  have : ((fun c : Parser × Bytes => decide (nameOf c.1 = some k)) ∘ fun c : Parser × Bytes => (φ c.1, c.2)) =
      fun c : Parser × Bytes => decide (nameOf c.1 = some k) := by
    funext c
    simp only [Function.comp, h.name]
  rw [this]
  cases caps.find? fun c => decide (nameOf c.1 = some k) <;> rfl

theorem values_same (h : Loosens φ g) {p : Pattern} {caps : List (Parser × Bytes)} {m m' : MatchResult} (hm : IsResult m p caps)
    (hm' : IsResult m' (g p) (replaceCaps φ caps)) : m'.values = m.values := by
  have h4 : IsResult { pattern := { g p with pattern := [] }, values := m.values } (g p) (replaceCaps φ caps) := by
    refine ⟨rfl, hm.2.1, ?_⟩
    intro k v
    rw [capture_same h]
    exact hm.2.2 k v
  rw [isResult_unique hm' h4]

/-- The answer of the first pattern that matches, for both notions of matching. -/
def FirstBy (M : List Token → Bytes → List (Parser × Bytes) → Prop) (ps : List Pattern) (x : Bytes) (r : Option MatchResult) : Prop :=
  (∀ A p B caps, ps = A ++ p :: B → (∀ a ∈ A, ¬∃ caps, M a.pattern x caps) → M p.pattern x caps → ∃ res, r = some res ∧ IsResult res p caps) ∧
  ((∀ p ∈ ps, ¬∃ caps, M p.pattern x caps) → r = none)

theorem firstBy_cases (M : List Token → Bytes → List (Parser × Bytes) → Prop) (ps : List Pattern) (x : Bytes) :
    (∀ p ∈ ps, ¬∃ caps, M p.pattern x caps) ∨
    ∃ A p B caps, ps = A ++ p :: B ∧ (∀ a ∈ A, ¬∃ caps, M a.pattern x caps) ∧ M p.pattern x caps := by
  induction ps with
  | nil => simp
  | cons q ps ih =>
    by_cases hq : ∃ caps, M q.pattern x caps
    · obtain ⟨caps, h⟩ := hq
      exact .inr ⟨[], q, ps, caps, rfl, by simp, h⟩
    · rcases ih with h | ⟨A, p, B, caps, h1, h2, h3⟩
      · refine .inl fun p hp => ?_
        rcases List.mem_cons.mp hp with rfl | hp
        · exact hq
        · exact h p hp
      · refine .inr ⟨q :: A, p, B, caps, by rw [h1]; rfl, fun a ha => ?_, h3⟩
        rcases List.mem_cons.mp ha with rfl | ha
        · exact hq
        · exact h2 a ha

/-- What the loosened patterns match. -/
structure Carries (M : List Token → Bytes → List (Parser × Bytes) → Prop) (φ : Parser → Parser) : Prop where
  over : ∀ toks x caps, M toks x caps → M (toks.map (replaceToken φ)) x (replaceCaps φ caps)
  unique : ∀ toks x c c', M toks x c → M toks x c' → c = c'

theorem strict_carries (h : Loosens φ g) : Carries MatchesStrict φ :=
  ⟨fun _ _ _ => loosen_strict h, fun _ _ _ _ h1 h2 => matches_unique (matchesStrict_matches h1) (matchesStrict_matches h2)⟩

theorem loose_carries (h : Loosens φ g) : Carries LooseMatches φ := ⟨fun _ _ _ => loosen_loose h, fun _ _ _ _ => looseMatches_unique⟩

variable {M : List Token → Bytes → List (Parser × Bytes) → Prop}

/-- One pattern is asked. -/
theorem first_single (h : Loosens φ g) (hM : Carries M φ) {ps : List Pattern} {p : Pattern} (hp : p ∈ ps) {x : Bytes} {m : MatchResult}
    {r' : Option MatchResult} (h1 : FirstBy M [p] x (some m)) (h2 : FirstBy M [g p] x r') :
    ∃ m', r' = some m' ∧ KeptOrOvertaken M g ps x m m' := by
  rcases firstBy_cases M [p] x with hn | ⟨A, q, B, caps, e, hA, hq⟩
  · exact absurd (h1.2 hn) (by simp)
  · obtain ⟨m0, e0, hm⟩ := h1.1 A q B caps e hA hq
    simp at e0; subst e0
    have : A = [] ∧ q = p ∧ B = [] := by
      cases A with
      | nil => simp at e; exact ⟨rfl, e.1.symm, e.2⟩
      | cons a A => simp at e
    obtain ⟨rfl, rfl, rfl⟩ := this
    obtain ⟨m', rfl, hm'⟩ := h2.1 [] (g q) [] (replaceCaps φ caps) rfl (by simp) (by rw [h.tokens q]; exact hM.over _ _ _ hq)
    exact ⟨m', rfl, q, hp, hm.1, .inl ⟨hm'.1, values_same h hm hm'⟩⟩

/-- Several patterns that begin with parsers are asked. -/
theorem first_several (h : Loosens φ g) (hM : Carries M φ) {ps qs : List Pattern} (hs : ∀ p ∈ qs, p ∈ ps)
    (hl : ∀ p ∈ qs, ∃ a, p.pattern.head? = some (.parser a)) {x : Bytes} {m : MatchResult} {r' : Option MatchResult} (h1 : FirstBy M qs x (some m))
    (h2 : FirstBy M (qs.map g) x r') : ∃ m', r' = some m' ∧ KeptOrOvertaken M g ps x m m' := by
  rcases firstBy_cases M qs x with hn | ⟨A, p, B, caps, e, hA, hp⟩
  · exact absurd (h1.2 hn) (by simp)
  · obtain ⟨m0, e0, hm⟩ := h1.1 A p B caps e hA hp
    simp at e0; subst e0
    have h5 : M (g p).pattern x (replaceCaps φ caps) := by rw [h.tokens p]; exact hM.over _ _ _ hp
    rcases firstBy_cases M (qs.map g) x with hn | ⟨A', q', B', caps', e', hA', hq'⟩
    · exact absurd ⟨_, h5⟩ (hn (g p) (List.mem_map.mpr ⟨p, by simp [e], rfl⟩))
    · obtain ⟨m', rfl, hm'⟩ := h2.1 A' q' B' caps' e' hA' hq'
      refine ⟨m', rfl, p, hs p (by simp [e]), hm.1, ?_⟩
      obtain ⟨A0, B0, e1, rfl, h4⟩ := List.map_eq_append_iff.mp e'
      obtain ⟨q, B1, rfl, rfl, rfl⟩ := List.map_eq_cons_iff.mp h4
      rw [e] at e1
      have same : q = p → (m'.pattern = { g p with pattern := [] } ∧ m'.values = m.values) := by
        rintro rfl
        exact ⟨hm'.1, values_same h hm (hM.unique _ _ _ _ hq' h5 ▸ hm')⟩
      rcases List.append_eq_append_iff.mp e1 with ⟨C, rfl, e2⟩ | ⟨C, rfl, e2⟩
      · cases C with
        | nil => simp at e2; exact .inl (same e2.1.symm)
        | cons c C =>
          simp at e2
          obtain ⟨rfl, -⟩ := e2
          exact absurd ⟨_, h5⟩ (hA' (g p) (by simp))
      · cases C with
        | nil => simp at e2; exact .inl (same e2.1)
        | cons c C =>
          simp at e2
          obtain ⟨rfl, -⟩ := e2
          have hq : q ∈ qs := by simp [e]
          exact .inr ⟨hl p (by simp [e]), q, hs q hq, hl q hq, hA q (by simp), caps', hq', hm'⟩

theorem parserLed_head (ps : List Pattern) : ∀ p ∈ (Table.of ps).parserLed, ∃ a, p.pattern.head? = some (.parser a) := by
  refine snoc_induction (P := fun ps => ∀ p ∈ (Table.of ps).parserLed, ∃ a, p.pattern.head? = some (.parser a)) ?_ ?_ ps
  · rintro p ⟨⟩
  · intro ps q ih p hp
    rw [table_snoc] at hp
    unfold Table.add at hp
    split at hp
    · exact ih p hp
    · exact ih p hp
    · rename_i a rest e
      rcases addParserLed_mem hp with h | rfl
      · exact ih p h
      · exact ⟨a, by rw [e]; rfl⟩

theorem answer_loosen (h : Loosens φ g) (ps : List Pattern) {x : Bytes} {m : MatchResult} {r' : Option MatchResult}
    (h1 : (Table.of ps).Answer x (some m)) (h2 : (replaceTable g (Table.of ps)).Answer x r') :
    ∃ m', r' = some m' ∧ KeptOrOvertaken MatchesStrict g ps x m m' := by
  by_cases hrow : ∃ row ∈ (Table.of ps).rows, row.text = x
  · obtain ⟨row, g1, g2⟩ := hrow
    have e1 := h1.1 row g1 g2
    have e2 := h2.1 (replaceRow g row) (List.mem_map.mpr ⟨row, g1, rfl⟩) g2
    cases hw : row.whole with
    | none => rw [hw] at e1; simp at e1
    | some p =>
      rw [hw] at e1
      simp at e1
      simp [replaceRow, hw] at e2
      exact ⟨_, e2, p, (table_whole ps row g1 p hw).1, by rw [e1], .inl ⟨rfl, by rw [e1]⟩⟩
  · have hno : ∀ row ∈ (Table.of ps).rows, row.text ≠ x := fun row g1 g2 => hrow ⟨row, g1, g2⟩
    obtain ⟨b, d, p1, p2, p3⟩ := h1.2 hno
    obtain ⟨b', d', q1, q2, q3⟩ := h2.2 (by
      intro row hr
      obtain ⟨row0, hr0, rfl⟩ := List.mem_map.mp hr
      exact hno row0 hr0)
    have := deepest_unique d ((deepest_replace _ x b').mp d')
    subst this
    by_cases hb : b = []
    · exact first_several h (strict_carries h) (table_parserLed ps) (parserLed_head ps) (p1 hb) (q1 hb)
    · by_cases hm : ∃ row ∈ (Table.of ps).rows, row.text = b ∧ row.more ≠ none
      · obtain ⟨row, g1, g2, g3⟩ := hm
        cases hp : row.more with
        | none => exact absurd hp g3
        | some p =>
          exact first_single h (strict_carries h) (table_mem ps row g1 p hp) (p2 hb row g1 g2 p hp)
            (q2 hb (replaceRow g row) (List.mem_map.mpr ⟨row, g1, rfl⟩) g2 (g p) (by simp [replaceRow, hp]))
      · have hn : ∀ row ∈ (Table.of ps).rows, row.text = b → row.more = none := by
          intro row g1 g2
          cases hp : row.more with
          | none => rfl
          | some p => exact absurd ⟨row, g1, g2, by simp [hp]⟩ hm
        exact absurd (p3 hb hn) (by simp)

theorem suffixAnswer_loosen (h : Loosens φ g) (ps : List Pattern) (hu : ∀ p ∈ ps, Utf8Lits p) (hk : KeepsApart φ ps) {x : Bytes} (hx : Utf8 x)
    {m : MatchResult} {r' : Option MatchResult} (h1 : SuffixAnswer ps x (some m)) (h2 : SuffixAnswer (ps.map g) x r') :
    ∃ m', r' = some m' ∧ KeptOrOvertaken LooseMatches g ps x m m' := by
  have hg := rewrites h
  by_cases hl : ∃ l, Leads ps l
  · obtain ⟨l, hc, _⟩ := C73_chosen ps hu x hx hl
    have hc' : Chosen (ps.map g) x l := (chosen_congr (leads_replace hg ps)).mpr hc
    obtain ⟨a1, a2⟩ := h1.2 l hc
    obtain ⟨b1, b2⟩ := h2.2 l hc'
    by_cases hp : x <+: l
    · obtain ⟨a3, a4⟩ := a1 hp
      obtain ⟨b3, b4⟩ := b1 hp
      rcases lastWith_or (ps := ps) (· = [.literal l]) with ⟨p, hw⟩ | hn
      · have e1 := a3 p hw
        have e2 := b3 (g p) (lastWith_replace hg (replace_alone l) hw)
        obtain ⟨A, B, e, _, _⟩ := hw
        simp at e1
        exact ⟨_, e2, p, by rw [e]; simp, by rw [e1], .inl ⟨rfl, by rw [e1]⟩⟩
      · exact absurd (a4 hn) (by simp)
    · obtain ⟨a3, a4⟩ := a2 hp
      obtain ⟨b3, b4⟩ := b2 hp
      rcases lastWith_or (ps := ps) (fun toks => ∃ rest, rest ≠ [] ∧ toks = .literal l :: rest) with ⟨p, hw⟩ | hn
      · have hmem : p ∈ ps := by obtain ⟨A, B, e, _, _⟩ := hw; rw [e]; simp
        exact first_single h (loose_carries h) hmem (a3 p hw) (b3 (g p) (lastWith_replace hg (replace_goesOn l) hw))
      · exact absurd (a4 (fun p hp rest h0 h1 => hn p hp ⟨rest, h0, h1⟩)) (by simp)
  · have hn : ∀ l, ¬ Leads ps l := fun l h => hl ⟨l, h⟩
    have g1 := h1.1 hn
    have g2 := h2.1 (fun l => by rw [leads_replace hg]; exact hn l)
    rw [table_replace hg ps hk] at g2
    exact first_several h (loose_carries h) (table_parserLed ps) (parserLed_head ps) g1 g2

end Loose

/-- C131: if the length limits of parsers are loosened in the patterns of a trie (different parsers with which patterns begin stay different), every answered
text is still answered (unless the matcher now panics, see C66): by the same pattern with the same values; only if this pattern begins with a parser, the
answer may also be that of another such pattern, which did not match before. -/
theorem C131_trie (sip : Bytes → UInt64) (ps : List Pattern) (h : Proper sip ps) (φ : Parser → Parser) (g : Pattern → Pattern) (hg : Loosens φ g)
    (hk : KeepsApart φ ps) (hcol : NoCollision sip (ps.map g)) (text : Bytes) (hx : Utf8 text) (m : MatchResult)
    (hm : (SuffixTree.build sip ps >>= fun t => t.parse text) = .ok (some m)) (r : Option MatchResult)
    (hr : (SuffixTree.build sip (ps.map g) >>= fun t => t.parse text) = .ok r) :
    ∃ m', r = some m' ∧ KeptOrOvertaken MatchesStrict g ps text m m' := by
  have h' := proper_replace (Loose.rewrites hg) h hcol
  cases hb : SuffixTree.build sip ps with
  | error e => rw [hb] at hm; simp [bind, Except.bind] at hm
  | ok t =>
    cases hb' : SuffixTree.build sip (ps.map g) with
    | error e => rw [hb'] at hr; simp [bind, Except.bind] at hr
    | ok t' =>
      rw [hb] at hm
      rw [hb'] at hr
      have a1 := C65_table sip ps h.utf8 h.nonempty h.split h.hashes t hb text hx _ hm
      have a2 := C65_table sip _ h'.utf8 h'.nonempty h'.split h'.hashes t' hb' text hx _ hr
      rw [table_replace (Loose.rewrites hg) ps hk] at a2
      exact Loose.answer_loosen hg ps a1 a2

/-- C131 for ASCII literals and messages, where nothing panics: every answered message is still answered. -/
theorem C131_ascii (sip : Bytes → UInt64) (ps : List Pattern) (h : Proper sip ps) (hl : ∀ p ∈ ps, AsciiLits p) (φ : Parser → Parser)
    (g : Pattern → Pattern) (hg : Loosens φ g) (hk : KeepsApart φ ps) (hcol : NoCollision sip (ps.map g)) (text : Bytes) (hx : Ascii text)
    (m : MatchResult) (hm : (SuffixTree.build sip ps >>= fun t => t.parse text) = .ok (some m)) :
    ∃ m', (SuffixTree.build sip (ps.map g) >>= fun t => t.parse text) = .ok (some m') ∧ KeptOrOvertaken MatchesStrict g ps text m m' := by
  obtain ⟨t, hb, -, hp⟩ := C13_ascii_never_panics sip (ps.map g) (by
    intro q hq l hl'
    obtain ⟨p, hp, rfl⟩ := List.mem_map.mp hq
    exact hl p hp l ((replace_literal_mem (Loose.rewrites hg) p l).mp hl'))
  obtain ⟨r, hr⟩ := hp text hx
  have hr' : (SuffixTree.build sip (ps.map g) >>= fun t => t.parse text) = .ok r := by rw [hb]; exact hr
  obtain ⟨m', rfl, h2⟩ := C131_trie sip ps h φ g hg hk hcol text (ascii_utf8 hx) m hm r hr'
  exact ⟨m', hr', h2⟩

/-- C131 for the suffix array (where literals may be cut short). -/
theorem C131_suffix (sip : Bytes → UInt64) (ps : List Pattern) (hu : ∀ p ∈ ps, Utf8Lits p) (hcol : NoCollision sip ps) (φ : Parser → Parser)
    (g : Pattern → Pattern) (hg : Loosens φ g) (hk : KeepsApart φ ps) (hcol' : NoCollision sip (ps.map g)) (text : Bytes) (hx : Utf8 text)
    (m : MatchResult) (hm : (SuffixTable.build sip ps >>= fun t => t.parse text) = .ok (some m)) (r : Option MatchResult)
    (hr : (SuffixTable.build sip (ps.map g) >>= fun t => t.parse text) = .ok r) :
    ∃ m', r = some m' ∧ KeptOrOvertaken LooseMatches g ps text m m' := by
  have hu' : ∀ p ∈ ps.map g, Utf8Lits p := by
    intro q hq l hl
    obtain ⟨p, hp, rfl⟩ := List.mem_map.mp hq
    exact hu p hp l ((replace_literal_mem (Loose.rewrites hg) p l).mp hl)
  obtain ⟨t, hb, ha⟩ := C73_answer sip ps hu hcol
  obtain ⟨t', hb', ha'⟩ := C73_answer sip _ hu' hcol'
  rw [hb] at hm
  rw [hb'] at hr
  exact Loose.suffixAnswer_loosen hg ps hu hk hx (ha text hx _ hm) (ha' text hx _ hr)

/-- C131, for one pattern: the answer is the same. -/
theorem C131_one (sip : Bytes → UInt64) (p : Pattern) (h : Proper sip [p]) (φ : Parser → Parser) (g : Pattern → Pattern) (hg : Loosens φ g)
    (text : Bytes) (hx : Utf8 text) (m : MatchResult) (hm : (SuffixTree.build sip [p] >>= fun t => t.parse text) = .ok (some m))
    (r : Option MatchResult) (hr : (SuffixTree.build sip [g p] >>= fun t => t.parse text) = .ok r) :
    r = some { pattern := { g p with pattern := [] }, values := m.values } := by
  have hone : ∀ (p : Pattern) (a b : Parser), (∃ q ∈ [p], q.pattern.head? = some (.parser a)) → (∃ q ∈ [p], q.pattern.head? = some (.parser b)) → a = b := by
    rintro p a b ⟨q, hq, h1⟩ ⟨q', hq', h2⟩
    rw [List.mem_singleton.mp hq] at h1
    rw [List.mem_singleton.mp hq', h1] at h2
    simpa using h2
  obtain ⟨m', rfl, q, hq, h1, h2⟩ := C131_trie sip [p] h φ g hg (fun a b ha hb _ => hone p a b ha hb) (fun a b ha hb _ => hone (g p) a b ha hb) text hx m hm r hr
  rw [List.mem_singleton.mp hq] at h1 h2
  rcases h2 with ⟨h3, h4⟩ | ⟨-, q', hq', -, hn, -⟩
  · rw [← h3, ← h4]
  · rw [List.mem_singleton.mp hq'] at hn
    cases hb : SuffixTree.build sip [p] with
    | error e => rw [hb] at hm; simp [bind, Except.bind] at hm
    | ok t =>
      rw [hb] at hm
      by_cases hne : p.pattern = []
      · have a1 := C65_table sip [p] h.utf8 h.nonempty h.split h.hashes t hb text hx _ hm
        have e : Table.of [p] = ⟨[], []⟩ := by simp [Table.of, Table.add, hne]
        rw [e] at a1
        obtain ⟨b, hd, g1, g2, g3⟩ := a1.2 (by simp)
        by_cases hb : b = []
        · exact absurd ((g1 hb).2 (by simp)) (by simp)
        · exact absurd (g3 hb (by simp)) (by simp)
      · obtain ⟨-, h5⟩ := C18_single_pattern sip p hne (h.utf8 p (by simp)) (h.nonempty p (by simp)) t hb text hx _ hm
        obtain ⟨caps, h6, -⟩ := h5 m rfl
        exact absurd ⟨caps, h6⟩ hn

/-- C131, exactly: for ASCII sets, the second parser takes the same value as the first wherever the first takes one iff it is looser in the sense above (or the
first one never takes a value). -/
theorem C131_exactly {a b : Parser} {p q : SetParser} (ha : TakesRuns a p) (hb : TakesRuns b q) (hpa : Ascii p.characterSet) (hqa : Ascii q.characterSet) :
    (∀ text v, Utf8 text → a.parse text = .ok (some v) → b.parse text = .ok (some v)) ↔
    Looser a b ∨ p.characterSet = [] ∨ ∀ n, ¬ RunLength p n := by
  constructor
  · intro h
    rcases takes_or_never p with ⟨c0, n0, hc0, hn0⟩ | hp
    · refine .inl (.runs a b p q ha hb (fun c => ⟨fun hc => ?_, fun hc => ?_⟩) fun n hn => ?_)
      · have := h _ _ (ascii_utf8 (replicate_ascii (hpa c hc) n0)) ((runs_parse ha _).trans (replicate_parse (hpa c hc) hc hn0))
        rw [runs_parse hb] at this
        exact (replicate_parse_inv this).1
      · refine Classical.byContradiction fun hnc => ?_
        have hasc : Ascii (List.replicate n0 c0 ++ [c]) := by
          intro x hx
          rcases List.mem_append.mp hx with hx | hx
          · exact replicate_ascii (hpa c0 hc0) n0 x hx
          · rw [List.mem_singleton.mp hx]; exact hqa c hc
        have h1 : SetMatch p.characterSet p.minLength p.maxLength (List.replicate n0 c0 ++ [c]) (List.replicate n0 c0) := by
          refine ⟨List.prefix_append _ _, ?_, ?_, ?_, ?_, ?_⟩
          · intro e
            have := congrArg List.length e
            simp at this
            have := hn0.1
            omega
          · intro x hx; rw [List.eq_of_mem_replicate hx]; exact hc0
          · intro x r e
            have := List.append_cancel_left e
            simp at this
            rw [← this.1]; exact hnc
          · intro n hn; simpa using hn0.2.1 n hn
          · intro n hn; simpa using hn0.2.2 n hn
        have h2 := h _ (List.replicate n0 c0) (ascii_utf8 hasc) (by
          rw [runs_parse ha, setParse_some]
          exact ⟨h1, ascii_prefix_boundary (List.prefix_append _ _) (replicate_ascii (hpa c0 hc0) n0) (ascii_utf8 hasc)⟩)
        rw [runs_parse hb, setParse_some] at h2
        exact h2.1.maximal c [] rfl hc
      · have := h _ _ (ascii_utf8 (replicate_ascii (hpa c0 hc0) n)) ((runs_parse ha _).trans (replicate_parse (hpa c0 hc0) hc0 hn))
        rw [runs_parse hb] at this
        exact (replicate_parse_inv this).2
    · exact .inr hp
  · rintro (h | h) text v hx hv
    · rw [runs_parse ha, setParse_some] at hv
      rw [runs_parse hb, setParse_some]
      exact ⟨(takesRuns_match hb _ _).mp (Loose.looser_match h ((takesRuns_match ha _ _).mpr hv.1)), hv.2⟩
    · rw [runs_parse ha, never_parse h] at hv
      simp at hv

/-- All limits are given up. -/
def noLimits : Parser → Parser
  | .set p => .set { p with minLength := none, maxLength := none }
  | .int p => .int { p with minLength := none, maxLength := none }
  | a => a

def noLimitsPattern (p : Pattern) : Pattern := { p with pattern := p.pattern.map (replaceToken noLimits) }

theorem noLimits_loosens : Loosens noLimits noLimitsPattern := by
  have hr : ∀ (p : SetParser) n, RunLength p n → RunLength { p with minLength := none, maxLength := none } n := fun p n h => ⟨h.1, by simp, by simp⟩
  refine ⟨fun a => ?_, fun a => by cases a <;> rfl, fun _ => rfl⟩
  cases a with
  | set p => exact .runs _ _ p _ (.inl rfl) (.inl rfl) (fun _ => Iff.rfl) (hr p)
  | int p => exact .runs _ _ p _ (.inr rfl) (.inr rfl) (fun _ => Iff.rfl) (hr p)
  | greedy p => exact .greedy _ _ _

namespace Loose

/-- `%{INT(max_len=1):a}` and `%{SET("12"):b}`. -/
def digit : Parser := .int { intDelegate (some b!"a") with maxLength := some 1 }
def sample : List Pattern := [Samples.pat 1 [.parser digit], Samples.pat 2 [.parser (Samples.set b!"b" b!"12")]]

theorem sample_head {a : Parser} (h : ∃ p ∈ sample, p.pattern.head? = some (.parser a)) : a = digit ∨ a = Samples.set b!"b" b!"12" := by
  obtain ⟨p, hp, e⟩ := h
  simp [sample] at hp
  rcases hp with rfl | rfl <;> simp [Samples.pat] at e <;> simp [e]

theorem sample_head' {a : Parser} (h : ∃ p ∈ sample.map noLimitsPattern, p.pattern.head? = some (.parser a)) :
    a = noLimits digit ∨ a = noLimits (Samples.set b!"b" b!"12") := by
  obtain ⟨p, hp, e⟩ := h
  simp [sample] at hp
  rcases hp with rfl | rfl <;> simp [noLimitsPattern, replaceToken, Samples.pat] at e <;> simp [e]

theorem sample_proper : Proper Samples.sip sample := by
  refine ⟨?_, ?_, ?_, ?_⟩
  · intro p hp l hl
    simp [sample] at hp
    rcases hp with rfl | rfl <;> simp [Samples.pat] at hl
  · intro p hp l hl
    simp [sample] at hp
    rcases hp with rfl | rfl <;> simp [Samples.pat] at hl
  · intro p hp l rest e l'
    simp [sample] at hp
    rcases hp with rfl | rfl <;> simp [Samples.pat] at e
  · intro a b ha hb
    rcases sample_head ha with rfl | rfl <;> rcases sample_head hb with rfl | rfl <;> decide +kernel

theorem sample_apart : KeepsApart noLimits sample := by
  intro a b ha hb
  rcases sample_head ha with rfl | rfl <;> rcases sample_head hb with rfl | rfl <;> decide +kernel

theorem sample_hashes : NoCollision Samples.sip (sample.map noLimitsPattern) := by
  intro a b ha hb
  rcases sample_head' ha with rfl | rfl <;> rcases sample_head' hb with rfl | rfl <;> decide +kernel

end Loose

/-- C131, the answer can change: `12` is answered by `%{SET("12"):b}`, and once `%{INT(max_len=1):a}` has lost its limit, by this pattern. -/
theorem C131_overtaken : ∃ (ps : List Pattern) (φ : Parser → Parser) (g : Pattern → Pattern) (text : Bytes) (m m' : MatchResult), Proper Samples.sip ps ∧
    Loosens φ g ∧ KeepsApart φ ps ∧ NoCollision Samples.sip (ps.map g) ∧ (SuffixTree.build Samples.sip ps >>= fun t => t.parse text) = .ok (some m) ∧
    (SuffixTree.build Samples.sip (ps.map g) >>= fun t => t.parse text) = .ok (some m') ∧ m.pattern.uuid ≠ m'.pattern.uuid :=
  ⟨Loose.sample, noLimits, noLimitsPattern, b!"12", ⟨Samples.pat 2 [], [(b!"b", b!"12")]⟩, ⟨Samples.pat 1 [], [(b!"a", b!"12")]⟩, Loose.sample_proper,
    noLimits_loosens, Loose.sample_apart, Loose.sample_hashes, by decide +kernel, by decide +kernel, by decide +kernel⟩

/-- C131, for other messages the loosened patterns can panic: `12é` is answered by `%{GREEDY:b}`; once `%{INT(max_len=1):a}x` has lost its limit, `x` is compared
with `é`. -/
theorem C131_can_panic : ∃ (ps : List Pattern) (text : Bytes) (m : MatchResult), Utf8 text ∧ (∀ p ∈ ps, AsciiLits p) ∧
    (SuffixTree.build Samples.sip ps >>= fun t => t.parse text) = .ok (some m) ∧
    (SuffixTree.build Samples.sip (ps.map noLimitsPattern) >>= fun t => t.parse text) = .error .slice := by
  refine ⟨[Samples.pat 1 [.parser Loose.digit, .literal b!"x"], Samples.pat 2 [.parser (Samples.greedy b!"b" none)]], b!"12é",
    ⟨Samples.pat 2 [], [(b!"b", b!"12é")]⟩, ⟨['1', '2', 'é'], by decide +kernel⟩, ?_, by decide +kernel, by decide +kernel⟩
  intro p hp l hl
  simp at hp
  rcases hp with rfl | rfl <;> simp [Samples.pat] at hl
  subst hl
  intro c hc
  simp at hc
  subst hc
  decide

/-- C131, it is not so for the characters: with `%{SET("ab"):x}` instead of `%{SET("a"):x}`, the text `ab` is no longer matched by the pattern with `b` behind
it. -/
theorem C131_more_characters : ∃ (p q : Pattern) (text : Bytes) (m : MatchResult), p.pattern = [.parser (Samples.set b!"x" b!"a"), .literal b!"b"] ∧
    q.pattern = [.parser (Samples.set b!"x" b!"ab"), .literal b!"b"] ∧ (SuffixTree.build Samples.sip [p] >>= fun t => t.parse text) = .ok (some m) ∧
    (SuffixTree.build Samples.sip [q] >>= fun t => t.parse text) = .ok none :=
  ⟨Samples.pat 1 [.parser (Samples.set b!"x" b!"a"), .literal b!"b"], Samples.pat 1 [.parser (Samples.set b!"x" b!"ab"), .literal b!"b"], b!"ab",
    ⟨Samples.pat 1 [], [(b!"x", b!"a")]⟩, rfl, rfl, by decide +kernel, by decide +kernel⟩

end Verif
