import Verif.Proofs.SuffixReach
/-! What `parse` of the suffix-array matcher answers. -/
namespace Verif
open Spec

theorem lcp_iff {l x c : Bytes} (hl : Utf8 l) (hx : Utf8 x) : LongestCommonPrefix l x c ↔ c = x.take (commonPrefixLen l x) := by
  have hle := cpl_le l x
  have hb := (boundary_iff hx).mp (cpl_boundary_right hl hx)
  constructor
  · rintro ⟨h1, h2, h3, h4⟩
    have h5 := h4 (x.take (commonPrefixLen l x)) hb.2 (by rw [← cpl_take]; exact List.take_prefix _ _) (List.take_prefix _ _)
    have e2 := List.prefix_iff_eq_take.mp h2
    have e3 := List.prefix_iff_eq_take.mp h3
    have h6 : c.length ≤ commonPrefixLen l x := by
      refine cpl_max ?_ h3.length_le (e2.symm.trans e3)
      rw [boundary_iff hl]
      exact ⟨h2.length_le, by rw [← e2]; exact h1⟩
    rw [List.length_take] at h5
    rw [e3]; congr 1; omega
  · rintro rfl
    refine ⟨hb.2, by rw [← cpl_take]; exact List.take_prefix _ _, List.take_prefix _ _, ?_⟩
    intro c' h1 h2 h3
    have e2 := List.prefix_iff_eq_take.mp h2
    have e3 := List.prefix_iff_eq_take.mp h3
    have h6 : c'.length ≤ commonPrefixLen l x := by
      refine cpl_max ?_ h3.length_le (e2.symm.trans e3)
      rw [boundary_iff hl]
      exact ⟨h2.length_le, by rw [← e2]; exact h1⟩
    rw [List.length_take]; omega

/-- `parse` after a literal entry was selected. -/
theorem sparse_lit {t : SuffixTable} {x : Bytes} (hx : Utf8 x) {e : LiteralE} (he : Utf8 e.literal) (h : t.longestCommonPrefix x = .ok (some e)) :
    t.parse x = if commonPrefixLen e.literal x = x.length then .ok (e.pattern.map MatchResult.new) else
      match e.child with
      | none => .ok none
      | some c => c.parse (x.drop (commonPrefixLen e.literal x)) := by
  have hle := cpl_le e.literal x
  have ht : ltrunc x (commonPrefixLen e.literal x) = .ok (x.drop (commonPrefixLen e.literal x)) := by
    rw [ltrunc, sliceFrom_ok (cpl_boundary_right he hx)]
  rw [SuffixTable.parse]
  split
  · rename_i h2; rw [h] at h2; simp at h2
  · rename_i e' h2
    rw [h] at h2; simp at h2; subst h2
    simp only
    by_cases hk : commonPrefixLen e.literal x = x.length
    · rw [if_pos hk, if_pos hk]
    · rw [if_neg hk, if_neg hk, if_pos (by omega), ht]
      simp only
      split <;> rename_i hc <;> simp only [hc]
  · rename_i h2; rw [h] at h2; simp at h2

theorem sparse_nolit {t : SuffixTable} {x : Bytes} (h : t.longestCommonPrefix x = .ok none) : t.parse x = sparseWithParsers t.parserEntries x := by
  rw [SuffixTable.parse]
  split
  · rename_i h2; rw [h] at h2; simp at h2
  · rename_i h2; rw [h] at h2; simp at h2
  · rfl

theorem lcp_nil {t : SuffixTable} (h : t.literalEntries = []) (x : Bytes) : t.longestCommonPrefix x = .ok none := by
  unfold SuffixTable.longestCommonPrefix
  rw [h, sbsearch_nil]
  simp [bind, Except.bind, pure, Except.pure, SuffixTable.lcpAroundPos, h]

/-- A parser entry applied to a text without panicking. -/
theorem parserE_partial (m : ParserE) {x : Bytes} (hx : Utf8 x) {r : Option MatchResult} (h : m.parse x = .ok r) :
    (∃ v y, x = v ++ y ∧ Utf8 y ∧ ParserMatch m.parser x v ∧
      match m.child with
      | some c => ∃ r', c.parse y = .ok r' ∧ r = r'.map fun r => r.insert m.parser v
      | none => r = if y = [] then m.pattern.map (fun q => (MatchResult.new q).insert m.parser v) else none) ∨
    ((¬∃ v, ParserMatch m.parser x v) ∧ r = none) := by
  rw [ParserE.parse] at h
  split at h
  · simp at h
  · rename_i hp
    simp at h; subst h
    exact .inr ⟨(parse_none m.parser x).mp hp, rfl⟩
  · rename_i v hv
    left
    obtain ⟨hpm, hb⟩ := (parse_some m.parser x v).mp hv
    obtain ⟨y, rfl⟩ := parserMatch_prefix hpm
    have ht : ltrunc (v ++ y) v.length = .ok y := by rw [ltrunc, sliceFrom_ok hb]; simp
    have hy : Utf8 y := by simpa using (boundary_split hx hb).2
    rw [ht] at h
    refine ⟨v, y, rfl, hy, hpm, ?_⟩
    simp only at h
    split at h
    · rename_i d hd
      rw [hd]
      cases hr : d.parse y with
      | error e => rw [hr] at h; simp at h
      | ok r0 =>
        rw [hr] at h
        refine ⟨r0, hr, ?_⟩
        cases r0 <;> simp at h <;> rw [← h] <;> rfl
    · rename_i hd
      rw [hd]
      cases y with
      | nil =>
        simp only [List.isEmpty_nil, if_true, ParserE.createMatchResult] at h
        cases hq : m.pattern with
        | none => rw [hq] at h; simp at h; simp [← h]
        | some q => rw [hq] at h; simp at h; simp [← h]
      | cons b y =>
        simp at h
        simp [← h]

theorem sparseWithParsers_cons {m : ParserE} {ms : List ParserE} {x : Bytes} {r : Option MatchResult}
    (h : sparseWithParsers (m :: ms) x = .ok r) :
    ∃ r0, m.parse x = .ok r0 ∧ ((∃ res, r0 = some res ∧ r = some res) ∨ (r0 = none ∧ sparseWithParsers ms x = .ok r)) := by
  rw [sparseWithParsers] at h
  split at h
  · simp at h
  · rename_i res hres; simp at h; exact ⟨_, hres, .inl ⟨res, rfl, h.symm⟩⟩
  · rename_i hres; exact ⟨_, hres, .inr ⟨rfl, h⟩⟩

/-! ### one pattern -/

theorem loose_nil_inv {x : Bytes} {caps} (h : LooseMatches [] x caps) : x = [] ∧ caps = [] := by
  cases h; exact ⟨rfl, rfl⟩

theorem loose_lit_inv {l : Bytes} {rest : List Token} {x : Bytes} {caps} (h : LooseMatches (.literal l :: rest) x caps) :
    (rest = [] ∧ x <+: l ∧ caps = []) ∨
    (rest ≠ [] ∧ ∃ c y, x = c ++ y ∧ LongestCommonPrefix l x c ∧ y ≠ [] ∧ LooseMatches rest y caps) := by
  cases h with
  | last _ _ h => exact .inl ⟨rfl, h, rfl⟩
  | literal _ c y _ _ h1 h2 h3 h4 => exact .inr ⟨h1, c, y, rfl, h2, h3, h4⟩

theorem loose_par_inv {a : Parser} {rest : List Token} {x : Bytes} {caps} (h : LooseMatches (.parser a :: rest) x caps) :
    ∃ v y caps', x = v ++ y ∧ caps = (a, v) :: caps' ∧ ParserMatch a x v ∧ LooseMatches rest y caps' := by
  cases h with
  | parser _ _ v y caps' h1 h2 => exact ⟨v, y, caps', rfl, rfl, h1, h2⟩

/-- Whatever matches also matches loosely. -/
theorem strict_loose {toks : List Token} {x : Bytes} {caps} (h : MatchesStrict toks x caps) (hu : LitsP Utf8 toks) : LooseMatches toks x caps := by
  induction h with
  | nil => exact .nil
  | literal l toks x caps h1 h2 ih =>
    cases toks with
    | nil =>
      obtain ⟨rfl, rfl⟩ := strict_nil_inv h2
      exact .last _ _ (by simp)
    | cons tok toks =>
      refine .literal l l x _ caps (by simp) ?_ (h1 (by simp)) (ih fun l' hl' => hu l' (by simp at hl' ⊢; simp [hl']))
      exact ⟨hu l (by simp), List.prefix_refl _, List.prefix_append _ _, fun c' _ h _ => h.length_le⟩
  | parser a toks v x caps h1 h2 ih =>
    exact .parser a toks v x caps h1 (ih fun l' hl' => hu l' (by simp [hl']))

/-- The answer of a table for one pattern. -/
def SAnswers (toks : List Token) (q : Pattern) (x : Bytes) (r : Option MatchResult) : Prop :=
  (∀ caps, LooseMatches toks x caps → ∃ res, r = some res ∧ res.pattern = q ∧ HasCaptures res.values caps) ∧
  ((¬∃ caps, LooseMatches toks x caps) → r = none)

theorem sanswers_some {toks : List Token} {q : Pattern} {x : Bytes} {res : MatchResult} (h : SAnswers toks q x (some res)) :
    ∃ caps, LooseMatches toks x caps ∧ res.pattern = q ∧ HasCaptures res.values caps := by
  by_cases hc : ∃ caps, LooseMatches toks x caps
  · obtain ⟨caps, hc⟩ := hc
    obtain ⟨res', h1, h2, h3⟩ := h.1 caps hc
    simp at h1; subst h1
    exact ⟨caps, hc, h2, h3⟩
  · have := h.2 hc; simp at this

/-- Answer of a parser entry that belongs to one pattern. -/
theorem parserE_answers {a : Parser} {rest : List Token} {q : Pattern} {m : ParserE} (hm : m.parser = a)
    (hpat : rest = [] → m.pattern = some q ∧ m.child = none) (hchild : rest ≠ [] → m.child = some (ssingle rest q))
    {x : Bytes} (hx : Utf8 x)
    (ih : rest ≠ [] → ∀ y, Utf8 y → ∀ r, (ssingle rest q).parse y = .ok r → SAnswers rest q y r)
    {r : Option MatchResult} (h : m.parse x = .ok r) : SAnswers (.parser a :: rest) q x r := by
  subst hm
  rcases parserE_partial m hx h with ⟨v, y, rfl, hy, hpm, hr⟩ | ⟨hno, rfl⟩
  · have uniq : ∀ caps, LooseMatches (.parser m.parser :: rest) (v ++ y) caps →
        ∃ caps', caps = (m.parser, v) :: caps' ∧ LooseMatches rest y caps' := by
      intro caps hc
      obtain ⟨v', y', caps', he, rfl, hpm', hs⟩ := loose_par_inv hc
      have hv := parserMatch_unique hpm hpm'
      subst hv
      have := List.append_cancel_left he
      subst this
      exact ⟨caps', rfl, hs⟩
    by_cases hrest : rest = []
    · subst hrest
      obtain ⟨e1, e2⟩ := hpat rfl
      rw [e2] at hr
      simp only [e1, Option.map_some] at hr
      refine ⟨?_, ?_⟩
      · intro caps hc
        obtain ⟨caps', rfl, hs⟩ := uniq caps hc
        obtain ⟨rfl, rfl⟩ := loose_nil_inv hs
        rw [if_pos rfl] at hr
        refine ⟨_, hr, ?_, hasCaptures_insert (hasCaptures_nil q) _ _⟩
        rw [insert_pattern]; rfl
      · intro hno
        by_cases hy0 : y = []
        · subst hy0
          exact absurd ⟨_, LooseMatches.parser m.parser [] v [] [] hpm .nil⟩ hno
        · rw [if_neg hy0] at hr; exact hr
    · rw [hchild hrest] at hr
      obtain ⟨r', hr', rfl⟩ := hr
      have hans := ih hrest y hy r' hr'
      refine ⟨?_, ?_⟩
      · intro caps hc
        obtain ⟨caps', rfl, hs⟩ := uniq caps hc
        obtain ⟨res, rfl, e1, e2⟩ := hans.1 caps' hs
        refine ⟨_, rfl, by rw [insert_pattern]; exact e1, hasCaptures_insert e2 _ _⟩
      · intro hno
        rw [hans.2 ?_]; rfl
        rintro ⟨caps', hs⟩
        exact hno ⟨_, .parser m.parser _ v y caps' hpm hs⟩
  · refine ⟨?_, fun _ => rfl⟩
    intro caps hc
    obtain ⟨v', y', caps', he, rfl, hpm', hs⟩ := loose_par_inv hc
    exact absurd ⟨v', hpm'⟩ hno

/-- What follows in the child of a selected literal entry. -/
theorem litE_child_answers {l : Bytes} (hl : Utf8 l) {rest : List Token} {q : Pattern} (hr : rest ≠ []) {x : Bytes} (hx : Utf8 x)
    (hk : commonPrefixLen l x ≠ x.length) {r : Option MatchResult}
    (ih : SAnswers rest q (x.drop (commonPrefixLen l x)) r) : SAnswers (.literal l :: rest) q x r := by
  have hle := cpl_le l x
  have hsplit : x.take (commonPrefixLen l x) ++ x.drop (commonPrefixLen l x) = x := List.take_append_drop _ _
  refine ⟨?_, ?_⟩
  · intro caps hc
    rcases loose_lit_inv hc with ⟨h1, _⟩ | ⟨_, c, y, h1, h2, h3, h4⟩
    · exact absurd h1 hr
    · rw [lcp_iff hl hx] at h2
      have : y = x.drop (commonPrefixLen l x) := by
        have h5 := h1
        rw [← hsplit, h2] at h5
        exact (List.append_cancel_left (by rw [hsplit] at h5; rw [hsplit]; exact h5)).symm
      rw [this] at h4
      exact ih.1 caps h4
  · intro hno
    apply ih.2
    rintro ⟨caps, hc⟩
    apply hno
    refine ⟨caps, ?_⟩
    have := LooseMatches.literal l (x.take (commonPrefixLen l x)) (x.drop (commonPrefixLen l x)) rest caps hr
      (by rw [hsplit, lcp_iff hl hx]) (by intro h; rw [List.drop_eq_nil_iff] at h; omega) hc
    rwa [hsplit] at this

theorem litE_end {l : Bytes} (hl : Utf8 l) {rest : List Token} {x : Bytes} (hx : Utf8 x) (hr : rest ≠ [])
    (hk : commonPrefixLen l x = x.length) {caps} : ¬ LooseMatches (.literal l :: rest) x caps := by
  intro hc
  rcases loose_lit_inv hc with ⟨h1, _⟩ | ⟨_, c, y, h1, h2, h3, h4⟩
  · exact hr h1
  · rw [lcp_iff hl hx, hk, List.take_length] at h2
    subst h2
    exact h3 (by simpa using h1)

theorem ssingle_answers {toks : List Token} {q : Pattern} (hne : toks ≠ []) (hu : LitsP Utf8 toks) {x : Bytes}
    (hx : Utf8 x) {r : Option MatchResult} (h : (ssingle toks q).parse x = .ok r) : SAnswers toks q x r := by
  induction toks generalizing x r with
  | nil => simp at hne
  | cons tok rest ih =>
    have hu' : LitsP Utf8 rest := fun l hl => hu l (by simp [hl])
    cases tok with
    | literal l =>
      have hl := hu l (by simp)
      have hle := cpl_le l x
      have hb : isCharBoundary x (commonPrefixLen l x) = true := cpl_boundary_right hl hx
      obtain ⟨e, he1, he2, he3⟩ : ∃ e : LiteralE, e.literal = l ∧ (ssingle (.literal l :: rest) q).longestCommonPrefix x = .ok (some e) ∧
          e = ⟨if rest.isEmpty then some q else none, l, if rest.isEmpty then none else some (ssingle rest q)⟩ := by
        rcases lcp_spec (t := ssingle (.literal l :: rest) q) (by simp [ssingle, SSorted])
          (by intro e he; simp [ssingle] at he; rw [he]; exact hl) hx with ⟨h1, _⟩ | ⟨e, h1, h2, _⟩
        · simp [ssingle] at h1
        · simp [ssingle] at h1
          exact ⟨e, by rw [h1], h2, by simpa using h1⟩
      rw [sparse_lit hx (by rw [he1]; exact hl) he2, he1] at h
      by_cases hk : commonPrefixLen l x = x.length
      · rw [if_pos hk] at h
        simp at h
        by_cases hr : rest = []
        · subst hr
          rw [he3] at h; simp at h; subst h
          refine ⟨?_, ?_⟩
          · intro caps hc
            rcases loose_lit_inv hc with ⟨_, _, rfl⟩ | ⟨h1, _⟩
            · exact ⟨_, rfl, rfl, hasCaptures_nil q⟩
            · exact absurd rfl h1
          · intro hno
            exact absurd ⟨[], LooseMatches.last l x ((cpl_eq_length_right hl hx).mp hk)⟩ hno
        · rw [he3] at h; simp [hr] at h; subst h
          exact ⟨fun caps hc => absurd hc (litE_end hl hx hr hk), fun _ => rfl⟩
      · rw [if_neg hk] at h
        by_cases hr : rest = []
        · subst hr
          rw [he3] at h; simp at h; subst h
          refine ⟨?_, fun _ => rfl⟩
          intro caps hc
          rcases loose_lit_inv hc with ⟨_, h1, _⟩ | ⟨h1, _⟩
          · exact absurd ((cpl_eq_length_right hl hx).mpr h1) hk
          · exact absurd rfl h1
        · rw [he3] at h; simp [hr] at h
          exact litE_child_answers hl hr hx hk (ih hr hu' (boundary_split hx hb).2 h)
    | parser a =>
      rw [sparse_nolit (lcp_nil rfl x)] at h
      obtain ⟨r0, h1, h2⟩ := sparseWithParsers_cons h
      have hr : r0 = r := by
        rcases h2 with ⟨res, rfl, rfl⟩ | ⟨rfl, h2⟩
        · rfl
        · rw [sparseWithParsers] at h2; simpa using h2
      subst hr
      refine parserE_answers rfl ?_ ?_ hx (fun h y hy r hr => ih h hu' hy hr) h1
      · rintro rfl; exact ⟨rfl, rfl⟩
      · intro h; simp [h]

/-! ### no panics -/

/-- literals and end strings are UTF-8, SET arguments are ASCII -/
def GoodToks (toks : List Token) : Prop := LitsP Utf8 toks ∧ ∀ a, Token.parser a ∈ toks → AsciiParser a ∧ Utf8Parser a

theorem parserE_total {m : ParserE} (ha : AsciiParser m.parser ∧ Utf8Parser m.parser) {x : Bytes} (hx : Utf8 x)
    (hc : ∀ c, m.child = some c → ∀ y, Utf8 y → ∃ r, c.parse y = .ok r) : ∃ r, m.parse x = .ok r := by
  obtain ⟨r, hr⟩ := parse_total ha.1 ha.2 hx
  rw [ParserE.parse, hr]
  cases r with
  | none => exact ⟨_, rfl⟩
  | some v =>
    obtain ⟨hpm, hb⟩ := (parse_some m.parser x v).mp hr
    simp only
    rw [ltrunc, sliceFrom_ok hb]
    simp only
    split
    · rename_i d hd
      obtain ⟨r, hr⟩ := hc d hd (x.drop v.length) (boundary_split hx hb).2
      rw [hr]
      cases r <;> exact ⟨_, rfl⟩
    · split <;> exact ⟨_, rfl⟩

theorem sparseWithParsers_total {ms : List ParserE} {x : Bytes} (h : ∀ m ∈ ms, ∃ r, m.parse x = .ok r) : ∃ r, sparseWithParsers ms x = .ok r := by
  induction ms with
  | nil => rw [sparseWithParsers]; exact ⟨_, rfl⟩
  | cons m ms ih =>
    obtain ⟨r, hr⟩ := h m (by simp)
    rw [sparseWithParsers, hr]
    cases r with
    | some res => exact ⟨_, rfl⟩
    | none => exact ih fun m hm => h m (by simp [hm])

/-- A table does not panic if its entries do not. -/
theorem table_total {t : SuffixTable} (hs : SSorted t.literalEntries) (hu : SUtf8 t.literalEntries)
    (hl : ∀ e ∈ t.literalEntries, ∀ c, e.child = some c → ∀ y, Utf8 y → ∃ r, c.parse y = .ok r)
    (hp : ∀ m ∈ t.parserEntries, (AsciiParser m.parser ∧ Utf8Parser m.parser) ∧
      ∀ c, m.child = some c → ∀ y, Utf8 y → ∃ r, c.parse y = .ok r)
    {x : Bytes} (hx : Utf8 x) : ∃ r, t.parse x = .ok r := by
  rcases lcp_spec hs hu hx with ⟨_, h1⟩ | ⟨e, he, h1, _⟩
  · rw [sparse_nolit h1]
    exact sparseWithParsers_total fun m hm => parserE_total (hp m hm).1 hx (hp m hm).2
  · rw [sparse_lit hx (hu e he) h1]
    split
    · exact ⟨_, rfl⟩
    · split
      · exact ⟨_, rfl⟩
      · rename_i c hc
        exact hl e he c hc _ (boundary_split hx (cpl_boundary_right (hu e he) hx)).2

theorem ssingle_total {toks : List Token} {q : Pattern} (hg : GoodToks toks) {x : Bytes} (hx : Utf8 x) :
    ∃ r, (ssingle toks q).parse x = .ok r := by
  induction toks generalizing x with
  | nil =>
    refine table_total ?_ ?_ ?_ ?_ hx <;> simp [ssingle, SuffixTable.new, SSorted, SUtf8]
  | cons tok rest ih =>
    have hg' : GoodToks rest := ⟨fun l hl => hg.1 l (by simp [hl]), fun a ha => hg.2 a (by simp [ha])⟩
    cases tok with
    | literal l =>
      refine table_total (by simp [ssingle, SSorted]) ?_ ?_ (by simp [ssingle]) hx
      · intro e he; simp [ssingle] at he; rw [he]; exact hg.1 l (by simp)
      · intro e he c hc y hy
        simp [ssingle] at he
        rw [he] at hc
        by_cases hr : rest = [] <;> simp [hr] at hc
        rw [← hc]; exact ih hg' hy
    | parser a =>
      refine table_total (by simp [ssingle, SSorted]) (by simp [ssingle, SUtf8]) (by simp [ssingle]) ?_ hx
      intro m hm
      simp [ssingle] at hm
      subst hm
      refine ⟨hg.2 a (by simp), ?_⟩
      intro c hc y hy
      by_cases hr : rest = [] <;> simp [hr] at hc
      rw [← hc]; exact ih hg' hy

theorem reach_utf8 {sip : Bytes → UInt64} {ps : List Pattern} {t : SuffixTable} (h : Reach sip ps t) (hu : ∀ p ∈ ps, Utf8Lits p) :
    SUtf8 t.literalEntries := by
  intro e he
  obtain ⟨p, hp, e1⟩ := (reach_has h e.literal).mp ⟨e, he, rfl⟩
  exact hu p hp _ (List.mem_of_mem_head? (by rw [e1]; simp))

theorem reach_total {sip : Bytes → UInt64} {ps : List Pattern} {t : SuffixTable} (h : Reach sip ps t) (hg : ∀ p ∈ ps, GoodToks p.pattern)
    {x : Bytes} (hx : Utf8 x) : ∃ r, t.parse x = .ok r := by
  refine table_total h.sorted (reach_utf8 h fun p hp => (hg p hp).1) ?_ ?_ hx
  · intro e he c hc y hy
    obtain ⟨p, hp, rest, _, e1, rfl⟩ := (reach_lit h he).2 c hc
    exact ssingle_total ⟨fun l hl => (hg p hp).1 l (by rw [e1]; simp [hl]), fun a ha => (hg p hp).2 a (by rw [e1]; simp [ha])⟩ hy
  · intro m hm
    obtain ⟨⟨p, hp, e0⟩, _, h3⟩ := h.par m hm
    refine ⟨(hg p hp).2 _ (List.mem_of_mem_head? (by rw [e0]; simp)), ?_⟩
    intro c hc y hy
    obtain ⟨p, hp, b, rest, _, e1, _, rfl⟩ := h3 c hc
    exact ssingle_total ⟨fun l hl => (hg p hp).1 l (by rw [e1]; simp [hl]), fun a ha => (hg p hp).2 a (by rw [e1]; simp [ha])⟩ hy

/-! ### answers of reachable tables -/

/-- The answer belongs to an added pattern that matches loosely. -/
theorem reach_sound {sip : Bytes → UInt64} {ps : List Pattern} {t : SuffixTable} (h : Reach sip ps t) (hu : ∀ p ∈ ps, Utf8Lits p)
    (hcol : NoCollision sip ps) {x : Bytes} (hx : Utf8 x) {res : MatchResult} (hr : t.parse x = .ok (some res)) :
    ∃ p ∈ ps, ∃ caps, LooseMatches p.pattern x caps ∧ IsResult res p caps := by
  have hus := reach_utf8 h hu
  rcases lcp_spec h.sorted hus hx with ⟨_, h1⟩ | ⟨e, he, h1, _⟩
  · rw [sparse_nolit h1] at hr
    have hmem : ∃ m ∈ t.parserEntries, m.parse x = .ok (some res) := by
      generalize t.parserEntries = ms at hr
      induction ms with
      | nil => rw [sparseWithParsers] at hr; simp at hr
      | cons m ms ih =>
        obtain ⟨r0, h2, ⟨res', rfl, h3⟩ | ⟨rfl, h3⟩⟩ := sparseWithParsers_cons hr
        · simp at h3; subst h3; exact ⟨m, by simp, h2⟩
        · obtain ⟨m', h4, h5⟩ := ih h3
          exact ⟨m', by simp [h4], h5⟩
    obtain ⟨m, hm, hmr⟩ := hmem
    clear hr
    obtain ⟨⟨p0, hp0, e0⟩, h2, h3⟩ := h.par m hm
    cases hc : m.child with
    | none =>
      rcases parserE_partial m hx hmr with ⟨v, y, rfl, hy, hpm, hr⟩ | ⟨_, hr⟩
      · rw [hc] at hr
        simp only at hr
        split at hr
        · rename_i hy0; subst hy0
          cases hq : m.pattern with
          | none => rw [hq] at hr; simp at hr
          | some q =>
            rw [hq] at hr; simp at hr
            obtain ⟨p, hp, b, e1, e2, rfl⟩ := h2 q hq
            have : b = m.parser := hcol b m.parser ⟨p, hp, by rw [e1]; rfl⟩ ⟨p0, hp0, e0⟩ e2
            subst this
            refine ⟨p, hp, [(m.parser, v)], ?_, ?_, ?_⟩
            · rw [e1]; exact .parser _ [] v [] [] hpm .nil
            · rw [hr, insert_pattern]; rfl
            · rw [hr]; exact hasCaptures_insert (hasCaptures_nil _) _ _
        · simp at hr
      · simp at hr
    | some c =>
      obtain ⟨p, hp, b, rest, hne, e1, e2, rfl⟩ := h3 c hc
      have : b = m.parser := hcol b m.parser ⟨p, hp, by rw [e1]; rfl⟩ ⟨p0, hp0, e0⟩ e2
      subst this
      have hans := parserE_answers (rest := rest) (q := p.strip) (m := m) rfl (fun h => absurd h hne) (fun _ => hc) hx
        (fun _ y hy r hr => ssingle_answers hne (fun l hl => hu p hp l (by rw [e1]; simp [hl])) hy hr) hmr
      obtain ⟨caps, h4, h5, h6⟩ := sanswers_some hans
      exact ⟨p, hp, caps, by rw [e1]; exact h4, h5, h6⟩
  · rw [sparse_lit hx (hus e he) h1] at hr
    obtain ⟨h2, h3⟩ := reach_lit h he
    split at hr
    · rename_i hk
      cases hq : e.pattern with
      | none => rw [hq] at hr; simp at hr
      | some q =>
        rw [hq] at hr; simp at hr
        obtain ⟨p, hp, e1, rfl⟩ := h2 q hq
        refine ⟨p, hp, [], ?_, ?_⟩
        · rw [e1]; exact .last _ _ ((cpl_eq_length_right (hus e he) hx).mp hk)
        · rw [← hr]; exact ⟨rfl, hasCaptures_nil _⟩
    · rename_i hk
      split at hr
      · simp at hr
      · rename_i c hc
        obtain ⟨p, hp, rest, hne, e1, rfl⟩ := h3 c hc
        have hans := litE_child_answers (hus e he) hne hx hk
          (ssingle_answers hne (fun l hl => hu p hp l (by rw [e1]; simp [hl]))
            (boundary_split hx (cpl_boundary_right (hus e he) hx)).2 hr)
        obtain ⟨caps, h4, h5, h6⟩ := sanswers_some hans
        exact ⟨p, hp, caps, by rw [e1]; exact h4, h5, h6⟩

end Verif
