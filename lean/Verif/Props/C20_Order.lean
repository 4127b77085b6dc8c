import Verif.Proofs.Reorder
import Verif.Props.C66_Panics
import Verif.Props.C79_Change
import Verif.Props.C98_SuffixChange
/-! C20 and C100: when the order of additions matters. -/
namespace Verif
open Spec

theorem sameTable_symm {T T' : Table} (h : SameTable T T') : SameTable T' T := ⟨sameRows_symm h.1, h.2.symm⟩

theorem sameTable_panics {T T' : Table} (h : SameTable T T') (hu : UniqRows T.rows) (hu' : UniqRows T'.rows) {x : Bytes} :
    T.Panics x ↔ T'.Panics x := by
  have hm : ∀ row, row ∈ T.rows ↔ row ∈ T'.rows := by
    intro row
    rw [rowAt_mem hu, rowAt_mem hu', h.1]
  unfold Table.Panics LookupPanics Deepest StopPoint Extended
  simp only [hm, h.2]

/-- Two tries built from lists with the same table have the same outcome for every text. -/
theorem sameTable_parse {sip : Bytes → UInt64} {ps qs : List Pattern} (hp : Proper sip ps) (hq : Proper sip qs)
    (h : SameTable (Table.of ps) (Table.of qs)) {t t' : SuffixTree} (hb : SuffixTree.build sip ps = .ok t) (hb' : SuffixTree.build sip qs = .ok t')
    {text : Bytes} (hx : Utf8 text) : t.parse text = t'.parse text := by
  have h1 := C66_panics_iff sip ps hp.utf8 hp.nonempty hp.split hp.hashes t hb text hx
  have h2 := C66_panics_iff sip qs hq.utf8 hq.nonempty hq.split hq.hashes t' hb' text hx
  have hu := (table_rows ps).1
  have hu' := (table_rows qs).1
  by_cases g : (Table.of ps).Panics text
  · rw [h1.1 g, h2.1 ((sameTable_panics h hu hu').mp g)]
  · obtain ⟨r, e, hr⟩ := h1.2 g
    obtain ⟨r', e', hr'⟩ := h2.2 (fun g' => g ((sameTable_panics h hu hu').mpr g'))
    rw [e, e', C65_answer_unique _ text r r' (sameTable_answer h hu hu' hr) hr']

/-- C65, consequence: two histories with the same table give matchers with the same outcome, panics included, for every text in any script. -/
theorem C65_same_table_utf8 (sip : Bytes → UInt64) (ps qs : List Pattern) (hp : Proper sip ps) (hq : Proper sip qs) (h : Table.of ps = Table.of qs)
    (t t' : SuffixTree) (hb : SuffixTree.build sip ps = .ok t) (hb' : SuffixTree.build sip qs = .ok t') (text : Bytes) (hx : Utf8 text) :
    t.parse text = t'.parse text :=
  sameTable_parse hp hq (h ▸ ⟨fun _ => rfl, rfl⟩) hb hb' hx

theorem sameOrder_mem {D : Pattern → Pattern → Prop} {ps qs : List Pattern} (h : SameOrder D ps qs) : ∀ p ∈ qs, p ∈ ps :=
  fun _ hp => h.1.mem_iff.mpr hp

/-- C20, the general part that holds: the order of additions matters only between patterns that `OrderMatters` relates.  If two lists hold the same
patterns and any two patterns so related stand in the same order in both, the tries built from them have the same outcome (the same answer, or a panic)
for every text. -/
theorem C20_same_order_partial (sip : Bytes → UInt64) (ps qs : List Pattern) (hps : Proper sip ps) (h : SameOrder OrderMatters ps qs)
    (t t' : SuffixTree) (hb : SuffixTree.build sip ps = .ok t) (hb' : SuffixTree.build sip qs = .ok t') (text : Bytes) (hx : Utf8 text) :
    t.parse text = t'.parse text :=
  sameTable_parse hps (proper_sub hps (sameOrder_mem h)) (sameTable_of h) hb hb' hx

/-- C20, the same for ASCII patterns, where both lists can be added. -/
theorem C20_same_order_ascii_partial (sip : Bytes → UInt64) (ps qs : List Pattern) (hps : Plain sip ps) (h : SameOrder OrderMatters ps qs)
    (text : Bytes) (hx : Utf8 text) :
    (SuffixTree.build sip ps >>= fun t => t.parse text) = (SuffixTree.build sip qs >>= fun t => t.parse text) := by
  obtain ⟨t, hb, _⟩ := build_ascii sip ps hps.ascii
  obtain ⟨t', hb', _⟩ := build_ascii sip qs (fun p hp => hps.ascii p (sameOrder_mem h p hp))
  rw [hb, hb']
  exact C20_same_order_partial sip ps qs hps.proper h t t' hb hb' text hx

/-! The order does matter between the patterns that `OrderMatters` relates. -/

/-- Two patterns are told apart by what `parse` reports of them. -/
def ToldApart (p q : Pattern) : Prop := { p with pattern := [] } ≠ { q with pattern := [] }

theorem toldApart_symm {p q : Pattern} (h : ToldApart p q) : ToldApart q p := fun e => h e.symm

theorem result_apart {p q : Pattern} (hd : ToldApart p q) {r r' : MatchResult} {caps caps'} (h : IsResult r p caps) (h' : IsResult r' q caps') : r ≠ r' := by
  intro e
  subst e
  exact hd (h.1.symm.trans h'.1)

theorem answer_no_rows {L : List Pattern} {x : Bytes} {r : Option MatchResult} (h : (Table.mk [] L).Answer x r) : FirstAnswer L x r := by
  obtain ⟨b, ⟨hb, _⟩, h1, _⟩ := h.2 (by simp)
  refine h1 ?_
  rcases hb with rfl | ⟨_, h, _⟩ | ⟨_, h, _⟩
  · rfl
  · cases h
  · cases h

theorem answer_one_row {l : Bytes} (hl : l ≠ []) {w : Option Pattern} {q : Pattern} {L : List Pattern} {y : Bytes} (hy : y ≠ []) {r : Option MatchResult}
    (h : (Table.mk [⟨l, w, some q⟩] L).Answer (l ++ y) r) : FirstAnswer [q] (l ++ y) r := by
  obtain ⟨b, ⟨hb, _, hmax⟩, _, h2, _⟩ := h.2 (by simpa using hy)
  have hlb := hmax l (.inr (.inl ⟨_, List.mem_singleton.mpr rfl, rfl, by simp⟩)) (List.prefix_append l y)
  have hlen : 0 < l.length := List.length_pos_iff.mpr hl
  rcases hb with rfl | ⟨s, hs, e, _⟩ | ⟨s, hs, s', hs', hne, _⟩
  · simp at hlb; exact absurd hlb hl
  · rw [List.mem_singleton.mp hs] at e
    simp only at e
    subst e
    exact h2 hl _ (List.mem_singleton.mpr rfl) rfl q rfl
  · rw [List.mem_singleton.mp hs, List.mem_singleton.mp hs'] at hne
    exact absurd rfl hne

/-- The answer of a table with the two patterns is that of the second one, if they replace one another; of the first one for different parsers. -/
theorem two_answer {p q : Pattern} (hne : NonemptyLits p) (hs : ∀ l l', p.pattern.head? = some (.literal l) → q.pattern.head? = some (.literal l') → l = l')
    (h : OrderMatters p q) {x : Bytes} {cp cq} (hp : MatchesStrict p.pattern x cp) (hq : MatchesStrict q.pattern x cq) {r : Option MatchResult}
    (ha : (Table.of [p, q]).Answer x r) :
    ∃ res, r = some res ∧ ((∃ a b, p.pattern.head? = some (.parser a) ∧ q.pattern.head? = some (.parser b) ∧ a ≠ b) → IsResult res p cp) ∧
      ((¬∃ a b, p.pattern.head? = some (.parser a) ∧ q.pattern.head? = some (.parser b) ∧ a ≠ b) → IsResult res q cq) := by
  have first_head : ∀ {p : Pattern} {L : List Pattern} {c}, FirstAnswer (p :: L) x r → MatchesStrict p.pattern x c → ∃ res, r = some res ∧ IsResult res p c :=
    fun h hm => h.1 [] _ _ _ rfl (by simp) hm
  unfold OrderMatters at h
  unfold Table.of at ha
  simp only [List.foldl_cons, List.foldl_nil] at ha
  split at h
  · rename_i l rest l' rest' ep eq
    have e : l = l' := hs l l' (by rw [ep]; rfl) (by rw [eq]; rfl)
    subst e
    have hl : l ≠ [] := hne l (by rw [ep]; simp)
    have hr : rest = [] ↔ rest' = [] := by
      rcases h with ⟨_, g⟩ | ⟨_, g, _⟩ | ⟨_, g, _⟩
      · exact g
      · exact absurd rfl g
      · exact absurd rfl g
    suffices hh : ∃ res, r = some res ∧ IsResult res q cq by
      obtain ⟨res, h1, h2⟩ := hh
      exact ⟨res, h1, fun ⟨a, b, g, _⟩ => by rw [ep] at g; simp at g, fun _ => h2⟩
    have e1 : Table.add ⟨[], []⟩ p = ⟨addLiteralLed [] l rest.isEmpty p, []⟩ := by unfold Table.add; rw [ep]
    have e2 : ∀ T : Table, T.add q = { T with rows := addLiteralLed T.rows l rest'.isEmpty q } := by intro T; unfold Table.add; rw [eq]
    rw [e1, e2] at ha
    by_cases g : rest = []
    · have g' := hr.mp g
      subst g; subst g'
      simp [addLiteralLed, rowOf] at ha
      rw [eq] at hq
      obtain ⟨y, ey, _, hy⟩ := strict_lit_inv hq
      obtain ⟨ye, ce⟩ := strict_nil_inv hy
      subst ye; subst ce
      have := ha.1 _ (List.mem_singleton.mpr rfl) (by simpa using ey.symm)
      refine ⟨_, this, rfl, ?_⟩
      exact ⟨List.Pairwise.nil, by simp [capture]⟩
    · have g' : rest' ≠ [] := fun e => g (hr.mpr e)
      have i1 : rest.isEmpty = false := by simpa using g
      have i2 : rest'.isEmpty = false := by simpa using g'
      rw [i1, i2] at ha
      simp [addLiteralLed, rowOf, Extended] at ha
      have hq' := hq
      rw [eq] at hq
      obtain ⟨y, ey, hy, _⟩ := strict_lit_inv hq
      subst ey
      exact first_head (answer_one_row hl (hy g') ha) hq'
  · rename_i a rest b rest' ep eq
    have e1 : Table.add ⟨[], []⟩ p = ⟨[], [p]⟩ := by unfold Table.add; rw [ep]; rfl
    have e2 : ∀ T : Table, T.add q = { T with parserLed := addParserLed b q T.parserLed } := by intro T; unfold Table.add; rw [eq]
    rw [e1, e2] at ha
    have hf := answer_no_rows ha
    have hph : p.pattern.head? = some (.parser a) := by rw [ep]; rfl
    have hqh : q.pattern.head? = some (.parser b) := by rw [eq]; rfl
    by_cases e : a = b
    · subst e
      have : addParserLed a q [p] = [q] := by
        rw [addParserLed, if_pos hph, if_neg]
        rintro ⟨g, g'⟩
        rw [eq] at g; rw [ep] at g'
        simp at g g'
        exact g' ((h rfl).mpr g)
      rw [this] at hf
      obtain ⟨res, h1, h2⟩ := first_head hf hq
      refine ⟨res, h1, ?_, fun _ => h2⟩
      rintro ⟨_, _, g, g', g''⟩
      rw [hph] at g; rw [hqh] at g'
      simp at g g'
      exact absurd (g.symm.trans g') g''
    · have : addParserLed b q [p] = [p, q] := by
        have hb : ¬ p.pattern.head? = some (.parser b) := by rw [hph]; simpa using e
        rw [addParserLed, if_neg hb]; rfl
      rw [this] at hf
      obtain ⟨res, h1, h2⟩ := first_head hf hp
      exact ⟨res, h1, fun _ => h2, fun g => absurd ⟨a, b, hph, hqh, e⟩ g⟩
  · exact absurd h id

theorem orderMatters_symm {p q : Pattern} (h : OrderMatters p q) : OrderMatters q p := by
  unfold OrderMatters at h ⊢
  split at h
  · rename_i e1 e2
    simp only [e1, e2]
    rcases h with ⟨g, g'⟩ | ⟨g, g', g''⟩ | ⟨g, g', g''⟩
    · exact .inl ⟨g.symm, g'.symm⟩
    · exact .inr (.inr ⟨g, fun e => g' e.symm, g''⟩)
    · exact .inr (.inl ⟨g, fun e => g' e.symm, g''⟩)
  · rename_i e1 e2
    simp only [e1, e2]
    exact fun e => (h e.symm).symm
  · exact absurd h id

theorem order_counts {p q : Pattern} (hnp : NonemptyLits p) (hnq : NonemptyLits q) (h : OrderMatters p q)
    (hs : ∀ l l', p.pattern.head? = some (.literal l) → q.pattern.head? = some (.literal l') → l = l') (hd : ToldApart p q)
    {text : Bytes} (hp : ∃ caps, MatchesStrict p.pattern text caps) (hq : ∃ caps, MatchesStrict q.pattern text caps) {r r' : Option MatchResult}
    (ha : (Table.of [p, q]).Answer text r) (ha' : (Table.of [q, p]).Answer text r') : r ≠ r' := by
  obtain ⟨cp, hp⟩ := hp
  obtain ⟨cq, hq⟩ := hq
  obtain ⟨s, rfl, g⟩ := two_answer hnp hs h hp hq ha
  obtain ⟨s', rfl, g'⟩ := two_answer hnq (fun l l' e e' => (hs l' l e' e).symm) (orderMatters_symm h) hq hp ha'
  intro he
  simp only [Option.some.injEq] at he
  by_cases c : ∃ a b, p.pattern.head? = some (.parser a) ∧ q.pattern.head? = some (.parser b) ∧ a ≠ b
  · obtain ⟨a, b, c1, c2, c3⟩ := c
    exact result_apart hd (g.1 ⟨a, b, c1, c2, c3⟩) (g'.1 ⟨b, a, c2, c1, fun e => c3 e.symm⟩) he
  · exact result_apart (toldApart_symm hd) (g.2 c) (g'.2 (fun ⟨a, b, c1, c2, c3⟩ => c ⟨b, a, c2, c1, fun e => c3 e.symm⟩)) he

/-- C20: between two patterns that `OrderMatters` relates and that do not begin with different literals, the order does matter: if both match a text and
they can be told apart, the two orders of adding them lead to different answers for this text. -/
theorem C20_order_counts (sip : Bytes → UInt64) (p q : Pattern) (hps : Plain sip [p, q]) (h : OrderMatters p q)
    (hs : ∀ l l', p.pattern.head? = some (.literal l) → q.pattern.head? = some (.literal l') → l = l') (hd : ToldApart p q)
    (text : Bytes) (hx : Ascii text) (hp : ∃ caps, MatchesStrict p.pattern text caps) (hq : ∃ caps, MatchesStrict q.pattern text caps) :
    (SuffixTree.build sip [p, q] >>= fun t => t.parse text) ≠ (SuffixTree.build sip [q, p] >>= fun t => t.parse text) := by
  have hps' : Plain sip [q, p] := plain_sub hps (by simp [or_comm])
  obtain ⟨r, e, ha⟩ := C65_table_ascii sip [p, q] hps.ascii hps.nonempty hps.split hps.hashes text hx
  obtain ⟨r', e', ha'⟩ := C65_table_ascii sip [q, p] hps'.ascii hps'.nonempty hps'.split hps'.hashes text hx
  rw [e, e']
  intro he
  exact order_counts (hps.nonempty p (by simp)) (hps.nonempty q (by simp)) h hs hd hp hq ha ha' (by simpa using he)

/-- C20: the same for patterns and texts in any script, whenever both orders answer. -/
theorem C20_order_counts_utf8 (sip : Bytes → UInt64) (p q : Pattern) (hps : Proper sip [p, q]) (h : OrderMatters p q)
    (hs : ∀ l l', p.pattern.head? = some (.literal l) → q.pattern.head? = some (.literal l') → l = l') (hd : ToldApart p q)
    (text : Bytes) (hx : Utf8 text) (hp : ∃ caps, MatchesStrict p.pattern text caps) (hq : ∃ caps, MatchesStrict q.pattern text caps)
    (r r' : Option MatchResult) (hr : (SuffixTree.build sip [p, q] >>= fun t => t.parse text) = .ok r)
    (hr' : (SuffixTree.build sip [q, p] >>= fun t => t.parse text) = .ok r') : r ≠ r' :=
  order_counts (hps.nonempty p (by simp)) (hps.nonempty q (by simp)) h hs hd hp hq (proper_answer hps hx hr)
    (proper_answer (proper_sub hps (by simp [or_comm])) hx hr')

theorem shorter_first {p q : Pattern} (hnp : NonemptyLits p) {l l' : Bytes} {rest rest' : List Token}
    (ep : p.pattern = .literal l :: rest) (eq : q.pattern = .literal l' :: rest') (hl : l <+: l') (hne : l ≠ l') (hrest : rest ≠ [])
    {text : Bytes} (hn : ¬ l' <+: text) {caps} (hp : MatchesStrict p.pattern text caps) {r r' : Option MatchResult}
    (ha : (Table.of [p, q]).Answer text r) (ha' : (Table.of [q, p]).Answer text r') : (∃ res, IsResult res p caps ∧ r = some res) ∧ r' = none := by
  have hl0 : l ≠ [] := hnp l (by rw [ep]; simp)
  have hlen : 0 < l.length := List.length_pos_iff.mpr hl0
  have i1 : rest.isEmpty = false := by simpa using hrest
  obtain ⟨y, ey, hy, _⟩ := strict_lit_inv (ep ▸ hp)
  have hyn := hy hrest
  have hlx : l <+: text := ⟨y, ey.symm⟩
  have htl : text ≠ l := by intro e; rw [e] at ey; exact hyn (by simpa using ey.symm)
  have htl' : text ≠ l' := fun e => hn (e ▸ List.prefix_refl _)
  have hnl : ¬ l' <+: l := fun h => hne (hl.eq_of_length (Nat.le_antisymm hl.length_le h.length_le))
  have ap : ∀ T : Table, T.add p = { T with rows := addLiteralLed T.rows l false p } := by intro T; unfold Table.add; rw [ep]; simp [i1]
  have aq : ∀ T : Table, T.add q = { T with rows := addLiteralLed T.rows l' rest'.isEmpty q } := by intro T; unfold Table.add; rw [eq]
  constructor
  · have hrow : ∃ w m, (Table.of [p, q]).rows = [⟨l', w, m⟩, ⟨l, none, some p⟩] := by
      unfold Table.of
      simp only [List.foldl_cons, List.foldl_nil, ap, aq]
      cases hre : rest'.isEmpty <;> simp [addLiteralLed, rowOf, Extended, hne, hnl]
    obtain ⟨w, m, hrow⟩ := hrow
    obtain ⟨b, ⟨hb, hbx, hmax⟩, _, h2, _⟩ := ha.2 (by rw [hrow]; simp [htl.symm, htl'.symm])
    rw [hrow] at hb h2 hmax
    have hb' : b = l := by
      have hlb := hmax l (.inr (.inl ⟨⟨l, none, some p⟩, by simp, rfl, by simp⟩)) hlx
      have hbl : b.length ≤ l.length := by
        rcases hb with rfl | ⟨s, hs, e, _⟩ | ⟨s, hs, s', hs', hne', c1, c2, _⟩
        · simp
        · simp only [List.mem_cons, List.not_mem_nil, or_false] at hs
          rcases hs with rfl | rfl
          · simp only at e; subst e; exact absurd hbx hn
          · rw [← e]; exact Nat.le_refl _
        · simp only [List.mem_cons, List.not_mem_nil, or_false] at hs hs'
          rcases hs with rfl | rfl
          · rcases hs' with rfl | rfl
            · exact absurd rfl hne'
            · exact c2.length_le
          · exact c1.length_le
      exact (List.prefix_of_prefix_length_le hbx hlx hbl).eq_of_length (by omega)
    subst hb'
    obtain ⟨res, er, hres⟩ := (h2 hl0 ⟨b, none, some p⟩ (by simp) rfl p rfl).1 [] p [] caps rfl (by simp) hp
    exact ⟨res, hres, er⟩
  · have hrow : ∃ w m, (m = none ∨ m = some q) ∧ (Table.of [q, p]) = ⟨[⟨l, none, none⟩, ⟨l', w, m⟩], []⟩ := by
      unfold Table.of
      simp only [List.foldl_cons, List.foldl_nil, ap, aq]
      cases hre : rest'.isEmpty <;> simp [addLiteralLed, rowOf, Extended, Ne.symm hne, hl]
    obtain ⟨w, m, hm, hrow⟩ := hrow
    rw [hrow] at ha'
    obtain ⟨b, ⟨hb, hbx, hmax⟩, _, _, h3⟩ := ha'.2 (by simp [htl.symm, htl'.symm])
    have hlb := hmax l (.inr (.inr ⟨⟨l, none, none⟩, by simp, ⟨l', w, m⟩, by simp, hne, List.prefix_refl _, hl, fun c h _ => h.length_le⟩)) hlx
    have hb0 : b ≠ [] := by rintro rfl; simp at hlb; exact hl0 hlb
    have := h3 hb0 (by
      intro row hr hrb
      simp only [List.mem_cons, List.not_mem_nil, or_false] at hr
      rcases hr with rfl | rfl
      · rfl
      · simp only at hrb; subst hrb; exact absurd hbx hn)
    rw [this]

/-- C20: a pattern that goes on after a literal must be added before one that begins with a longer literal: it is found for the texts that it matches
(and that do not begin with the longer literal) if it was added first, and never if it was added second. -/
theorem C20_shorter_first (sip : Bytes → UInt64) (p q : Pattern) (hps : Plain sip [p, q]) (l l' : Bytes) (rest rest' : List Token)
    (ep : p.pattern = .literal l :: rest) (eq : q.pattern = .literal l' :: rest') (hl : l <+: l') (hne : l ≠ l') (hrest : rest ≠ [])
    (text : Bytes) (hx : Ascii text) (hn : ¬ l' <+: text) (caps) (hp : MatchesStrict p.pattern text caps) :
    (∃ res, IsResult res p caps ∧ (SuffixTree.build sip [p, q] >>= fun t => t.parse text) = .ok (some res)) ∧
    (SuffixTree.build sip [q, p] >>= fun t => t.parse text) = .ok none := by
  have hps' : Plain sip [q, p] := plain_sub hps (by simp [or_comm])
  obtain ⟨r, e, ha⟩ := C65_table_ascii sip [p, q] hps.ascii hps.nonempty hps.split hps.hashes text hx
  obtain ⟨r', e', ha'⟩ := C65_table_ascii sip [q, p] hps'.ascii hps'.nonempty hps'.split hps'.hashes text hx
  obtain ⟨⟨res, h1, rfl⟩, rfl⟩ := shorter_first (hps.nonempty p (by simp)) ep eq hl hne hrest hn hp ha ha'
  exact ⟨⟨res, h1, e⟩, e'⟩

/-- C20: the same for patterns and texts in any script, whenever both orders answer. -/
theorem C20_shorter_first_utf8 (sip : Bytes → UInt64) (p q : Pattern) (hps : Proper sip [p, q]) (l l' : Bytes) (rest rest' : List Token)
    (ep : p.pattern = .literal l :: rest) (eq : q.pattern = .literal l' :: rest') (hl : l <+: l') (hne : l ≠ l') (hrest : rest ≠ [])
    (text : Bytes) (hx : Utf8 text) (hn : ¬ l' <+: text) (caps) (hp : MatchesStrict p.pattern text caps) (r r' : Option MatchResult)
    (hr : (SuffixTree.build sip [p, q] >>= fun t => t.parse text) = .ok r) (hr' : (SuffixTree.build sip [q, p] >>= fun t => t.parse text) = .ok r') :
    (∃ res, IsResult res p caps ∧ r = some res) ∧ r' = none :=
  shorter_first (hps.nonempty p (by simp)) ep eq hl hne hrest hn hp (proper_answer hps hx hr) (proper_answer (proper_sub hps (by simp [or_comm])) hx hr')

end Verif
