import Verif.Props.C145_Together
import Verif.Spec.Begins
/-! C146: patterns that begin with a literal and patterns that begin with a parser in one trie. -/
namespace Verif
open Spec
namespace Led

theorem rows_fold (ps : List Pattern) : ∀ (T : Table) (L : List Pattern),
    (ps.foldl Table.add T).rows = ((literalLed ps).foldl Table.add ⟨T.rows, L⟩).rows := by
  induction ps with
  | nil => intro T L; rfl
  | cons p ps ih =>
    intro T L
    rw [List.foldl_cons, ih _ L]
    unfold literalLed
    cases e : p.pattern with
    | nil =>
      rw [List.filter_cons_of_neg (by rw [e]; simp)]
      unfold Table.add
      rw [e]
    | cons t rest =>
      cases t with
      | literal l =>
        rw [List.filter_cons_of_pos (by rw [e]), List.foldl_cons]
        unfold Table.add
        rw [e]
      | parser a =>
        rw [List.filter_cons_of_neg (by rw [e]; simp)]
        unfold Table.add
        rw [e]

theorem parserLed_fold (ps : List Pattern) : ∀ (T : Table) (R : List Row),
    (ps.foldl Table.add T).parserLed = ((parserLed ps).foldl Table.add ⟨R, T.parserLed⟩).parserLed := by
  induction ps with
  | nil => intro T L; rfl
  | cons p ps ih =>
    intro T R
    rw [List.foldl_cons, ih _ R]
    unfold parserLed
    cases e : p.pattern with
    | nil =>
      rw [List.filter_cons_of_neg (by rw [e]; simp)]
      unfold Table.add
      rw [e]
    | cons t rest =>
      cases t with
      | parser l =>
        rw [List.filter_cons_of_pos (by rw [e]), List.foldl_cons]
        unfold Table.add
        rw [e]
      | literal a =>
        rw [List.filter_cons_of_neg (by rw [e]; simp)]
        unfold Table.add
        rw [e]

theorem table_led (ps : List Pattern) : Table.of ps = ⟨(Table.of (literalLed ps)).rows, (Table.of (parserLed ps)).parserLed⟩ := by
  have h1 := rows_fold ps ⟨[], []⟩ []
  have h2 := parserLed_fold ps ⟨[], []⟩ []
  unfold Table.of
  rw [← h1, ← h2]

theorem literalLed_twice (ps : List Pattern) : literalLed (literalLed ps) = literalLed ps := by
  unfold literalLed
  rw [List.filter_filter]
  simp

theorem parserLed_twice (ps : List Pattern) : parserLed (parserLed ps) = parserLed ps := by
  unfold parserLed
  rw [List.filter_filter]
  simp

theorem parserLed_literalLed (ps : List Pattern) : parserLed (literalLed ps) = [] := by
  unfold parserLed literalLed
  rw [List.filter_filter, List.filter_eq_nil_iff]
  intro p _
  cases e : p.pattern with
  | nil => simp
  | cons t rest => cases t <;> simp

theorem literalLed_parserLed (ps : List Pattern) : literalLed (parserLed ps) = [] := by
  unfold parserLed literalLed
  rw [List.filter_filter, List.filter_eq_nil_iff]
  intro p _
  cases e : p.pattern with
  | nil => simp
  | cons t rest => cases t <;> simp

theorem table_literals (ps : List Pattern) : Table.of (literalLed ps) = ⟨(Table.of ps).rows, []⟩ := by
  rw [table_led (literalLed ps), literalLed_twice, parserLed_literalLed, table_led ps]
  rfl

theorem table_parsers (ps : List Pattern) : Table.of (parserLed ps) = ⟨[], (Table.of ps).parserLed⟩ := by
  rw [table_led (parserLed ps), parserLed_twice, literalLed_parserLed, table_led ps]
  rfl

theorem addPanics_rows {T T' : Table} (h : T.rows = T'.rows) (p : Pattern) : T.AddPanics p ↔ T'.AddPanics p := by
  unfold Table.AddPanics
  rw [h]

/-- Whether building panics depends only on the patterns that begin with literals. -/
theorem stuck_iff (ps : List Pattern) : (∃ A p B, ps = A ++ p :: B ∧ (Table.of A).AddPanics p) ↔
    ∃ A p B, literalLed ps = A ++ p :: B ∧ (Table.of A).AddPanics p := by
  have hr : ∀ A, (Table.of A).rows = (Table.of (literalLed A)).rows := fun A => by rw [table_literals]
  constructor
  · rintro ⟨A, p, B, rfl, h⟩
    refine ⟨literalLed A, p, literalLed B, ?_, (addPanics_rows (hr A) p).mp h⟩
    obtain ⟨l, rest, e, _⟩ := h
    unfold literalLed
    rw [List.filter_append, List.filter_cons_of_pos (by rw [e])]
  · rintro ⟨A, p, B, e, h⟩
    unfold literalLed at e
    obtain ⟨A', B', e1, e0, e2⟩ := List.filter_eq_append_iff.mp e
    obtain ⟨C, D, e3, hC, hp, _⟩ := List.filter_eq_cons_iff.mp e2
    refine ⟨A' ++ C, p, D, by rw [e1, e3]; simp, (addPanics_rows ?_ p).mpr h⟩
    rw [hr (A' ++ C)]
    unfold literalLed
    rw [List.filter_append, List.filter_eq_nil_iff.mpr hC, List.append_nil, e0]

theorem proper_literals {sip : Bytes → UInt64} {ps : List Pattern} (h : Proper sip ps) : Proper sip (literalLed ps) :=
  proper_sub h fun _ hp => (List.mem_filter.mp hp).1

theorem proper_parsers {sip : Bytes → UInt64} {ps : List Pattern} (h : Proper sip ps) : Proper sip (parserLed ps) :=
  proper_sub h fun _ hp => (List.mem_filter.mp hp).1

theorem both_build {sip : Bytes → UInt64} {ps : List Pattern} (h : Proper sip ps) :
    ((∃ t, SuffixTree.build sip ps = .ok t) ∧ ∃ t, SuffixTree.build sip (literalLed ps) = .ok t) ∨
    SuffixTree.build sip ps = .error .slice ∧ SuffixTree.build sip (literalLed ps) = .error .slice := by
  have hl := proper_literals h
  have b1 := C96_build_panics_iff sip ps h.utf8 h.nonempty h.split
  have b2 := C96_build_panics_iff sip _ hl.utf8 hl.nonempty hl.split
  by_cases g : ∃ A p B, ps = A ++ p :: B ∧ (Table.of A).AddPanics p
  · exact .inr ⟨b1.1 g, b2.1 ((stuck_iff ps).mp g)⟩
  · exact .inl ⟨b1.2 fun A p B e k => g ⟨A, p, B, e, k⟩, b2.2 fun A p B e k => g ((stuck_iff ps).mpr ⟨A, p, B, e, k⟩)⟩

/-- The outcome is that of the table. -/
theorem outcome_table {sip : Bytes → UInt64} {ps qs : List Pattern} (hps : Proper sip ps) (hqs : Proper sip qs) {t t' : SuffixTree}
    (hb : SuffixTree.build sip ps = .ok t) (hb' : SuffixTree.build sip qs = .ok t') {x : Bytes} (hx : Utf8 x)
    (hp : (Table.of ps).Panics x ↔ (Table.of qs).Panics x) (ha : ∀ r, (Table.of ps).Answer x r → (Table.of qs).Answer x r) : t.parse x = t'.parse x := by
  have h1 := C66_panics_iff sip ps hps.utf8 hps.nonempty hps.split hps.hashes t hb x hx
  have h2 := C66_panics_iff sip qs hqs.utf8 hqs.nonempty hqs.split hqs.hashes t' hb' x hx
  by_cases g : (Table.of ps).Panics x
  · rw [h1.1 g, h2.1 (hp.mp g)]
  · obtain ⟨r, e, hr⟩ := h1.2 g
    obtain ⟨r', e', hr'⟩ := h2.2 fun k => g (hp.mpr k)
    rw [e, e', C65_answer_unique _ _ r r' (ha r hr) hr']

theorem firstPanics_nil {x : Bytes} : ¬ FirstPanics [] x := by
  rintro h
  unfold FirstPanics at h
  obtain ⟨A, p, B, e, _⟩ := h
  simp at e

end Led
open Led

/-- C146: the order between the patterns that begin with a literal and those that begin with a parser does not matter, for any history: if the two groups,
each in its order, are the same, then every text has the same outcome. -/
theorem C146_order (sip : Bytes → UInt64) (ps qs : List Pattern) (hps : Proper sip ps) (hqs : Proper sip qs) (hl : literalLed ps = literalLed qs)
    (hp : parserLed ps = parserLed qs) (text : Bytes) (hx : Utf8 text) :
    (SuffixTree.build sip ps >>= fun t => t.parse text) = (SuffixTree.build sip qs >>= fun t => t.parse text) := by
  have ht : Table.of ps = Table.of qs := by rw [table_led ps, table_led qs, hl, hp]
  rcases both_build hps with ⟨⟨t, h1⟩, s, h2⟩ | ⟨h1, h2⟩ <;> rcases both_build hqs with ⟨⟨t', h3⟩, s', h4⟩ | ⟨h3, h4⟩
  · rw [h1, h3]
    exact outcome_table hps hqs h1 h3 hx (by rw [ht]) (by rw [ht]; exact fun _ h => h)
  · rw [hl, h4] at h2; simp at h2
  · rw [hl, h4] at h2; simp at h2
  · rw [h1, h3]

/-- C146: a text that is answered by the trie of the patterns that begin with literals has the same answer if the others are there, too. -/
theorem C146_literals_first (sip : Bytes → UInt64) (ps : List Pattern) (hps : Proper sip ps) (text : Bytes) (hx : Utf8 text) (r : MatchResult)
    (h : (SuffixTree.build sip (literalLed ps) >>= fun t => t.parse text) = .ok (some r)) :
    (SuffixTree.build sip ps >>= fun t => t.parse text) = .ok (some r) := by
  rcases both_build hps with ⟨⟨t, h1⟩, s, h2⟩ | ⟨h1, h2⟩
  · have hl := proper_literals hps
    rw [h1]
    rw [h2] at h
    have h : s.parse text = .ok (some r) := h
    show t.parse text = _
    rw [← h]
    have k := C66_panics_iff sip _ hl.utf8 hl.nonempty hl.split hl.hashes s h2 text hx
    have ha := C65_table sip _ hl.utf8 hl.nonempty hl.split hl.hashes s h2 text hx _ h
    have hn : ¬ (Table.of (literalLed ps)).Panics text := fun g => by rw [k.1 g] at h; cases h
    rw [table_literals] at ha hn
    have stop : (∀ row ∈ (Table.of ps).rows, row.text ≠ text) → ∀ b, Deepest (Table.of ps).rows text b → b ≠ [] := by
      intro hno b hd e
      obtain ⟨b', hd', g1, _, _⟩ := ha.2 hno
      obtain rfl := deepest_unique hd' hd
      have := (g1 e).2 (by simp)
      cases this
    refine outcome_table hps hl h1 h2 hx ?_ ?_
    · rw [table_literals]
      refine ⟨fun g => ?_, fun g => absurd g hn⟩
      unfold Table.Panics at g ⊢
      rcases g with g | ⟨hno, b, hd, ⟨e, _⟩ | g⟩
      · exact .inl g
      · exact absurd e (stop hno b hd)
      · exact .inr ⟨hno, b, hd, .inr g⟩
    · rintro r ⟨a1, a2⟩
      rw [table_literals]
      refine ⟨a1, fun hno => ?_⟩
      obtain ⟨b, hd, g1, g2, g3⟩ := a2 hno
      exact ⟨b, hd, fun e => absurd e (stop hno b hd), g2, g3⟩
  · rw [h2] at h; cases h

/-- C146, exactly: if the text is not one of the leading literals kept in the table and the search stops at its very beginning, the trie gives the answer of the
trie of the patterns that begin with parsers; in all other cases it gives the answer of the trie of the patterns that begin with literals. -/
theorem C146_exact (sip : Bytes → UInt64) (ps : List Pattern) (hps : Plain sip ps) (text : Bytes) (hx : Ascii text) :
    (((∀ row ∈ (Table.of ps).rows, row.text ≠ text) ∧ Deepest (Table.of ps).rows text []) →
      (SuffixTree.build sip ps >>= fun t => t.parse text) = (SuffixTree.build sip (parserLed ps) >>= fun t => t.parse text)) ∧
    (¬((∀ row ∈ (Table.of ps).rows, row.text ≠ text) ∧ Deepest (Table.of ps).rows text []) →
      (SuffixTree.build sip ps >>= fun t => t.parse text) = (SuffixTree.build sip (literalLed ps) >>= fun t => t.parse text)) := by
  have sub : ∀ qs : List Pattern, (∀ p ∈ qs, p ∈ ps) → ∃ r, (SuffixTree.build sip qs >>= fun t => t.parse text) = .ok r ∧ (Table.of qs).Answer text r := by
    intro qs hq
    have h := plain_sub hps hq
    exact C65_table_ascii sip qs h.ascii h.nonempty h.split h.hashes text hx
  obtain ⟨r, e, hr⟩ := sub ps fun _ h => h
  obtain ⟨r1, e1, hr1⟩ := sub (literalLed ps) fun _ h => (List.mem_filter.mp h).1
  obtain ⟨r2, e2, hr2⟩ := sub (parserLed ps) fun _ h => (List.mem_filter.mp h).1
  rw [table_literals] at hr1
  rw [table_parsers] at hr2
  rw [e, e1, e2]
  constructor
  · rintro ⟨hno, hd⟩
    congr 1
    refine C65_answer_unique _ _ r r2 ⟨by simp, fun _ => ⟨[], ⟨.inl rfl, by simp, ?_⟩, fun _ => ?_, by simp, by simp⟩⟩ hr2
    · rintro b (rfl | ⟨_, g, _⟩ | ⟨_, g, _⟩) _
      · simp
      · cases g
      · cases g
    · obtain ⟨b, hd', g, _⟩ := hr.2 hno
      obtain rfl := deepest_unique hd' hd
      exact g rfl
  · intro hn
    congr 1
    refine C65_answer_unique ⟨(Table.of ps).rows, []⟩ _ r r1 ⟨hr.1, fun hno => ?_⟩ hr1
    obtain ⟨b, hd, g1, g2, g3⟩ := hr.2 hno
    refine ⟨b, hd, fun hb => ?_, g2, g3⟩
    subst hb
    exact absurd ⟨hno, hd⟩ hn

/-- C146: the patterns that begin with parsers are asked at most if the others do not answer. -/
theorem C146_fallback (sip : Bytes → UInt64) (ps : List Pattern) (hps : Plain sip ps) (text : Bytes) (hx : Ascii text)
    (h : (SuffixTree.build sip (literalLed ps) >>= fun t => t.parse text) = .ok none) :
    (SuffixTree.build sip ps >>= fun t => t.parse text) = .ok none ∨
      (SuffixTree.build sip ps >>= fun t => t.parse text) = (SuffixTree.build sip (parserLed ps) >>= fun t => t.parse text) := by
  have g := C146_exact sip ps hps text hx
  by_cases k : (∀ row ∈ (Table.of ps).rows, row.text ≠ text) ∧ Deepest (Table.of ps).rows text []
  · exact .inr (g.1 k)
  · exact .inl (by rw [g.2 k, h])

/-- C146: they are asked if no pattern begins with the first character of the text. -/
theorem C146_first_character (sip : Bytes → UInt64) (ps : List Pattern) (hps : Plain sip ps) (c : UInt8) (rest : Bytes) (hx : Ascii (c :: rest))
    (hno : ∀ p ∈ ps, ∀ l, p.pattern.head? ≠ some (.literal (c :: l))) :
    (SuffixTree.build sip ps >>= fun t => t.parse (c :: rest)) = (SuffixTree.build sip (parserLed ps) >>= fun t => t.parse (c :: rest)) := by
  refine (C146_exact sip ps hps (c :: rest) hx).1 ⟨fun row hr e => ?_, .inl rfl, by simp, fun b hb hp => ?_⟩
  · obtain ⟨p, hp, h⟩ := table_texts ps row hr
    exact hno p hp rest (by rw [h, e])
  · cases b with
    | nil => simp
    | cons d b =>
      obtain ⟨rfl, _⟩ := List.cons_prefix_cons.mp hp
      have bad : ∀ row ∈ (Table.of ps).rows, ¬ d :: b <+: row.text := by
        rintro row hr ⟨y, e⟩
        obtain ⟨p, hp, h⟩ := table_texts ps row hr
        exact hno p hp (b ++ y) (by rw [h, ← e]; rfl)
      rcases hb with hb | ⟨row, hr, e, _⟩ | ⟨row, hr, _, _, _, hc⟩
      · cases hb
      · exact absurd (by rw [e]; exact List.prefix_refl _) (bad row hr)
      · exact absurd hc.1 (bad row hr)

namespace Led

theorem leads_literals {ps : List Pattern} {l : Bytes} : Leads (literalLed ps) l ↔ Leads ps l := by
  constructor
  · rintro ⟨p, hp, e⟩
    exact ⟨p, (List.mem_filter.mp hp).1, e⟩
  · rintro ⟨p, hp, e⟩
    refine ⟨p, List.mem_filter.mpr ⟨hp, ?_⟩, e⟩
    cases g : p.pattern with
    | nil => rw [g] at e; simp at e
    | cons t rest =>
      rw [g] at e
      simp only [List.head?_cons, Option.some.injEq] at e
      subst e
      rfl

theorem chosen_literals {ps : List Pattern} {x l : Bytes} : Chosen (literalLed ps) x l ↔ Chosen ps x l := by
  unfold Chosen
  simp only [leads_literals]

theorem literal_kind {ps : List Pattern} (l : Bytes) :
    (∀ p ∈ ps, p.pattern = [.literal l] → (match p.pattern with | .literal _ :: _ => true | _ => false) = true) ∧
    ∀ p ∈ ps, (∃ rest, rest ≠ [] ∧ p.pattern = .literal l :: rest) → (match p.pattern with | .literal _ :: _ => true | _ => false) = true :=
  ⟨fun _ _ e => by rw [e], fun _ _ ⟨_, _, e⟩ => by rw [e]⟩

end Led

/-- C146, suffix array: as soon as one pattern begins with a literal, the patterns that begin with parsers do not count at all. -/
theorem C146_suffix_array (sip : Bytes → UInt64) (ps : List Pattern) (hu : ∀ p ∈ ps, Utf8Lits p) (hcol : NoCollision sip ps) (hne : literalLed ps ≠ [])
    (text : Bytes) (hx : Utf8 text) :
    (SuffixTable.build sip ps >>= fun t => t.parse text) = (SuffixTable.build sip (literalLed ps) >>= fun t => t.parse text) := by
  have hs : ∀ p ∈ literalLed ps, p ∈ ps := fun p h => (List.mem_filter.mp h).1
  have hu' : ∀ p ∈ literalLed ps, Utf8Lits p := fun p h => hu p (hs p h)
  have g := C74_panics_iff sip ps hu hcol text hx
  have g' := C74_panics_iff sip _ hu' (noCollision_sub hcol hs) text hx
  obtain ⟨l0, h0⟩ : ∃ l, Leads ps l := by
    obtain ⟨p, hp⟩ := List.exists_mem_of_ne_nil _ hne
    obtain ⟨h1, h2⟩ := List.mem_filter.mp hp
    cases e : p.pattern with
    | nil => rw [e] at h2; simp at h2
    | cons t rest =>
      cases t with
      | literal l => exact ⟨l, p, h1, by rw [e]; rfl⟩
      | parser a => rw [e] at h2; simp at h2
  obtain ⟨l, hl, _⟩ := C73_chosen ps hu text hx ⟨l0, h0⟩
  have hl' := chosen_literals.mpr hl
  obtain ⟨k1, k2⟩ := literal_kind (ps := ps) l
  have w1 : ∀ {p}, LastWith (literalLed ps) (· = [.literal l]) p ↔ LastWith ps (· = [.literal l]) p := Together.lastWith_part k1
  have w2 : ∀ {p}, LastWith (literalLed ps) (fun toks => ∃ rest, rest ≠ [] ∧ toks = .literal l :: rest) p ↔
      LastWith ps (fun toks => ∃ rest, rest ≠ [] ∧ toks = .literal l :: rest) p := Together.lastWith_part k2
  have htr : SuffixTrouble (literalLed ps) text ↔ SuffixTrouble ps text := by
    constructor
    · rintro (⟨hno, _⟩ | ⟨l', h1, h2, p, h3, h4⟩)
      · exact absurd hl'.1 (hno _)
      · obtain rfl := chosen_unique h1 hl'
        exact .inr ⟨_, hl, h2, p, w2.mp h3, h4⟩
    · rintro (⟨hno, _⟩ | ⟨l', h1, h2, p, h3, h4⟩)
      · exact absurd hl.1 (hno _)
      · obtain rfl := chosen_unique h1 hl
        exact .inr ⟨_, hl', h2, p, w2.mpr h3, h4⟩
  by_cases ht : SuffixTrouble ps text
  · rw [g.1 ht, g'.1 (htr.mpr ht)]
  · obtain ⟨r, e, hr⟩ := g.2 ht
    obtain ⟨r', e', hr'⟩ := g'.2 (fun h => ht (htr.mp h))
    rw [e, e']
    congr 1
    refine C73_answer_unique _ hu' text hx _ _ ⟨fun hno => absurd hl'.1 (hno _), fun l' h => ?_⟩ hr'
    obtain rfl := chosen_unique h hl'
    obtain ⟨a1, a2⟩ := hr.2 _ hl
    refine ⟨fun hpre => ⟨fun p h => (a1 hpre).1 p (w1.mp h), fun hno => (a1 hpre).2 fun p h e => ?_⟩,
      fun hpre => ⟨fun p h => (a2 hpre).1 p (w2.mp h), fun hno => (a2 hpre).2 fun p h rest hr e => ?_⟩⟩
    · exact hno p (List.mem_filter.mpr ⟨h, k1 p h e⟩) e
    · exact hno p (List.mem_filter.mpr ⟨h, k2 p h ⟨rest, hr, e⟩⟩) rest hr e

/-- C146: there is no way back: `a%{INT:x}` does not match `ab`, but keeps the trie from asking `%{GREEDY:y}`, which alone would answer. -/
theorem C146_no_way_back_counts : ∃ ps : List Pattern, Plain Samples.sip ps ∧
    (SuffixTree.build Samples.sip ps >>= fun t => t.parse b!"ab") = .ok none ∧
    ∃ r, (SuffixTree.build Samples.sip (parserLed ps) >>= fun t => t.parse b!"ab") = .ok (some r) := by
  refine ⟨[Samples.pat 1 [.parser (Samples.greedy b!"y" none)], Samples.pat 2 [.literal b!"a", .parser (Samples.int b!"x")]], ⟨?_, ?_, ?_, ?_⟩, by decide +kernel,
    { pattern := Samples.pat 1 [], values := [(b!"y", b!"ab")] }, by decide +kernel⟩
  · intro p hp l hl
    simp at hp
    rcases hp with rfl | rfl <;> simp [Samples.pat] at hl
    subst hl
    decide
  · intro p hp l hl
    simp at hp
    rcases hp with rfl | rfl <;> simp [Samples.pat] at hl
    subst hl
    decide
  · intro p hp l rest e l'
    simp at hp
    rcases hp with rfl | rfl <;> simp [Samples.pat] at e
    rw [← e.2]
    simp
  · rintro a b ⟨p, hp, e⟩ ⟨q, hq, e'⟩ _
    simp at hp hq
    rcases hp with rfl | rfl <;> simp [Samples.pat] at e
    rcases hq with rfl | rfl <;> simp [Samples.pat] at e'
    rw [← e, ← e']

/-! The patterns of `orderSample_plain`: two orders with the same groups, a text answered by a literal, and one that asks the parsers. -/

def ledSample : List Pattern := [orderSample1, orderSample2, orderSample3, orderSample4]

example : (literalLed ledSample).length = 3 ∧ (parserLed ledSample).length = 1 := by decide +kernel

example (text : Bytes) (hx : Utf8 text) : (SuffixTree.build Samples.sip ledSample >>= fun t => t.parse text) =
    (SuffixTree.build Samples.sip (parserLed ledSample ++ literalLed ledSample) >>= fun t => t.parse text) :=
  C146_order Samples.sip _ _ orderSample_plain.proper (proper_sub orderSample_plain.proper fun p hp => by
    rcases List.mem_append.mp hp with h | h <;> exact (List.mem_filter.mp h).1) (by decide +kernel) (by decide +kernel) text hx

example : (SuffixTree.build Samples.sip ledSample >>= fun t => t.parse b!"7") = (SuffixTree.build Samples.sip (parserLed ledSample) >>= fun t => t.parse b!"7") :=
  C146_first_character Samples.sip _ orderSample_plain 55 [] (by decide) (by
    intro p hp l
    simp only [ledSample, List.mem_cons, List.not_mem_nil, or_false] at hp
    rcases hp with rfl | rfl | rfl | rfl <;> simp [orderSample1, orderSample2, orderSample3, orderSample4, Samples.pat] <;> decide)

example : (SuffixTree.build Samples.sip ledSample >>= fun t => t.parse b!"xy7") = .ok (some { pattern := Samples.pat 2 [], values := [(b!"x", b!"7")] }) :=
  C146_literals_first Samples.sip _ orderSample_plain.proper _ (ascii_utf8 (by decide)) _ (by decide +kernel)

example : (SuffixTable.build Samples.sip ledSample >>= fun t => t.parse b!"7") = (SuffixTable.build Samples.sip (literalLed ledSample) >>= fun t => t.parse b!"7") :=
  C146_suffix_array Samples.sip _ orderSample_plain.proper.utf8 orderSample_plain.hashes (by decide +kernel) _ (ascii_utf8 (by decide))

end Verif
