import Verif.Props.C101_Again
import Verif.Props.C75_C76_Panics
/-! C102: the trie's answer for a text depends only on the patterns that begin with a parser or with the text's first character. -/
namespace Verif
open Spec

/-- The pattern begins with a parser, or with a literal whose first byte is `c`. -/
def Spec.Concerns (c : UInt8) (p : Pattern) : Bool :=
  match p.pattern with
  | .literal l :: _ => decide (l.head? = some c)
  | _ => true

/-- The rows whose texts begin with the byte. -/
def localRows (c : UInt8) (rows : List Row) : List Row := rows.filter fun r => decide (r.text.head? = some c)

theorem head_of_prefix {l x : Bytes} {c : UInt8} (hl : l.head? = some c) (h : l <+: x) : x.head? = some c := by
  obtain ⟨t, rfl⟩ := h
  cases l with
  | nil => simp at hl
  | cons b l => simpa using hl

theorem head_prefix_of {l x : Bytes} {c : UInt8} (hl : l ≠ []) (hx : x.head? = some c) (h : l <+: x) : l.head? = some c := by
  obtain ⟨t, rfl⟩ := h
  cases l with
  | nil => exact absurd rfl hl
  | cons b l => simpa using hx

theorem rowOf_local {c : UInt8} {l : Bytes} (hl : l.head? = some c) (rows : List Row) : rowOf (localRows c rows) l = rowOf rows l := by
  unfold rowOf localRows
  congr 1
  induction rows with
  | nil => rfl
  | cons r rows ih =>
    by_cases e : r.text = l
    · have : r.text.head? = some c := e ▸ hl
      rw [List.filter_cons_of_pos (by simpa using this), List.find?_cons_of_pos (by simpa using e), List.find?_cons_of_pos (by simpa using e)]
    · rw [List.find?_cons_of_neg (by simpa using e), ← ih]
      by_cases g : r.text.head? = some c
      · rw [List.filter_cons_of_pos (by simpa using g), List.find?_cons_of_neg (by simpa using e)]
      · rw [List.filter_cons_of_neg (by simpa using g)]

theorem extended_local {c : UInt8} {l : Bytes} (hl : l.head? = some c) (rows : List Row) : Extended (localRows c rows) l ↔ Extended rows l := by
  unfold Extended localRows
  constructor
  · rintro ⟨r, hr, h1, h2⟩; exact ⟨r, (List.mem_filter.mp hr).1, h1, h2⟩
  · rintro ⟨r, hr, h1, h2⟩; exact ⟨r, List.mem_filter.mpr ⟨hr, by simpa using head_of_prefix hl h1⟩, h1, h2⟩

theorem rowOf_text_eq (rows : List Row) (l : Bytes) : (rowOf rows l).text = l := by
  rw [rowOf_rowAt]
  cases h : rowAt rows l with
  | none => rfl
  | some r => exact (rowAt_text h).2

theorem local_filter (c : UInt8) (f : Row → Bool) (rows : List Row) : localRows c (rows.filter f) = (localRows c rows).filter f := by
  unfold localRows
  rw [List.filter_filter, List.filter_filter]
  congr 1
  funext r
  exact Bool.and_comm _ _

theorem local_cons {c : UInt8} {r : Row} (h : r.text.head? = some c) (rows : List Row) : localRows c (r :: rows) = r :: localRows c rows := by
  unfold localRows
  rw [List.filter_cons_of_pos (by simpa using h)]

theorem local_cons_other {c : UInt8} {r : Row} (h : r.text.head? ≠ some c) (rows : List Row) : localRows c (r :: rows) = localRows c rows := by
  unfold localRows
  rw [List.filter_cons_of_neg (by simpa using h)]

theorem add_local {c : UInt8} {l : Bytes} (hl : l.head? = some c) (rows : List Row) (a : Bool) (p : Pattern) :
    localRows c (addLiteralLed rows l a p) = addLiteralLed (localRows c rows) l a p := by
  have ht := rowOf_text_eq rows l
  unfold addLiteralLed
  simp only [rowOf_local hl, extended_local hl]
  split
  · rw [local_cons (by simpa [ht] using hl), local_filter]
  · split
    · rw [local_cons (by simpa [ht] using hl), local_filter]
    · rw [local_cons (by simpa [ht] using hl), local_filter]

theorem add_elsewhere {c : UInt8} {l : Bytes} (hn : l ≠ []) (hl : l.head? ≠ some c) (rows : List Row) (a : Bool) (p : Pattern) :
    localRows c (addLiteralLed rows l a p) = localRows c rows := by
  have ht := rowOf_text_eq rows l
  have hkeep : ∀ f : Row → Bool, (∀ r, r.text.head? = some c → f r = true) → (localRows c rows).filter f = localRows c rows := by
    intro f hf
    rw [List.filter_eq_self]
    intro r hr
    exact hf r (by simpa using (List.mem_filter.mp hr).2)
  have h1 : ∀ r : Row, r.text.head? = some c → decide (r.text ≠ l) = true := by
    intro r hr
    rw [decide_eq_true_eq]
    rintro e
    exact hl (e ▸ hr)
  have h2 : ∀ r : Row, r.text.head? = some c → decide (¬ l <+: r.text) = true := by
    intro r hr
    rw [decide_eq_true_eq]
    intro e
    exact hl (head_prefix_of hn hr e)
  unfold addLiteralLed
  split
  · rw [local_cons_other (by simpa [ht] using hl), local_filter, hkeep _ h1]
  · split
    · rw [local_cons_other (by simpa [ht] using hl), local_filter, hkeep _ h1]
    · rw [local_cons_other (by simpa [ht] using hl), local_filter, hkeep _ h2]

/-- The table of the patterns that concern the texts with the first byte `c`. -/
theorem table_local (c : UInt8) (ps : List Pattern) : ∀ (T : Table) (_ : ∀ p ∈ ps, NonemptyLits p),
    (ps.filter (Concerns c)).foldl Table.add ⟨localRows c T.rows, T.parserLed⟩ =
      ⟨localRows c (ps.foldl Table.add T).rows, (ps.foldl Table.add T).parserLed⟩ := by
  induction ps with
  | nil => intro T _; rfl
  | cons p ps ih =>
    intro T hn
    have ih' := ih (T.add p) (fun q hq => hn q (List.mem_cons_of_mem _ hq))
    rw [List.foldl_cons, ← ih']
    cases e : p.pattern with
    | nil =>
      have hc : Concerns c p = true := by unfold Concerns; rw [e]
      have ha : ∀ T : Table, T.add p = T := by intro T; unfold Table.add; rw [e]
      rw [List.filter_cons_of_pos hc, List.foldl_cons, ha, ha]
    | cons tok rest =>
      cases tok with
      | literal l =>
        have hl : l ≠ [] := hn p (List.mem_cons_self ..) l (by rw [e]; exact List.mem_cons_self ..)
        have ha : ∀ T : Table, T.add p = ⟨addLiteralLed T.rows l rest.isEmpty p, T.parserLed⟩ := by intro T; unfold Table.add; rw [e]
        by_cases g : l.head? = some c
        · have hc : Concerns c p = true := by unfold Concerns; rw [e]; simpa using g
          rw [List.filter_cons_of_pos hc, List.foldl_cons, ha, ha, add_local g]
        · have hc : ¬ Concerns c p = true := by unfold Concerns; rw [e]; simpa using g
          rw [List.filter_cons_of_neg hc, ha, add_elsewhere hl g]
      | parser a =>
        have hc : Concerns c p = true := by unfold Concerns; rw [e]
        have ha : ∀ T : Table, T.add p = ⟨T.rows, addParserLed a p T.parserLed⟩ := by intro T; unfold Table.add; rw [e]
        rw [List.filter_cons_of_pos hc, List.foldl_cons, ha, ha]

theorem table_concerns (c : UInt8) (ps : List Pattern) (hn : ∀ p ∈ ps, NonemptyLits p) :
    Table.of (ps.filter (Concerns c)) = ⟨localRows c (Table.of ps).rows, (Table.of ps).parserLed⟩ :=
  table_local c ps ⟨[], []⟩ hn

theorem mem_local {c : UInt8} {rows : List Row} {r : Row} : r ∈ localRows c rows ↔ r ∈ rows ∧ r.text.head? = some c := by
  unfold localRows
  rw [List.mem_filter]
  simp

theorem stopPoint_local {c : UInt8} {rows : List Row} {x b : Bytes} (hx : x.head? = some c) (hb : b <+: x) :
    StopPoint (localRows c rows) b ↔ StopPoint rows b := by
  unfold StopPoint
  by_cases e : b = []
  · simp [e]
  · have hbc := head_prefix_of e hx hb
    simp only [e, false_or]
    constructor
    · rintro (⟨r, h1, h2⟩ | ⟨r, h1, s, h2, h3⟩)
      · exact .inl ⟨r, (mem_local.mp h1).1, h2⟩
      · exact .inr ⟨r, (mem_local.mp h1).1, s, (mem_local.mp h2).1, h3⟩
    · rintro (⟨r, h1, h2, h3⟩ | ⟨r, h1, s, h2, h3, h4⟩)
      · exact .inl ⟨r, mem_local.mpr ⟨h1, h2 ▸ hbc⟩, h2, h3⟩
      · exact .inr ⟨r, mem_local.mpr ⟨h1, head_of_prefix hbc h4.1⟩, s, mem_local.mpr ⟨h2, head_of_prefix hbc h4.2.1⟩, h3, h4⟩

theorem deepest_local {c : UInt8} {rows : List Row} {x b : Bytes} (hx : x.head? = some c) : Deepest (localRows c rows) x b ↔ Deepest rows x b := by
  unfold Deepest
  constructor
  · rintro ⟨h1, h2, h3⟩
    exact ⟨(stopPoint_local hx h2).mp h1, h2, fun b' hb' hp => h3 b' ((stopPoint_local hx hp).mpr hb') hp⟩
  · rintro ⟨h1, h2, h3⟩
    exact ⟨(stopPoint_local hx h2).mpr h1, h2, fun b' hb' hp => h3 b' ((stopPoint_local hx hp).mp hb') hp⟩

theorem answer_local {c : UInt8} {rows : List Row} {L : List Pattern} {x : Bytes} (hx : x.head? = some c) {r : Option MatchResult}
    (h : (Table.mk (localRows c rows) L).Answer x r) : (Table.mk rows L).Answer x r := by
  obtain ⟨h1, h2⟩ := h
  simp only at h1 h2
  refine ⟨fun row hr ht => h1 row (mem_local.mpr ⟨hr, ht ▸ hx⟩) ht, fun hno => ?_⟩
  obtain ⟨b, hd, g1, g2, g3⟩ := h2 (fun row hr => hno row (mem_local.mp hr).1)
  have hd' := (deepest_local hx).mp hd
  refine ⟨b, hd', g1, ?_, ?_⟩
  · intro hb row hr ht
    exact g2 hb row (mem_local.mpr ⟨hr, ht ▸ head_prefix_of hb hx hd.2.1⟩) ht
  · intro hb hrow
    exact g3 hb (fun row hr => hrow row (mem_local.mp hr).1)

theorem nonAscii_not {c : UInt8} {y : Bytes} (hc : c.toNat < 128) : ¬ NonAsciiFirst (c :: y) := by
  rintro ⟨b, t, e, h⟩
  simp only [List.cons.injEq] at e
  rw [← e.1] at h
  omega

theorem panics_local {c : UInt8} (hc : c.toNat < 128) {rows : List Row} (ha : ∀ r ∈ rows, Ascii r.text) {L : List Pattern} {y : Bytes} :
    (Table.mk (localRows c rows) L).Panics (c :: y) ↔ (Table.mk rows L).Panics (c :: y) := by
  have hx : (c :: y).head? = some c := rfl
  have hrows : ∀ r ∈ rows, ∀ b z, r.text = b ++ z → ¬ NonAsciiFirst z := by
    rintro r hr b z e ⟨d, t, rfl, h⟩
    have := ha r hr d (by rw [e]; simp)
    omega
  have hlook : LookupPanics (localRows c rows) (c :: y) ↔ LookupPanics rows (c :: y) := by
    unfold LookupPanics
    constructor
    · rintro ⟨b, z, h1, h2, h3, ⟨r, hr, h4⟩, h5⟩
      refine ⟨b, z, h1, h2, (stopPoint_local hx ⟨z, h1.symm⟩).mp h3, ⟨r, (mem_local.mp hr).1, h4⟩, ?_⟩
      rcases h5 with h5 | ⟨s, hs, w, e, h5⟩
      · exact .inl h5
      · exact absurd h5 (hrows s (mem_local.mp hs).1 b w e)
    · rintro ⟨b, z, h1, h2, h3, h4, h5⟩
      rcases h5 with h5 | ⟨s, hs, w, e, h5⟩
      · have hb : b ≠ [] := by
          rintro rfl
          rw [List.nil_append] at h1
          rw [← h1] at h5
          exact nonAscii_not hc h5
        have hbx : b <+: c :: y := ⟨z, h1.symm⟩
        exact ⟨b, z, h1, h2, (stopPoint_local hx hbx).mpr h3, (extended_local (head_prefix_of hb hx hbx) rows).mpr h4, .inl h5⟩
      · exact absurd h5 (hrows s hs b w e)
  unfold Table.Panics
  simp only [hlook, deepest_local hx]
  refine or_congr_right (and_congr ?_ ?_)
  · constructor
    · intro h row hr ht
      exact h row (mem_local.mpr ⟨hr, ht ▸ hx⟩) ht
    · intro h row hr
      exact h row (mem_local.mp hr).1
  · refine exists_congr (fun b => and_congr_right (fun hd => or_congr_right (and_congr_right (fun hb => ?_))))
    constructor
    · rintro ⟨row, hr, h⟩; exact ⟨row, (mem_local.mp hr).1, h⟩
    · rintro ⟨row, hr, e, h⟩; exact ⟨row, mem_local.mpr ⟨hr, e ▸ head_prefix_of hb hx hd.2.1⟩, e, h⟩

/-- C102: the trie's outcome for a text that begins with an ASCII character is that of the trie built from those patterns only that begin with a parser or
with this character. -/
theorem C102_local (sip : Bytes → UInt64) (ps : List Pattern) (hps : Plain sip ps) (c : UInt8) (hc : c.toNat < 128) (rest : Bytes)
    (hx : Utf8 (c :: rest)) :
    (SuffixTree.build sip ps >>= fun t => t.parse (c :: rest)) =
      (SuffixTree.build sip (ps.filter (Concerns c)) >>= fun t => t.parse (c :: rest)) := by
  have hm : ∀ p ∈ ps.filter (Concerns c), p ∈ ps := fun p hp => (List.mem_filter.mp hp).1
  have hq := proper_sub hps.proper hm
  obtain ⟨t, hb, _⟩ := build_ascii sip ps hps.ascii
  obtain ⟨t', hb', _⟩ := build_ascii sip (ps.filter (Concerns c)) (fun p hp => hps.ascii p (hm p hp))
  rw [hb, hb']
  show t.parse _ = t'.parse _
  have h1 := C66_panics_iff sip ps hps.proper.utf8 hps.nonempty hps.split hps.hashes t hb (c :: rest) hx
  have h2 := C66_panics_iff sip _ hq.utf8 hq.nonempty hq.split hq.hashes t' hb' (c :: rest) hx
  rw [table_concerns c ps hps.nonempty] at h2
  have hrows : ∀ r ∈ (Table.of ps).rows, Ascii r.text := by
    intro r hr
    obtain ⟨p, hp, h⟩ := table_texts ps r hr
    exact hps.ascii p hp _ (List.mem_of_mem_head? h)
  have hpan := panics_local hc hrows (L := (Table.of ps).parserLed) (y := rest)
  by_cases g : (Table.of ps).Panics (c :: rest)
  · rw [h1.1 g, h2.1 (hpan.mpr g)]
  · obtain ⟨r, e, hr⟩ := h1.2 g
    obtain ⟨r', e', hr'⟩ := h2.2 (fun g' => g (hpan.mp g'))
    rw [e, e', C65_answer_unique _ _ r r' hr (answer_local rfl hr')]

/-- C102: so patterns whose literals begin with other characters can be added without any effect on the text, wherever they stand. -/
theorem C102_others_do_not_count (sip : Bytes → UInt64) (ps qs : List Pattern) (hps : Plain sip ps) (hqs : Plain sip qs) (c : UInt8) (hc : c.toNat < 128)
    (h : ps.filter (Concerns c) = qs.filter (Concerns c)) (rest : Bytes) (hx : Utf8 (c :: rest)) :
    (SuffixTree.build sip ps >>= fun t => t.parse (c :: rest)) = (SuffixTree.build sip qs >>= fun t => t.parse (c :: rest)) := by
  rw [C102_local sip ps hps c hc rest hx, C102_local sip qs hqs c hc rest hx, h]

/-! ### Literals in any script -/

theorem lookup_of_local {c : UInt8} {rows : List Row} {x : Bytes} (hx : x.head? = some c) (h : LookupPanics (localRows c rows) x) : LookupPanics rows x := by
  obtain ⟨b, z, h1, h2, h3, ⟨r, hr, h4⟩, h5⟩ := h
  refine ⟨b, z, h1, h2, (stopPoint_local hx ⟨z, h1.symm⟩).mp h3, ⟨r, (mem_local.mp hr).1, h4⟩, ?_⟩
  rcases h5 with h5 | ⟨s, hs, w, e, h5⟩
  · exact .inl h5
  · exact .inr ⟨s, (mem_local.mp hs).1, w, e, h5⟩

theorem panics_of_local {c : UInt8} {rows : List Row} {L : List Pattern} {x : Bytes} (hx : x.head? = some c)
    (h : (Table.mk (localRows c rows) L).Panics x) : (Table.mk rows L).Panics x := by
  unfold Table.Panics at h ⊢
  rcases h with h | ⟨h1, b, hd, h⟩
  · exact .inl (lookup_of_local hx h)
  · refine .inr ⟨fun row hr ht => h1 row (mem_local.mpr ⟨hr, ht ▸ hx⟩) ht, b, (deepest_local hx).mp hd, ?_⟩
    rcases h with h | ⟨hb, row, hr, h⟩
    · exact .inl h
    · exact .inr ⟨hb, row, (mem_local.mp hr).1, h⟩

theorem addPanics_of_local {c : UInt8} {rows : List Row} {L : List Pattern} {p : Pattern} (hp : Concerns c p = true)
    (h : (Table.mk (localRows c rows) L).AddPanics p) : (Table.mk rows L).AddPanics p := by
  obtain ⟨l, rest, e, h⟩ := h
  have hl : l.head? = some c := by
    unfold Concerns at hp
    rw [e] at hp
    exact of_decide_eq_true hp
  refine ⟨l, rest, e, ?_⟩
  rcases h with h | ⟨r, hr, b, y, h1, h2, h3, h4, h5⟩
  · exact .inl (lookup_of_local hl h)
  · exact .inr ⟨r, (mem_local.mp hr).1, b, y, h1, h2, h3, fun g => h4 ((stopPoint_local hl ⟨y, h1.symm⟩).mpr g), h5⟩

/-- C102 for literals in any script and texts with any first byte: whenever adding the patterns and looking up the text does not panic, adding only those patterns
that begin with a parser or with this byte does not panic either, and gives the same answer. -/
theorem C102_local_utf8 (sip : Bytes → UInt64) (ps : List Pattern) (hps : Proper sip ps) (c : UInt8) (rest : Bytes) (hx : Utf8 (c :: rest))
    (r : Option MatchResult) (h : (SuffixTree.build sip ps >>= fun t => t.parse (c :: rest)) = .ok r) :
    (SuffixTree.build sip (ps.filter (Concerns c)) >>= fun t => t.parse (c :: rest)) = .ok r := by
  have hm : ∀ p ∈ ps.filter (Concerns c), p ∈ ps := fun p hp => (List.mem_filter.mp hp).1
  have hq := proper_sub hps hm
  cases hb : SuffixTree.build sip ps with
  | error e => rw [hb] at h; cases h
  | ok t =>
    rw [hb] at h
    have h : t.parse (c :: rest) = .ok r := h
    have hno : ∀ A p B, ps.filter (Concerns c) = A ++ p :: B → ¬ (Table.of A).AddPanics p := by
      intro A p B e g
      obtain ⟨A', B', e1, rfl, e2⟩ := List.filter_eq_append_iff.mp e
      obtain ⟨C, D, e3, hC, hp, _⟩ := List.filter_eq_cons_iff.mp e2
      have hne : ∀ q ∈ A' ++ C, NonemptyLits q := fun q hq => hps.nonempty q (by rw [e1, e3]; simp only [List.mem_append, List.mem_cons] at hq ⊢; rcases hq with hq | hq <;> simp [hq])
      have hA : A'.filter (Concerns c) = (A' ++ C).filter (Concerns c) := by
        rw [List.filter_append, List.filter_eq_nil_iff.mpr hC, List.append_nil]
      rw [hA, table_concerns c _ hne] at g
      have := (C96_build_panics_iff sip ps hps.utf8 hps.nonempty hps.split).1
        ⟨A' ++ C, p, D, by rw [e1, e3]; simp, addPanics_of_local hp g⟩
      rw [hb] at this
      cases this
    obtain ⟨t', hb'⟩ := (C96_build_panics_iff sip _ hq.utf8 hq.nonempty hq.split).2 hno
    rw [hb']
    show t'.parse _ = _
    have h1 := C66_panics_iff sip ps hps.utf8 hps.nonempty hps.split hps.hashes t hb (c :: rest) hx
    have h2 := C66_panics_iff sip _ hq.utf8 hq.nonempty hq.split hq.hashes t' hb' (c :: rest) hx
    rw [table_concerns c ps hps.nonempty] at h2
    obtain ⟨r', e', hr'⟩ := h2.2 (fun g => by
      have := h1.1 (panics_of_local (L := (Table.of ps).parserLed) rfl g)
      rw [h] at this
      cases this)
    have hr := C65_table sip ps hps.utf8 hps.nonempty hps.split hps.hashes t hb (c :: rest) hx r h
    rw [e', C65_answer_unique _ _ r r' hr (answer_local rfl hr')]

/-! The patterns of `orderSample_plain`: for `ab7;` the one that begins with `xy` does not count. -/

example : [orderSample1, orderSample2, orderSample3, orderSample4].filter (Concerns 97) = [orderSample1, orderSample3, orderSample4] := by decide +kernel
example : (SuffixTree.build Samples.sip [orderSample1, orderSample2, orderSample3, orderSample4] >>= fun t => t.parse b!"ab7;") =
    (SuffixTree.build Samples.sip ([orderSample1, orderSample2, orderSample3, orderSample4].filter (Concerns 97)) >>= fun t => t.parse b!"ab7;") :=
  C102_local _ _ orderSample_plain 97 (by decide) b!"b7;" (ascii_utf8 (by decide))

/-- For `xbψ` the pattern that begins with `zα` does not count. -/
example : (SuffixTree.build Samples.sip ((greekSample ++ [Samples.pat 5 [.literal b!"zα"]]).filter (Concerns 120)) >>= fun t => t.parse b!"xbψ") =
    .ok (some { pattern := Samples.pat 2 [], values := [] }) :=
  C102_local_utf8 _ _
    ⟨fun p hp => by
      rcases List.mem_append.mp hp with hp | hp
      · exact greekSample_lits.1 p hp
      · simp at hp
        subst hp
        intro l hl
        simp [Samples.pat] at hl
        subst hl
        exact ⟨"zα".toList, by decide +kernel⟩,
     fun p hp => by
      rcases List.mem_append.mp hp with hp | hp
      · exact greekSample_lits.2.1 p hp
      · simp at hp
        subst hp
        intro l hl
        simp [Samples.pat] at hl
        subst hl
        simp,
     fun p hp => by
      rcases List.mem_append.mp hp with hp | hp
      · exact greekSample_lits.2.2 p hp
      · simp at hp
        subst hp
        intro l rest h l'
        simp [Samples.pat] at h
        obtain ⟨_, rfl⟩ := h
        simp,
     by
      rintro a b ⟨p, hp, ha⟩ ⟨q, hq, hb⟩ h
      simp [greekSample] at hp hq
      rcases hp with rfl | rfl | rfl | rfl | rfl <;> simp [Samples.pat] at ha <;> subst ha <;>
      rcases hq with rfl | rfl | rfl | rfl | rfl <;> simp [Samples.pat] at hb <;> subst hb <;>
      first | rfl | (revert h; decide +kernel)⟩ 120 b!"bψ" ⟨"xbψ".toList, by decide +kernel⟩ _ (by decide +kernel)

/-! In the suffix array they do count: with the pattern `xy%{INT:x}` alone it answers `7` by this pattern. -/

/-- C102 is false of the suffix array: a pattern that begins with another character takes part. -/
theorem C102_not_in_suffix_array : ¬ ∀ (sip : Bytes → UInt64) (ps : List Pattern), (∀ p ∈ ps, Utf8Lits p) → NoCollision sip ps → ∀ (c : UInt8) (rest : Bytes),
    Utf8 (c :: rest) → (SuffixTable.build sip ps >>= fun t => t.parse (c :: rest)) =
      (SuffixTable.build sip (ps.filter (Concerns c)) >>= fun t => t.parse (c :: rest)) := by
  intro h
  have hsub : ∀ p ∈ [orderSample2, orderSample4], p ∈ [orderSample1, orderSample2, orderSample3, orderSample4] := by simp
  have := h Samples.sip [orderSample2, orderSample4] (fun p hp => asciiLits_utf8 (orderSample_plain.ascii p (hsub p hp)))
    (noCollision_sub orderSample_plain.hashes hsub) 55 [] (ascii_utf8 (by decide))
  revert this
  decide +kernel

end Verif
