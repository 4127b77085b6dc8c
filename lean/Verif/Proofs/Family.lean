import Verif.Proofs.TrieTable
import Verif.Spec.Family
/-! The table of an undisturbed list of patterns. -/
namespace Verif
open Spec

structure Lists (ps : List Pattern) (t : Table) : Prop where
  rows : ∀ row ∈ t.rows, Leading ps row.text ∧ (∀ p, row.whole = some p ↔ Alone ps row.text p) ∧ ∀ p, row.more = some p ↔ Continuing ps row.text p
  all : ∀ l, Leading ps l → ∃ row ∈ t.rows, row.text = l
  parsers : t.parserLed = parserLed ps

theorem rowOf_lists {ps : List Pattern} {t : Table} (h : Lists ps t) (l : Bytes) :
    (rowOf t.rows l).text = l ∧ (∀ p, (rowOf t.rows l).whole = some p ↔ Alone ps l p) ∧ ∀ p, (rowOf t.rows l).more = some p ↔ Continuing ps l p := by
  unfold rowOf
  cases hf : t.rows.find? fun r => decide (r.text = l) with
  | some row =>
    have h1 := List.mem_of_find?_eq_some hf
    have h2 := List.find?_some hf
    simp at h2
    obtain ⟨_, h3, h4⟩ := h.rows row h1
    rw [h2] at h3 h4
    exact ⟨h2, h3, h4⟩
  | none =>
    have hn : ¬ Leading ps l := by
      intro hl
      obtain ⟨row, h1, h2⟩ := h.all l hl
      have := List.find?_eq_none.mp hf row h1
      simp [h2] at this
    refine ⟨rfl, ?_, ?_⟩
    · intro p
      simp only [Option.getD_none, reduceCtorEq, false_iff]
      rintro ⟨h1, h2⟩
      exact hn ⟨p, h1, [], h2⟩
    · intro p
      simp only [Option.getD_none, reduceCtorEq, false_iff]
      rintro ⟨h1, rest, _, h2⟩
      exact hn ⟨p, h1, rest, h2⟩

theorem alone_snoc {ps : List Pattern} {q : Pattern} {l : Bytes} {p : Pattern} :
    Alone (ps ++ [q]) l p ↔ Alone ps l p ∨ (p = q ∧ q.pattern = [.literal l]) := by
  unfold Alone
  simp only [List.mem_append, List.mem_singleton]
  constructor
  · rintro ⟨h | rfl, h2⟩
    · exact .inl ⟨h, h2⟩
    · exact .inr ⟨rfl, h2⟩
  · rintro (⟨h, h2⟩ | ⟨rfl, h2⟩)
    · exact ⟨.inl h, h2⟩
    · exact ⟨.inr rfl, h2⟩

theorem continuing_snoc {ps : List Pattern} {q : Pattern} {l : Bytes} {p : Pattern} :
    Continuing (ps ++ [q]) l p ↔ Continuing ps l p ∨ (p = q ∧ ∃ rest, rest ≠ [] ∧ q.pattern = .literal l :: rest) := by
  unfold Continuing
  simp only [List.mem_append, List.mem_singleton]
  constructor
  · rintro ⟨h | rfl, h2⟩
    · exact .inl ⟨h, h2⟩
    · exact .inr ⟨rfl, h2⟩
  · rintro (⟨h, h2⟩ | ⟨rfl, h2⟩)
    · exact ⟨.inl h, h2⟩
    · exact ⟨.inr rfl, h2⟩

theorem leading_snoc {ps : List Pattern} {q : Pattern} {l : Bytes} :
    Leading (ps ++ [q]) l ↔ Leading ps l ∨ ∃ rest, q.pattern = .literal l :: rest := by
  unfold Leading
  simp [or_and_right, exists_or]

theorem addParserLed_new {a : Parser} {q : Pattern} {ps : List Pattern} (h : ∀ p ∈ ps, p.pattern.head? ≠ some (.parser a)) :
    addParserLed a q ps = ps ++ [q] := by
  induction ps with
  | nil => rfl
  | cons p ps ih =>
    rw [addParserLed, if_neg (h p (by simp)), ih (fun p hp => h p (by simp [hp]))]
    rfl

theorem lists_step {ps : List Pattern} {t : Table} {q : Pattern} (h : Lists ps t)
    (hd : ∀ p ∈ ps, (∀ l rest l' rest', p.pattern = .literal l :: rest → q.pattern = .literal l' :: rest' →
      (l' = l → (rest = [] ↔ rest' ≠ [])) ∧ (rest' ≠ [] → l' <+: l → l' = l)) ∧
      ∀ a rest b rest', p.pattern = .parser a :: rest → q.pattern = .parser b :: rest' → a ≠ b) : Lists (ps ++ [q]) (t.add q) := by
  have hpl : ∀ (q' : Pattern), parserLed (ps ++ [q']) = parserLed ps ++ parserLed [q'] := fun q' => by simp [parserLed]
  unfold Table.add
  split
  · rename_i he
    refine ⟨?_, ?_, ?_⟩
    · intro row hrow
      obtain ⟨h1, h2, h3⟩ := h.rows row hrow
      refine ⟨leading_snoc.mpr (.inl h1), ?_, ?_⟩
      · intro p; rw [h2, alone_snoc]; simp [he]
      · intro p; rw [h3, continuing_snoc]; simp [he]
    · intro l hl
      rcases leading_snoc.mp hl with hl | ⟨rest, hl⟩
      · exact h.all l hl
      · rw [he] at hl; simp at hl
    · rw [hpl, h.parsers]; simp [parserLed, he]
  · rename_i l' rest' he
    obtain ⟨w1, w2, w3⟩ := rowOf_lists h l'
    have hother : ∀ row ∈ t.rows, row.text ≠ l' → Leading (ps ++ [q]) row.text ∧ (∀ p, row.whole = some p ↔ Alone (ps ++ [q]) row.text p) ∧
        ∀ p, row.more = some p ↔ Continuing (ps ++ [q]) row.text p := by
      intro row hrow hne
      obtain ⟨h1, h2, h3⟩ := h.rows row hrow
      refine ⟨leading_snoc.mpr (.inl h1), ?_, ?_⟩
      · intro p; rw [h2, alone_snoc, he]; simp [Ne.symm hne]
      · intro p; rw [h3, continuing_snoc, he]; simp [Ne.symm hne]
    have hpar : t.parserLed = parserLed (ps ++ [q]) := by rw [hpl, h.parsers]; simp [parserLed, he]
    have hall : ∀ (rows : List Row) (row : Row), row ∈ rows → row.text = l' → (∀ r ∈ t.rows, r.text ≠ l' → r ∈ rows) →
        ∀ l, Leading (ps ++ [q]) l → ∃ row ∈ rows, row.text = l := by
      intro rows row m1 m2 m3 l hl
      by_cases e : l = l'
      · exact ⟨row, m1, by rw [m2, e]⟩
      · rcases leading_snoc.mp hl with hl | ⟨rest, hl⟩
        · obtain ⟨r, r1, r2⟩ := h.all l hl
          exact ⟨r, m3 r r1 (by rw [r2]; exact e), r2⟩
        · rw [he] at hl; simp at hl; exact absurd hl.1.symm e
    have hlead : Leading (ps ++ [q]) l' := leading_snoc.mpr (.inr ⟨rest', he⟩)
    by_cases hr : rest' = []
    · subst hr
      have hadd : addLiteralLed t.rows l' ([] : List Token).isEmpty q =
        { rowOf t.rows l' with whole := some q } :: t.rows.filter fun r => decide (r.text ≠ l') := rfl
      rw [hadd]
      refine ⟨?_, ?_, hpar⟩
      · intro row hrow
        rcases List.mem_cons.mp hrow with rfl | hrow
        · simp only [w1]
          refine ⟨hlead, ?_, ?_⟩
          · intro p
            rw [alone_snoc]
            constructor
            · intro e; simp at e; subst e; exact .inr ⟨rfl, he⟩
            · rintro (⟨m, e⟩ | ⟨rfl, _⟩)
              · have := ((hd p m).1 l' [] l' [] e he).1 rfl
                simp at this
              · rfl
          · intro p; rw [w3, continuing_snoc, he]; simp
        · simp at hrow; exact hother row hrow.1 hrow.2
      · exact hall _ _ (List.mem_cons_self ..) w1 (fun r r1 r2 => List.mem_cons_of_mem _ (by simp [r1, r2]))
    · have hnoext : ¬ Extended t.rows l' := by
        rintro ⟨row, r1, r2, r3⟩
        obtain ⟨⟨p, p1, rest, p2⟩, _⟩ := h.rows row r1
        exact r3 (((hd p p1).1 _ _ _ _ p2 he).2 hr r2).symm
      have hadd : addLiteralLed t.rows l' rest'.isEmpty q =
          { rowOf t.rows l' with more := some q } :: t.rows.filter fun r => decide (¬ l' <+: r.text) := by
        unfold addLiteralLed
        rw [if_neg (by simpa using hr), if_neg (fun hh => hnoext hh.2)]
      rw [hadd]
      refine ⟨?_, ?_, hpar⟩
      · intro row hrow
        rcases List.mem_cons.mp hrow with rfl | hrow
        · simp only [w1]
          refine ⟨hlead, ?_, ?_⟩
          · intro p; rw [w2, alone_snoc, he]; simp [hr]
          · intro p
            rw [continuing_snoc]
            constructor
            · intro e; simp at e; subst e; exact .inr ⟨rfl, rest', hr, he⟩
            · rintro (⟨m, rest, e1, e⟩ | ⟨rfl, _⟩)
              · exact absurd ((((hd p m).1 l' rest l' rest' e he).1 rfl).mpr hr) e1
              · rfl
        · simp at hrow
          exact hother row hrow.1 (fun e => hrow.2 (e ▸ List.prefix_refl _))
      · refine hall _ _ (List.mem_cons_self ..) w1 (fun r r1 r2 => List.mem_cons_of_mem _ ?_)
        simp only [List.mem_filter, decide_eq_true_eq]
        exact ⟨r1, fun e => hnoext ⟨r, r1, e, r2⟩⟩
  · rename_i a rest he
    refine ⟨?_, ?_, ?_⟩
    · intro row hrow
      obtain ⟨h1, h2, h3⟩ := h.rows row hrow
      refine ⟨leading_snoc.mpr (.inl h1), ?_, ?_⟩
      · intro p; rw [h2, alone_snoc]; simp [he]
      · intro p; rw [h3, continuing_snoc]; simp [he]
    · intro l hl
      rcases leading_snoc.mp hl with hl | ⟨rest, hl⟩
      · exact h.all l hl
      · rw [he] at hl; simp at hl
    · show addParserLed a q t.parserLed = _
      rw [h.parsers, addParserLed_new, hpl]
      · simp [parserLed, he]
      · intro p hp e
        have hm : p ∈ ps := by unfold parserLed at hp; exact (List.mem_filter.mp hp).1
        cases hpp : p.pattern with
        | nil => rw [hpp] at e; simp at e
        | cons tok r =>
          rw [hpp] at e; simp at e; subst e
          exact (hd p hm).2 a r a rest hpp he rfl

theorem lists_fold {ps pre : List Pattern} {t : Table} (h : Lists pre t) (hd : Undisturbed (pre ++ ps)) : Lists (pre ++ ps) (ps.foldl Table.add t) := by
  induction ps generalizing pre t with
  | nil => simpa using h
  | cons q ps ih =>
    have := ih (pre := pre ++ [q]) (t := t.add q) (lists_step h (fun p hp => (List.pairwise_append.mp hd).2.2 p hp q (by simp)))
      (by simpa using hd)
    simpa using this

theorem lists_of {ps : List Pattern} (hd : Undisturbed ps) : Lists ps (Table.of ps) := by
  have := lists_fold (ps := ps) (pre := []) (t := ⟨[], []⟩) ⟨by simp, by rintro l ⟨p, hp, _⟩; simp at hp, rfl⟩ (by simpa using hd)
  exact this

theorem stop_iff {ps : List Pattern} {t : Table} (h : Lists ps t) (b : Bytes) : StopPoint t.rows b ↔ FamilyStop ps b := by
  unfold StopPoint FamilyStop
  constructor
  · rintro (h0 | ⟨row, h1, rfl, h3⟩ | ⟨r, h1, s, h2, h3, h4⟩)
    · exact .inl h0
    · cases hm : row.more with
      | none => exact absurd hm h3
      | some p => exact .inr (.inl ⟨p, ((h.rows row h1).2.2 p).mp hm⟩)
    · exact .inr (.inr ⟨_, _, (h.rows r h1).1, (h.rows s h2).1, h3, h4⟩)
  · rintro (h0 | ⟨p, hp⟩ | ⟨l, l', h1, h2, h3, h4⟩)
    · exact .inl h0
    · obtain ⟨m, rest, _, e⟩ := id hp
      obtain ⟨row, r1, rfl⟩ := h.all b ⟨p, m, rest, e⟩
      exact .inr (.inl ⟨row, r1, rfl, by rw [((h.rows row r1).2.2 p).mpr hp]; simp⟩)
    · obtain ⟨r, r1, rfl⟩ := h.all l h1
      obtain ⟨s, s1, rfl⟩ := h.all l' h2
      exact .inr (.inr ⟨r, r1, s, s1, h3, h4⟩)

theorem family_answer {ps : List Pattern} {t : Table} (h : Lists ps t) {x : Bytes} {r : Option MatchResult} (ha : t.Answer x r) :
    FamilyAnswer ps x r := by
  refine ⟨?_, ?_, ?_⟩
  · intro p hp
    obtain ⟨row, r1, rfl⟩ := h.all x ⟨p, hp.1, [], hp.2⟩
    rw [ha.1 row r1 rfl, ((h.rows row r1).2.1 p).mpr hp]
    rfl
  · intro hl hn
    obtain ⟨row, r1, rfl⟩ := h.all x hl
    rw [ha.1 row r1 rfl]
    cases hw : row.whole with
    | none => rfl
    | some p => exact absurd (((h.rows row r1).2.1 p).mp hw) (hn p)
  · intro hl
    obtain ⟨b, ⟨d1, d2, d3⟩, p1, p2, p3⟩ := ha.2 (fun row r1 r2 => hl (r2 ▸ (h.rows row r1).1))
    refine ⟨b, (stop_iff h b).mp d1, d2, fun b' hb' => d3 b' ((stop_iff h b').mpr hb'), ?_, ?_, ?_⟩
    · rw [← h.parsers]; exact p1
    · intro hb p hp
      obtain ⟨m, rest, _, e⟩ := id hp
      obtain ⟨row, r1, rfl⟩ := h.all b ⟨p, m, rest, e⟩
      exact p2 hb row r1 rfl p (((h.rows row r1).2.2 p).mpr hp)
    · intro hb hn
      refine p3 hb ?_
      rintro row r1 rfl
      cases hw : row.more with
      | none => rfl
      | some p => exact absurd (((h.rows row r1).2.2 p).mp hw) (hn p)

end Verif
