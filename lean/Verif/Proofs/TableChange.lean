import Verif.Props.C65_Table
import Verif.Proofs.Family
/-! How the answer for a text changes when a pattern is added to a table. -/
namespace Verif
open Spec

/-- There is one row for each text. -/
def UniqRows (rows : List Row) : Prop := ∀ r ∈ rows, ∀ s ∈ rows, r.text = s.text → r = s

theorem commonStart_symm {a b c : Bytes} (h : CommonStart a b c) : CommonStart b a c := ⟨h.2.1, h.1, fun c' h1 h2 => h.2.2 c' h2 h1⟩

theorem prefix_total {a b x : Bytes} (ha : a <+: x) (hb : b <+: x) (h : a.length ≤ b.length) : a <+: b :=
  List.prefix_of_prefix_length_le ha hb h

theorem prefix_eq {a b : Bytes} (h : a <+: b) (hl : b.length ≤ a.length) : a = b := List.IsPrefix.eq_of_length_le h hl

/-- Two tables whose rows agree as far as the text is concerned, and whose longest stops are the same, have the same answer. -/
theorem answer_same {rows rows' : List Row} {P : List Pattern} {x b : Bytes} {r r' : Option MatchResult} (h : Table.Answer ⟨rows, P⟩ x r)
    (h' : Table.Answer ⟨rows', P⟩ x r') (hx : ∀ row ∈ rows, row.text ≠ x) (hx' : ∀ row ∈ rows', row.text ≠ x) (hb : Deepest rows x b)
    (hb' : Deepest rows' x b)
    (hm : b ≠ [] → ∀ row ∈ rows, row.text = b → ∀ p, row.more = some p → ∃ row' ∈ rows', row'.text = b ∧ row'.more = some p)
    (hm' : b ≠ [] → ∀ row ∈ rows', row.text = b → ∀ p, row.more = some p → ∃ row' ∈ rows, row'.text = b ∧ row'.more = some p) : r' = r := by
  obtain ⟨b1, d1, p1, p2, p3⟩ := h.2 hx
  obtain ⟨b2, d2, q1, q2, q3⟩ := h'.2 hx'
  have e1 := deepest_unique d1 hb
  have e2 := deepest_unique d2 hb'
  subst e2
  subst e1
  by_cases hn : b1 = []
  · exact firstAnswer_unique (q1 hn) (p1 hn)
  · by_cases hr : ∃ row ∈ rows, row.text = b1 ∧ row.more ≠ none
    · obtain ⟨row, h1, h2, h3⟩ := hr
      cases hp : row.more with
      | none => exact absurd hp h3
      | some p =>
        obtain ⟨row', g1, g2, g3⟩ := hm hn row h1 h2 p hp
        exact firstAnswer_unique (q2 hn row' g1 g2 p g3) (p2 hn row h1 h2 p hp)
    · have n1 : ∀ row ∈ rows, row.text = b1 → row.more = none := by
        intro row h1 h2
        cases hp : row.more with
        | none => rfl
        | some p => exact absurd ⟨row, h1, h2, by simp [hp]⟩ hr
      have n2 : ∀ row ∈ rows', row.text = b1 → row.more = none := by
        intro row h1 h2
        cases hp : row.more with
        | none => rfl
        | some p =>
          obtain ⟨row', g1, g2, g3⟩ := hm' hn row h1 h2 p hp
          rw [n1 row' g1 g2] at g3
          simp at g3
      rw [p3 hn n1, q3 hn n2]

/-- The rows after adding a pattern that begins with the literal `l`, seen from a text that does not begin with `l`, or if the addition did not
store a continuing pattern. -/
structure Grown (rows rows' : List Row) (l x : Bytes) : Prop where
  kept : ∀ r ∈ rows, r.text <+: x → r.text ≠ l → r ∈ rows'
  old : ∀ r ∈ rows', r.text ≠ l → r ∈ rows
  more : ∀ r ∈ rows', r.text = l → l <+: x → ∀ p, r.more = some p → ∃ s ∈ rows, s.text = l ∧ s.more = some p
  more' : ∀ r ∈ rows, r.text = l → l <+: x → ∀ p, r.more = some p → ∃ s ∈ rows', s.text = l ∧ s.more = some p
  row : ∃ r ∈ rows', r.text = l
  gone : ∀ r ∈ rows, (∃ s ∈ rows', s.text = r.text) ∨ (l <+: r.text ∧ ¬ l <+: x)

theorem grown_stops {rows rows' : List Row} {l x b : Bytes} (h : Grown rows rows' l x) (hb : StopPoint rows b) (hbx : b <+: x) :
    StopPoint rows' b := by
  rcases hb with rfl | ⟨row, r1, r2, r3⟩ | ⟨r, r1, s, s1, hne, hc⟩
  · exact .inl rfl
  · by_cases e : row.text = l
    · cases hm : row.more with
      | none => exact absurd hm r3
      | some p =>
        obtain ⟨s, s1, s2, s3⟩ := h.more' row r1 e (by rw [← e, r2]; exact hbx) p hm
        exact .inr (.inl ⟨s, s1, by rw [s2, ← e, r2], by simp [s3]⟩)
    · exact .inr (.inl ⟨row, h.kept row r1 (by rw [r2]; exact hbx) e, r2, r3⟩)
  · obtain ⟨rl, l1, l2⟩ := h.row
    -- one of the rows is gone: the row of `l` takes its place
    have swap : ∀ r s : Row, s ∈ rows' → r.text ≠ s.text → CommonStart r.text s.text b → l <+: r.text → ¬ l <+: x → StopPoint rows' b := by
      intro r s s1 hne hc hl hlx
      have hbl : b <+: l := by
        rcases Nat.le_total b.length l.length with hle | hle
        · exact prefix_total hc.1 hl hle
        · exact absurd ((prefix_total hl hc.1 hle).trans hbx) hlx
      have hne' : l ≠ s.text := by
        rintro rfl
        have h1 := hc.2.2 s.text hl (List.prefix_refl _)
        have := prefix_eq hbl h1
        exact hlx (this ▸ hbx)
      exact .inr (.inr ⟨rl, l1, s, s1, by rw [l2]; exact hne', by
        rw [l2]
        exact ⟨hbl, hc.2.1, fun c' h1 h2 => hc.2.2 c' (h1.trans hl) h2⟩⟩)
    rcases h.gone r r1 with ⟨r', h1, h2⟩ | ⟨hr, hlx⟩
    · rcases h.gone s s1 with ⟨s', h3, h4⟩ | ⟨hs, hlx⟩
      · exact .inr (.inr ⟨r', h1, s', h3, by rw [h2, h4]; exact hne, by rw [h2, h4]; exact hc⟩)
      · exact swap s r' h1 (by rw [h2]; exact Ne.symm hne) (by rw [h2]; exact commonStart_symm hc) hs hlx
    · rcases h.gone s s1 with ⟨s', h3, h4⟩ | ⟨hs, _⟩
      · exact swap r s' h3 (by rw [h4]; exact hne) (by rw [h4]; exact hc) hr hlx
      · exact absurd ((prefix_total hr hc.1 (hc.2.2 l hr hs)).trans hbx) hlx

theorem grown_new_stops {rows rows' : List Row} {l x b : Bytes} (h : Grown rows rows' l x) (hb : StopPoint rows' b) (hbx : b <+: x) :
    StopPoint rows b ∨ ∃ s ∈ rows, s.text ≠ l ∧ CommonStart s.text l b := by
  rcases hb with rfl | ⟨row, r1, r2, r3⟩ | ⟨r, r1, s, s1, hne, hc⟩
  · exact .inl (.inl rfl)
  · by_cases e : row.text = l
    · cases hm : row.more with
      | none => exact absurd hm r3
      | some p =>
        obtain ⟨s, s1, s2, s3⟩ := h.more row r1 e (by rw [← e, r2]; exact hbx) p hm
        exact .inl (.inr (.inl ⟨s, s1, by rw [s2, ← e, r2], by simp [s3]⟩))
    · exact .inl (.inr (.inl ⟨row, h.old row r1 e, r2, r3⟩))
  · by_cases er : r.text = l
    · have es : s.text ≠ l := fun e => hne (by rw [er, e])
      exact .inr ⟨s, h.old s s1 es, es, by rw [← er]; exact commonStart_symm hc⟩
    · by_cases es : s.text = l
      · exact .inr ⟨r, h.old r r1 er, er, by rw [← es]; exact hc⟩
      · exact .inl (.inr (.inr ⟨r, h.old r r1 er, s, h.old s s1 es, hne, hc⟩))

/-- The answer stays, or it becomes "no match" because the text begins with a point where `l` parts from an older leading literal. -/
theorem grown_answer {rows rows' : List Row} {P : List Pattern} {l x : Bytes} (hg : Grown rows rows' l x) (hxl : x ≠ l)
    {r r' : Option MatchResult} (h : Table.Answer ⟨rows, P⟩ x r) (h' : Table.Answer ⟨rows', P⟩ x r') :
    r' = r ∨ (r' = none ∧ ∃ s ∈ rows, s.text ≠ l ∧ ∃ c, c ≠ [] ∧ c <+: x ∧ CommonStart s.text l c) := by
  by_cases hrow : ∃ row ∈ rows, row.text = x
  · obtain ⟨row, r1, r2⟩ := hrow
    have := hg.kept row r1 (by rw [r2]; exact List.prefix_refl _) (by rw [r2]; exact hxl)
    left
    rw [h.1 row r1 r2, h'.1 row this r2]
  · have hno : ∀ row ∈ rows, row.text ≠ x := fun row h1 h2 => hrow ⟨row, h1, h2⟩
    have hno' : ∀ row ∈ rows', row.text ≠ x := fun row h1 h2 => hno row (hg.old row h1 (by rw [h2]; exact hxl)) h2
    obtain ⟨b, d, _⟩ := id (h.2 hno)
    obtain ⟨b', d', _, q2, q3⟩ := id (h'.2 hno')
    have hle := d'.2.2 b (grown_stops hg d.1 d.2.1) d.2.1
    have hold : StopPoint rows b' → r' = r := by
      intro hs
      have : b' = b := by
        have := d.2.2 b' hs d'.2.1
        exact prefix_eq (prefix_total d'.2.1 d.2.1 this) hle
      subst this
      refine answer_same h h' hno hno' d d' ?_ ?_
      · intro _ row r1 r2 p hp
        by_cases e : row.text = l
        · obtain ⟨s, s1, s2, s3⟩ := hg.more' row r1 e (by rw [← e, r2]; exact d.2.1) p hp
          exact ⟨s, s1, by rw [s2, ← e, r2], s3⟩
        · exact ⟨row, hg.kept row r1 (by rw [r2]; exact d.2.1) e, r2, hp⟩
      · intro _ row r1 r2 p hp
        by_cases e : row.text = l
        · obtain ⟨s, s1, s2, s3⟩ := hg.more row r1 e (by rw [← e, r2]; exact d.2.1) p hp
          exact ⟨s, s1, by rw [s2, ← e, r2], s3⟩
        · exact ⟨row, hg.old row r1 e, r2, hp⟩
    by_cases hs : StopPoint rows b'
    · exact .inl (hold hs)
    · rcases grown_new_stops hg d'.1 d'.2.1 with h1 | ⟨s, s1, s2, s3⟩
      · exact absurd h1 hs
      · right
        have hne : b' ≠ [] := fun e => hs (.inl e)
        refine ⟨q3 hne ?_, s, s1, s2, b', hne, d'.2.1, s3⟩
        intro row r1 r2
        cases hp : row.more with
        | none => rfl
        | some p =>
          exfalso
          apply hs
          by_cases e : row.text = l
          · obtain ⟨s, s1, s2, s3⟩ := hg.more row r1 e (by rw [← e, r2]; exact d'.2.1) p hp
            exact .inr (.inl ⟨s, s1, by rw [s2, ← e, r2], by simp [s3]⟩)
          · exact .inr (.inl ⟨row, hg.old row r1 e, r2, by simp [hp]⟩)

theorem rowOf_mem {rows : List Row} (hu : UniqRows rows) {r : Row} (hr : r ∈ rows) : rowOf rows r.text = r := by
  rcases rowOf_cases rows r.text with h1 | ⟨_, h1⟩
  · exact hu _ h1 _ hr (rowOf_text _ _)
  · exact absurd rfl (h1 r hr)

/-- Replacing the row of `l` by one with the same continuing pattern. -/
theorem grown_replace {rows : List Row} (hu : UniqRows rows) {l x : Bytes} (row : Row) (ht : row.text = l) (hm : row.more = (rowOf rows l).more) :
    Grown rows (row :: rows.filter fun r => decide (r.text ≠ l)) l x := by
  refine ⟨?_, ?_, ?_, ?_, ⟨row, by simp, ht⟩, ?_⟩
  · intro r r1 _ e; simp [r1, e]
  · intro r r1 e
    rcases List.mem_cons.mp r1 with rfl | r1
    · exact absurd ht e
    · simp at r1; exact r1.1
  · intro r r1 e _ p hp
    rcases List.mem_cons.mp r1 with rfl | r1
    · rw [hm] at hp
      rcases rowOf_cases rows l with h1 | ⟨h1, _⟩
      · exact ⟨_, h1, rowOf_text _ _, hp⟩
      · rw [h1] at hp; simp at hp
    · simp at r1; exact absurd e r1.2
  · intro r r1 e _ p hp
    refine ⟨row, by simp, ht, ?_⟩
    rw [hm, ← e, rowOf_mem hu r1, hp]
  · intro r r1
    left
    by_cases e : r.text = l
    · exact ⟨row, by simp, by rw [ht, e]⟩
    · exact ⟨r, by simp [r1, e], rfl⟩

/-- Storing a continuing pattern, seen from a text that does not begin with `l`. -/
theorem grown_store {rows : List Row} {l x : Bytes} (row : Row) (ht : row.text = l) (hx : ¬ l <+: x) :
    Grown rows (row :: rows.filter fun r => decide (¬ l <+: r.text)) l x := by
  refine ⟨?_, ?_, fun _ _ _ h => absurd h hx, fun _ _ _ h => absurd h hx, ⟨row, by simp, ht⟩, ?_⟩
  · intro r r1 r2 _
    refine List.mem_cons_of_mem _ ?_
    simp only [List.mem_filter, decide_eq_true_eq]
    exact ⟨r1, fun h => hx (h.trans r2)⟩
  · intro r r1 e
    rcases List.mem_cons.mp r1 with rfl | r1
    · exact absurd ht e
    · exact (List.mem_filter.mp r1).1
  · intro r r1
    by_cases e : l <+: r.text
    · exact .inr ⟨e, hx⟩
    · refine .inl ⟨r, List.mem_cons_of_mem _ ?_, rfl⟩
      simp only [List.mem_filter, decide_eq_true_eq]
      exact ⟨r1, e⟩

theorem addLiteralLed_cases (rows : List Row) (l : Bytes) (alone : Bool) (q : Pattern) :
    (∃ row : Row, row.text = l ∧ row.more = (rowOf rows l).more ∧ row.whole = (if alone then some q else (rowOf rows l).whole) ∧
      addLiteralLed rows l alone q = row :: rows.filter fun r => decide (r.text ≠ l)) ∨
    (alone = false ∧ addLiteralLed rows l alone q = { rowOf rows l with more := some q } :: rows.filter fun r => decide (¬ l <+: r.text)) := by
  unfold addLiteralLed
  split
  · exact .inl ⟨{ rowOf rows l with whole := some q }, rowOf_text rows l, rfl, rfl, rfl⟩
  · split
    · exact .inl ⟨_, rowOf_text rows l, rfl, rfl, rfl⟩
    · rename_i h _
      exact .inr ⟨by simpa using h, rfl⟩

theorem uniqRows_add {rows : List Row} (hu : UniqRows rows) (l : Bytes) (alone : Bool) (q : Pattern) : UniqRows (addLiteralLed rows l alone q) := by
  have key : ∀ (row : Row) (f : Row → Bool), row.text = l → (∀ r, f r = true → r.text ≠ l) → UniqRows (row :: rows.filter f) := by
    intro row f ht hf r hr s hs e
    rcases List.mem_cons.mp hr with rfl | hr
    · rcases List.mem_cons.mp hs with rfl | hs
      · rfl
      · exact absurd (by rw [← e, ht]) (hf s (List.mem_filter.mp hs).2)
    · rcases List.mem_cons.mp hs with rfl | hs
      · rename_i hr'
        exact absurd (by rw [e, ht]) (hf r (List.mem_filter.mp hr').2)
      · exact hu r (List.mem_filter.mp hr).1 s (List.mem_filter.mp hs).1 e
  rcases addLiteralLed_cases rows l alone q with ⟨row, h1, _, _, h2⟩ | ⟨_, h2⟩
  · rw [h2]; exact key _ _ h1 (by intro r h; simpa using h)
  · rw [h2]
    refine key _ _ (rowOf_text rows l) ?_
    intro r h e
    simp only [decide_eq_true_eq] at h
    exact h (e ▸ List.prefix_refl _)

theorem table_snoc (ps : List Pattern) (q : Pattern) : Table.of (ps ++ [q]) = (Table.of ps).add q := by simp [Table.of]

theorem snoc_induction {P : List Pattern → Prop} (h0 : P []) (h1 : ∀ ps q, P ps → P (ps ++ [q])) (ps : List Pattern) : P ps := by
  have key : ∀ ps pre : List Pattern, P pre → P (pre ++ ps) := by
    intro ps
    induction ps with
    | nil => intro pre h; simpa using h
    | cons q ps ih => intro pre h; simpa using ih (pre ++ [q]) (h1 pre q h)
  simpa using key ps [] h0

/-- There is one row for each text, and it is the text of a leading literal. -/
theorem table_rows (ps : List Pattern) : UniqRows (Table.of ps).rows ∧ ∀ r ∈ (Table.of ps).rows, Leading ps r.text := by
  refine snoc_induction (P := fun ps => UniqRows (Table.of ps).rows ∧ ∀ r ∈ (Table.of ps).rows, Leading ps r.text) ?_ ?_ ps
  · exact ⟨by rintro r ⟨⟩, by rintro r ⟨⟩⟩
  · rintro ps q ⟨h1, h2⟩
    rw [table_snoc]
    unfold Table.add
    have hl : ∀ l, Leading ps l → Leading (ps ++ [q]) l := fun l h => leading_snoc.mpr (.inl h)
    split
    · exact ⟨h1, fun r hr => hl _ (h2 r hr)⟩
    · rename_i l rest he
      refine ⟨uniqRows_add h1 _ _ _, ?_⟩
      intro r hr
      have hnew : Leading (ps ++ [q]) l := leading_snoc.mpr (.inr ⟨rest, he⟩)
      simp only at hr
      rcases addLiteralLed_cases (Table.of ps).rows l rest.isEmpty q with ⟨row, t1, _, _, t2⟩ | ⟨_, t2⟩
      · rw [t2] at hr
        rcases List.mem_cons.mp hr with rfl | hr
        · rw [t1]; exact hnew
        · exact hl _ (h2 r (List.mem_filter.mp hr).1)
      · rw [t2] at hr
        rcases List.mem_cons.mp hr with rfl | hr
        · simp only [rowOf_text]; exact hnew
        · exact hl _ (h2 r (List.mem_filter.mp hr).1)
    · exact ⟨h1, fun r hr => hl _ (h2 r hr)⟩

/-- The result is that of the pattern `q` matching the text. -/
def MatchOf (q : Pattern) (x : Bytes) (r : Option MatchResult) : Prop := ∃ res caps, r = some res ∧ MatchesStrict q.pattern x caps ∧ IsResult res q caps

theorem firstAnswer_one {q : Pattern} {x : Bytes} {r : Option MatchResult} (h : FirstAnswer [q] x r) : r = none ∨ MatchOf q x r := by
  by_cases hm : ∃ caps, MatchesStrict q.pattern x caps
  · obtain ⟨caps, hm⟩ := hm
    obtain ⟨res, e, hr⟩ := h.1 [] q [] caps rfl (by simp) hm
    exact .inr ⟨res, caps, e, hm, hr⟩
  · exact .inl (h.2 (by simpa using hm))

/-- Adding a pattern that begins with a literal which the text does not begin with. -/
theorem change_other {rows : List Row} {P : List Pattern} (hu : UniqRows rows) {l x : Bytes} (alone : Bool) (q : Pattern) (hx : ¬ l <+: x)
    {r r' : Option MatchResult} (h : Table.Answer ⟨rows, P⟩ x r) (h' : Table.Answer ⟨addLiteralLed rows l alone q, P⟩ x r') :
    r' = r ∨ (r' = none ∧ ∃ s ∈ rows, s.text ≠ l ∧ ∃ c, c ≠ [] ∧ c <+: x ∧ CommonStart s.text l c) := by
  have hxl : x ≠ l := fun e => hx (e ▸ List.prefix_refl _)
  rcases addLiteralLed_cases rows l alone q with ⟨row, h1, h2, _, h3⟩ | ⟨_, h3⟩
  · rw [h3] at h'
    exact grown_answer (grown_replace hu row h1 h2) hxl h h'
  · rw [h3] at h'
    exact grown_answer (grown_store { rowOf rows l with more := some q } (rowOf_text rows l) hx) hxl h h'

/-- Adding a pattern that begins with a literal which the text begins with. -/
theorem change_own {rows : List Row} {P : List Pattern} (hu : UniqRows rows) {l x : Bytes} {rest : List Token} {q : Pattern}
    (hq : q.pattern = .literal l :: rest) (hl : l ≠ []) (hx : l <+: x)
    {r r' : Option MatchResult} (h : Table.Answer ⟨rows, P⟩ x r) (h' : Table.Answer ⟨addLiteralLed rows l rest.isEmpty q, P⟩ x r') :
    r' = r ∨ r' = none ∨ MatchOf q x r' := by
  by_cases hxl : x = l
  · subst hxl
    rcases addLiteralLed_cases rows x rest.isEmpty q with ⟨row, h1, _, hw, h3⟩ | ⟨ha, h3⟩
    · rw [h3] at h'
      have e := h'.1 row (by simp) h1
      rw [hw] at e
      by_cases ha : rest = []
      · subst ha
        simp at e
        refine .inr (.inr ⟨_, [], e, ?_, ?_⟩)
        · rw [hq]
          have := MatchesStrict.literal x [] [] [] (by simp) .nil
          simpa using this
        · refine ⟨rfl, ?_⟩
          exact ⟨by simp [OrderedMap], fun k v => by simp [capture]⟩
      · rw [if_neg (by simpa using ha)] at e
        rcases rowOf_cases rows x with m | ⟨m, _⟩
        · left; rw [e, h.1 _ m (rowOf_text rows x)]
        · right; left; rw [e, m]; rfl
    · rw [h3] at h'
      have e := h'.1 _ (List.mem_cons_self ..) (rowOf_text rows x)
      simp only at e
      rcases rowOf_cases rows x with m | ⟨m, _⟩
      · left; rw [e, h.1 _ m (rowOf_text rows x)]
      · right; left; rw [e, m]; rfl
  · rcases addLiteralLed_cases rows l rest.isEmpty q with ⟨row, h1, h2, _, h3⟩ | ⟨_, h3⟩
    · rw [h3] at h'
      rcases grown_answer (grown_replace hu row h1 h2) hxl h h' with g | ⟨g, _⟩
      · exact .inl g
      · exact .inr (.inl g)
    · rw [h3] at h'
      have hno : ∀ row ∈ { rowOf rows l with more := some q } :: rows.filter fun r => decide (¬ l <+: r.text), l <+: row.text → row.text = l := by
        intro row r1 r2
        rcases List.mem_cons.mp r1 with rfl | r1
        · exact rowOf_text rows l
        · have := (List.mem_filter.mp r1).2
          simp only [decide_eq_true_eq] at this
          exact absurd r2 this
      obtain ⟨b, ⟨d1, d2, d3⟩, _, p2, _⟩ := h'.2 (fun row r1 r2 => hxl (by rw [← r2]; exact hno row r1 (by rw [r2]; exact hx)))
      have hstop : l.length ≤ b.length := d3 l (.inr (.inl ⟨_, List.mem_cons_self .., rowOf_text rows l, by simp⟩)) hx
      have hlb : l <+: b := prefix_total hx d2 hstop
      have hb : b = l := by
        rcases d1 with rfl | ⟨row, r1, r2, _⟩ | ⟨r, r1, s, s1, hne, hc⟩
        · simpa using hlb
        · rw [← r2]; exact hno row r1 (by rw [r2]; exact hlb)
        · exact absurd ((hno r r1 (hlb.trans hc.1)).trans (hno s s1 (hlb.trans hc.2.1)).symm) hne
      subst hb
      exact .inr (firstAnswer_one (p2 hl _ (List.mem_cons_self ..) (rowOf_text rows b) q rfl))

theorem firstAnswer_cases (ps : List Pattern) (x : Bytes) :
    (∀ p ∈ ps, ¬∃ caps, MatchesStrict p.pattern x caps) ∨
    ∃ A p B caps, ps = A ++ p :: B ∧ (∀ a ∈ A, ¬∃ caps, MatchesStrict a.pattern x caps) ∧ MatchesStrict p.pattern x caps := by
  induction ps with
  | nil => simp
  | cons q ps ih =>
    by_cases hq : ∃ caps, MatchesStrict q.pattern x caps
    · obtain ⟨caps, hq⟩ := hq
      exact .inr ⟨[], q, ps, caps, rfl, by simp, hq⟩
    · rcases ih with h | ⟨A, p, B, caps, h1, h2, h3⟩
      · left
        intro p hp
        rcases List.mem_cons.mp hp with rfl | hp
        · exact hq
        · exact h p hp
      · refine .inr ⟨q :: A, p, B, caps, by simp [h1], ?_, h3⟩
        intro a ha
        rcases List.mem_cons.mp ha with rfl | ha
        · exact hq
        · exact h2 a ha

theorem firstAnswer_cons_match {p : Pattern} {ps : List Pattern} {x : Bytes} {r : Option MatchResult} (h : FirstAnswer (p :: ps) x r)
    (hm : ∃ caps, MatchesStrict p.pattern x caps) : MatchOf p x r := by
  obtain ⟨caps, hm⟩ := hm
  obtain ⟨res, e, hr⟩ := h.1 [] p ps caps rfl (by simp) hm
  exact ⟨res, caps, e, hm, hr⟩

theorem firstAnswer_cons_skip {p : Pattern} {ps : List Pattern} {x : Bytes} {r : Option MatchResult} (h : FirstAnswer (p :: ps) x r)
    (hm : ¬∃ caps, MatchesStrict p.pattern x caps) : FirstAnswer ps x r := by
  refine ⟨?_, ?_⟩
  · intro A q B caps e hA hq
    refine h.1 (p :: A) q B caps (by simp [e]) ?_ hq
    intro a ha
    rcases List.mem_cons.mp ha with rfl | ha
    · exact hm
    · exact hA a ha
  · intro hn
    refine h.2 ?_
    intro a ha
    rcases List.mem_cons.mp ha with rfl | ha
    · exact hm
    · exact hn a ha

theorem firstAnswer_addParserLed {a : Parser} {q : Pattern} {ps : List Pattern} {x : Bytes} {r r' : Option MatchResult} (h : FirstAnswer ps x r)
    (h' : FirstAnswer (addParserLed a q ps) x r') :
    r' = r ∨ MatchOf q x r' ∨ ∃ p ∈ ps, p.pattern.head? = some (.parser a) ∧ MatchOf p x r := by
  induction ps with
  | nil =>
    rw [addParserLed] at h'
    rcases firstAnswer_one h' with e | e
    · left; rw [e, h.2 (by simp)]
    · exact .inr (.inl e)
  | cons p ps ih =>
    rw [addParserLed] at h'
    by_cases hp : p.pattern.head? = some (.parser a)
    · rw [if_pos hp] at h'
      by_cases hm : ∃ caps, MatchesStrict p.pattern x caps
      · exact .inr (.inr ⟨p, by simp, hp, firstAnswer_cons_match h hm⟩)
      · have h1 := firstAnswer_cons_skip h hm
        by_cases hc : p.pattern ≠ [.parser a] ∧ q.pattern = [.parser a]
        · rw [if_pos ⟨hc.2, hc.1⟩] at h'
          exact .inl (firstAnswer_unique (firstAnswer_cons_skip h' hm) h1)
        · rw [if_neg (fun hh => hc ⟨hh.2, hh.1⟩)] at h'
          by_cases hmq : ∃ caps, MatchesStrict q.pattern x caps
          · exact .inr (.inl (firstAnswer_cons_match h' hmq))
          · exact .inl (firstAnswer_unique (firstAnswer_cons_skip h' hmq) h1)
    · rw [if_neg hp] at h'
      by_cases hm : ∃ caps, MatchesStrict p.pattern x caps
      · obtain ⟨caps, hm⟩ := hm
        obtain ⟨res, e, hr⟩ := h.1 [] p ps caps rfl (by simp) hm
        obtain ⟨res', e', hr'⟩ := h'.1 [] p _ caps rfl (by simp) hm
        left; rw [e, e', isResult_unique hr hr']
      · rcases ih (firstAnswer_cons_skip h hm) (firstAnswer_cons_skip h' hm) with g | g | ⟨p', g1, g2⟩
        · exact .inl g
        · exact .inr (.inl g)
        · exact .inr (.inr ⟨p', by simp [g1], g2⟩)

/-- Adding a pattern that begins with a parser. -/
theorem change_parser {rows : List Row} {P : List Pattern} {a : Parser} {q : Pattern} {x : Bytes} {r r' : Option MatchResult}
    (h : Table.Answer ⟨rows, P⟩ x r) (h' : Table.Answer ⟨rows, addParserLed a q P⟩ x r') :
    r' = r ∨ ((∀ row ∈ rows, row.text ≠ x) ∧ (∀ b, StopPoint rows b → b <+: x → b = []) ∧
      (MatchOf q x r' ∨ ∃ p ∈ P, p.pattern.head? = some (.parser a) ∧ MatchOf p x r)) := by
  by_cases hrow : ∃ row ∈ rows, row.text = x
  · obtain ⟨row, r1, r2⟩ := hrow
    left
    rw [h.1 row r1 r2, h'.1 row r1 r2]
  · have hno : ∀ row ∈ rows, row.text ≠ x := fun row h1 h2 => hrow ⟨row, h1, h2⟩
    obtain ⟨b, d, p1, p2, p3⟩ := h.2 hno
    obtain ⟨b', d', q1, q2, q3⟩ := h'.2 hno
    have := deepest_unique d' d
    subst this
    by_cases hn : b' = []
    · rcases firstAnswer_addParserLed (p1 hn) (q1 hn) with g | g
      · exact .inl g
      · refine .inr ⟨hno, ?_, g⟩
        intro c hc hcx
        have := d.2.2 c hc hcx
        rw [hn] at this
        exact List.eq_nil_of_length_eq_zero (by simpa using this)
    · left
      by_cases hr : ∃ row ∈ rows, row.text = b' ∧ row.more ≠ none
      · obtain ⟨row, h1, h2, h3⟩ := hr
        cases hp : row.more with
        | none => exact absurd hp h3
        | some p => exact firstAnswer_unique (q2 hn row h1 h2 p hp) (p2 hn row h1 h2 p hp)
      · have n1 : ∀ row ∈ rows, row.text = b' → row.more = none := by
          intro row h1 h2
          cases hp : row.more with
          | none => rfl
          | some p => exact absurd ⟨row, h1, h2, by simp [hp]⟩ hr
        rw [p3 hn n1, q3 hn n1]

/-- Adding a pattern that begins with a parser no pattern of the list begins with. -/
theorem firstAnswer_addNew {a : Parser} {q : Pattern} {ps : List Pattern} (hnew : ∀ p ∈ ps, p.pattern.head? ≠ some (.parser a)) {x : Bytes}
    {r r' : Option MatchResult} (h : FirstAnswer ps x r) (h' : FirstAnswer (addParserLed a q ps) x r') : r' = r ∨ (r = none ∧ MatchOf q x r') := by
  induction ps with
  | nil =>
    rw [addParserLed] at h'
    have hr := h.2 (by simp)
    rcases firstAnswer_one h' with e | e
    · left; rw [e, hr]
    · exact .inr ⟨hr, e⟩
  | cons p ps ih =>
    rw [addParserLed, if_neg (hnew p (by simp))] at h'
    by_cases hm : ∃ caps, MatchesStrict p.pattern x caps
    · obtain ⟨caps, hm⟩ := hm
      obtain ⟨res, e, hr⟩ := h.1 [] p ps caps rfl (by simp) hm
      obtain ⟨res', e', hr'⟩ := h'.1 [] p _ caps rfl (by simp) hm
      left; rw [e, e', isResult_unique hr hr']
    · exact ih (fun p' hp' => hnew p' (by simp [hp'])) (firstAnswer_cons_skip h hm) (firstAnswer_cons_skip h' hm)

theorem change_new_parser {rows : List Row} {P : List Pattern} {a : Parser} {q : Pattern} (hnew : ∀ p ∈ P, p.pattern.head? ≠ some (.parser a))
    {x : Bytes} {r r' : Option MatchResult} (h : Table.Answer ⟨rows, P⟩ x r) (h' : Table.Answer ⟨rows, addParserLed a q P⟩ x r') :
    r' = r ∨ (r = none ∧ MatchOf q x r') := by
  rcases change_parser h h' with g | ⟨hno, hstop, _⟩
  · exact .inl g
  · obtain ⟨b, d, p1, -, -⟩ := h.2 hno
    obtain ⟨b', d', q1, -, -⟩ := h'.2 hno
    exact firstAnswer_addNew hnew (p1 (hstop b d.1 d.2.1)) (q1 (hstop b' d'.1 d'.2.1))

theorem table_parserLed (ps : List Pattern) : ∀ p ∈ (Table.of ps).parserLed, p ∈ ps := by
  refine snoc_induction (P := fun ps => ∀ p ∈ (Table.of ps).parserLed, p ∈ ps) ?_ ?_ ps
  · rintro p ⟨⟩
  · intro ps q ih p hp
    rw [table_snoc] at hp
    unfold Table.add at hp
    split at hp
    · simp [ih p hp]
    · simp [ih p hp]
    · rcases addParserLed_mem hp with h | h
      · simp [ih p h]
      · simp [h]

end Verif
