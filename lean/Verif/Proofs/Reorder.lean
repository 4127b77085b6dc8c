import Verif.Spec.Independent
import Verif.Proofs.TableAnswer
/-! Additions whose order does not matter. -/
namespace Verif
open Spec

/-- A step can be moved over steps that it commutes with. -/
theorem move_front {α S : Type} (step : S → α → S) (R : S → S → Prop) (hrefl : ∀ s, R s s) (htrans : ∀ s t u, R s t → R t u → R s u)
    (hcongr : ∀ s s' a, R s s' → R (step s a) (step s' a)) (p : α) (A : List α)
    (hcomm : ∀ a ∈ A, ∀ s, R (step (step s p) a) (step (step s a) p)) :
    ∀ s s', R s s' → R (A.foldl step (step s p)) (step (A.foldl step s') p) := by
  have hfold : ∀ (A : List α) s s', R s s' → R (A.foldl step s) (A.foldl step s') := by
    intro A
    induction A with
    | nil => exact fun _ _ h => h
    | cons a A ih => exact fun s s' h => ih _ _ (hcongr s s' a h)
  induction A with
  | nil => exact fun s s' h => hcongr s s' p h
  | cons a A ih =>
    intro s s' h
    have h1 := hfold A _ _ (hcomm a (by simp) s)
    have h2 := ih (fun b hb => hcomm b (by simp [hb])) (step s a) (step s' a) (hcongr s s' a h)
    exact htrans _ _ _ h1 h2

/-- Two lists with the same steps in which steps that do not commute stand in the same order lead to the same state. -/
theorem reorder {S : Type} (D : Pattern → Pattern → Prop) (step : S → Pattern → S) (R : S → S → Prop) (hrefl : ∀ s, R s s)
    (htrans : ∀ s t u, R s t → R t u → R s u) (hcongr : ∀ s s' a, R s s' → R (step s a) (step s' a))
    (hcomm : ∀ p a, ¬ D p a → ∀ s, R (step (step s p) a) (step (step s a) p)) :
    ∀ ps qs, SameOrder D ps qs → ∀ s s', R s s' → R (ps.foldl step s) (qs.foldl step s') := by
  have hfold : ∀ (A : List Pattern) s s', R s s' → R (A.foldl step s) (A.foldl step s') := by
    intro A
    induction A with
    | nil => exact fun _ _ h => h
    | cons a A ih => exact fun s s' h => ih _ _ (hcongr s s' a h)
  intro ps
  induction ps with
  | nil =>
    intro qs h s s' hs
    rw [List.nil_perm.mp h.1]
    exact hs
  | cons p ps ih =>
    intro qs h s s' hs
    obtain ⟨A, B, rfl, hA⟩ := List.eq_append_cons_of_mem (h.1.mem_iff.mp List.mem_cons_self)
    have key : ∀ u v : Pattern, (u = p ∨ v = p) → D u v → A.filter (fun s => decide (s = u ∨ s = v)) = [] := by
      intro u v huv hd
      have e := h.2 u v hd
      rw [List.filter_cons_of_pos (by simp; rcases huv with rfl | rfl <;> simp), List.filter_append] at e
      cases hf : A.filter (fun s => decide (s = u ∨ s = v)) with
      | nil => rfl
      | cons w W =>
        rw [hf] at e
        simp at e
        have : w ∈ A.filter (fun s => decide (s = u ∨ s = v)) := by rw [hf]; simp
        exact absurd (e.1 ▸ (List.mem_filter.mp this).1) hA
    have hnot : ∀ a ∈ A, ¬ D p a := by
      intro a ha hd
      have := key p a (.inl rfl) hd
      have hm : a ∈ A.filter (fun s => decide (s = p ∨ s = a)) := List.mem_filter.mpr ⟨ha, by simp⟩
      rw [this] at hm
      simp at hm
    have hrest : SameOrder D ps (A ++ B) := by
      refine ⟨(h.1.trans List.perm_middle).cons_inv, ?_⟩
      intro u v hd
      have e := h.2 u v hd
      by_cases huv : u = p ∨ v = p
      · have hp : (p = u ∨ p = v) := by rcases huv with rfl | rfl <;> simp
        rw [List.filter_append, key u v huv hd] at e ⊢
        simp only [List.filter_cons, decide_eq_true hp, if_true] at e
        simpa using e
      · have hp : ¬ (p = u ∨ p = v) := by
          rintro (rfl | rfl)
          · exact huv (.inl rfl)
          · exact huv (.inr rfl)
        rw [List.filter_append] at e ⊢
        simp only [List.filter_cons, decide_eq_false hp] at e
        simpa using e
    have h1 := ih (A ++ B) hrest (step s p) (step s p) (hrefl _)
    have h2 := hfold B _ _ (move_front step R hrefl htrans hcongr p A (fun a ha s => hcomm p a (hnot a ha) s) s s' hs)
    rw [List.foldl_append] at h1
    rw [List.foldl_append]
    exact htrans _ _ _ h1 h2

/-! ### The rows of a table -/

/-- The row of a text. -/
def rowAt (rows : List Row) (x : Bytes) : Option Row := rows.find? fun r => decide (r.text = x)

theorem rowAt_text {rows : List Row} {x : Bytes} {r : Row} (h : rowAt rows x = some r) : r ∈ rows ∧ r.text = x :=
  ⟨List.mem_of_find?_eq_some h, by simpa using List.find?_some h⟩

theorem rowAt_none {rows : List Row} {x : Bytes} : rowAt rows x = none ↔ ∀ r ∈ rows, r.text ≠ x := by
  simp [rowAt]

theorem rowAt_mem {rows : List Row} (hu : UniqRows rows) {r : Row} : r ∈ rows ↔ rowAt rows r.text = some r := by
  constructor
  · intro h
    cases hf : rowAt rows r.text with
    | none => exact absurd rfl (rowAt_none.mp hf r h)
    | some s =>
      obtain ⟨h1, h2⟩ := rowAt_text hf
      rw [hu s h1 r h h2]
  · exact fun h => (rowAt_text h).1

theorem rowOf_rowAt (rows : List Row) (l : Bytes) : rowOf rows l = (rowAt rows l).getD ⟨l, none, none⟩ := rfl

theorem extended_rowAt {rows : List Row} {l : Bytes} : Extended rows l ↔ ∃ x, l <+: x ∧ x ≠ l ∧ rowAt rows x ≠ none := by
  constructor
  · rintro ⟨r, h1, h2, h3⟩
    exact ⟨r.text, h2, h3, fun e => rowAt_none.mp e r h1 rfl⟩
  · rintro ⟨x, h1, h2, h3⟩
    cases hf : rowAt rows x with
    | none => exact absurd hf h3
    | some r =>
      obtain ⟨h4, rfl⟩ := rowAt_text hf
      exact ⟨r, h4, h1, h2⟩

theorem find_filter_cons (rows : List Row) (row : Row) (f : Row → Bool) (x : Bytes) (g : Bytes → Bool) (hf : ∀ r, f r = g r.text) :
    rowAt (row :: rows.filter f) x = if x = row.text then some row else if g x then rowAt rows x else none := by
  unfold rowAt
  by_cases e : x = row.text
  · simp [e]
  · rw [List.find?_cons_of_neg (by simpa using Ne.symm e), if_neg e, List.find?_filter]
    by_cases hg : g x = true
    · rw [if_pos hg]
      congr 1
      funext r
      by_cases e : r.text = x
      · simp [e, hf, hg]
      · simp [e]
    · rw [if_neg hg, List.find?_eq_none]
      intro r _
      by_cases e : r.text = x
      · simp [e, hf, hg]
      · simp [e]

/-- The rows after an addition. -/
theorem rowAt_add (rows : List Row) (l : Bytes) (alone : Bool) (p : Pattern) (x : Bytes) :
    rowAt (addLiteralLed rows l alone p) x =
      if x = l then some (if alone then { rowOf rows l with whole := some p }
        else if (rowOf rows l).more = none ∧ Extended rows l then rowOf rows l else { rowOf rows l with more := some p })
      else if alone = false ∧ ¬((rowOf rows l).more = none ∧ Extended rows l) ∧ l <+: x then none
      else rowAt rows x := by
  have ht := rowOf_text rows l
  unfold addLiteralLed
  split
  · rename_i ha
    rw [find_filter_cons rows _ _ x (fun t => decide (t ≠ l)) (fun r => rfl)]
    simp only [ht, ha]
    by_cases e : x = l <;> simp [e]
  · rename_i ha
    have ha' : alone = false := by simpa using ha
    split
    · rename_i hc
      rw [find_filter_cons rows _ _ x (fun t => decide (t ≠ l)) (fun r => rfl)]
      simp only [ht, ha', hc]
      by_cases e : x = l <;> simp [e]
    · rename_i hc
      rw [find_filter_cons rows _ _ x (fun t => decide (¬ l <+: t)) (fun r => rfl)]
      simp only [ht, ha', hc]
      by_cases e : x = l
      · simp [e]
      · by_cases e2 : l <+: x <;> simp [e, e2]

/-- Two lists of rows with the same row for each text. -/
def SameRows (rows rows' : List Row) : Prop := ∀ x, rowAt rows x = rowAt rows' x

theorem sameRows_rowOf {rows rows' : List Row} (h : SameRows rows rows') (l : Bytes) : rowOf rows l = rowOf rows' l := by
  rw [rowOf_rowAt, rowOf_rowAt, h l]

theorem sameRows_extended {rows rows' : List Row} (h : SameRows rows rows') (l : Bytes) : Extended rows l ↔ Extended rows' l := by
  rw [extended_rowAt, extended_rowAt]
  simp only [h _]

theorem sameRows_add {rows rows' : List Row} (h : SameRows rows rows') (l : Bytes) (alone : Bool) (p : Pattern) :
    SameRows (addLiteralLed rows l alone p) (addLiteralLed rows' l alone p) := by
  intro x
  rw [rowAt_add, rowAt_add]
  simp only [sameRows_rowOf h, sameRows_extended h, h x]

theorem rowOf_add_other {rows : List Row} {l l' : Bytes} {a : Bool} (hn : l ≠ l') (ha : l <+: l' → a = true) (p : Pattern) :
    rowOf (addLiteralLed rows l a p) l' = rowOf rows l' := by
  rw [rowOf_rowAt, rowOf_rowAt, rowAt_add, if_neg (Ne.symm hn), if_neg]
  rintro ⟨h1, _, h2⟩
  simp [ha h2] at h1

theorem extended_add_other {rows : List Row} {l l' : Bytes} {a : Bool} (ha : l <+: l' → a = true) (hp : ¬ l' <+: l) (p : Pattern) :
    Extended (addLiteralLed rows l a p) l' ↔ Extended rows l' := by
  rw [extended_rowAt, extended_rowAt]
  have key : ∀ x, l' <+: x → rowAt (addLiteralLed rows l a p) x = rowAt rows x := by
    intro x hx
    rw [rowAt_add, if_neg (fun e : x = l => hp (e ▸ hx)), if_neg]
    rintro ⟨h1, _, h2⟩
    rcases Nat.le_total l.length l'.length with hl | hl
    · simp [ha (prefix_total h2 hx hl)] at h1
    · exact hp (prefix_total hx h2 hl)
  constructor
  · rintro ⟨x, h1, h2, h3⟩; exact ⟨x, h1, h2, by rwa [← key x h1]⟩
  · rintro ⟨x, h1, h2, h3⟩; exact ⟨x, h1, h2, by rwa [key x h1]⟩

/-- Additions for different literals commute, unless the shorter one begins the longer one and the pattern goes on after it. -/
theorem sameRows_commute_other (rows : List Row) {l l' : Bytes} {a a' : Bool} (hn : l ≠ l') (ha : l <+: l' → a = true) (ha' : l' <+: l → a' = true)
    (p q : Pattern) : SameRows (addLiteralLed (addLiteralLed rows l a p) l' a' q) (addLiteralLed (addLiteralLed rows l' a' q) l a p) := by
  have hr1 := rowOf_add_other (rows := rows) hn ha p
  have hr2 := rowOf_add_other (rows := rows) (Ne.symm hn) ha' q
  have he1 : a' = false → (Extended (addLiteralLed rows l a p) l' ↔ Extended rows l') := fun h =>
    extended_add_other ha (fun hp => by simp [ha' hp] at h) p
  have he2 : a = false → (Extended (addLiteralLed rows l' a' q) l ↔ Extended rows l) := fun h =>
    extended_add_other ha' (fun hp => by simp [ha hp] at h) q
  intro x
  simp only [rowAt_add, hr1, hr2]
  by_cases h1 : x = l
  · subst h1
    simp only [if_neg hn, if_true]
    rw [if_neg (by rintro ⟨h1, _, h2⟩; simp [ha' h2] at h1)]
    cases a with
    | true => simp
    | false => simp only [he2 rfl]
  · by_cases h2 : x = l'
    · subst h2
      have hneg : ¬(a = false ∧ ¬((rowOf rows l).more = none ∧ Extended (addLiteralLed rows x a' q) l) ∧ l <+: x) := by
        rintro ⟨h1, _, h2⟩
        simp [ha h2] at h1
      rw [if_pos rfl, if_neg (Ne.symm hn), if_neg hneg, if_pos rfl]
      cases a' with
      | true => simp
      | false => simp only [he1 rfl]
    · simp only [h1, h2, if_false]
      have e1 : (a' = false ∧ ¬((rowOf rows l').more = none ∧ Extended (addLiteralLed rows l a p) l') ∧ l' <+: x) ↔
          (a' = false ∧ ¬((rowOf rows l').more = none ∧ Extended rows l') ∧ l' <+: x) := by
        constructor
        · rintro ⟨e, h⟩; exact ⟨e, by rwa [he1 e] at h⟩
        · rintro ⟨e, h⟩; exact ⟨e, by rwa [he1 e]⟩
      have e2 : (a = false ∧ ¬((rowOf rows l).more = none ∧ Extended (addLiteralLed rows l' a' q) l) ∧ l <+: x) ↔
          (a = false ∧ ¬((rowOf rows l).more = none ∧ Extended rows l) ∧ l <+: x) := by
        constructor
        · rintro ⟨e, h⟩; exact ⟨e, by rwa [he2 e] at h⟩
        · rintro ⟨e, h⟩; exact ⟨e, by rwa [he2 e]⟩
      simp only [e1, e2]
      split <;> split <;> rfl

/-- Storing the literal alone commutes with storing a pattern that goes on after the same literal. -/
theorem sameRows_commute_own (rows : List Row) (l : Bytes) (p q : Pattern) :
    SameRows (addLiteralLed (addLiteralLed rows l true p) l false q) (addLiteralLed (addLiteralLed rows l false q) l true p) := by
  have ht := rowOf_text rows l
  have hr1 : rowOf (addLiteralLed rows l true p) l = { rowOf rows l with whole := some p } := by
    rw [rowOf_rowAt, rowAt_add]; simp
  have he1 : Extended (addLiteralLed rows l true p) l ↔ Extended rows l := by
    rw [extended_rowAt, extended_rowAt]
    have key : ∀ x, x ≠ l → rowAt (addLiteralLed rows l true p) x = rowAt rows x := by
      intro x hx
      rw [rowAt_add, if_neg hx, if_neg (by simp)]
    constructor
    · rintro ⟨x, h1, h2, h3⟩; exact ⟨x, h1, h2, by rwa [← key x h2]⟩
    · rintro ⟨x, h1, h2, h3⟩; exact ⟨x, h1, h2, by rwa [key x h2]⟩
  have hr2 : rowOf (addLiteralLed rows l false q) l =
      if (rowOf rows l).more = none ∧ Extended rows l then rowOf rows l else { rowOf rows l with more := some q } := by
    rw [rowOf_rowAt, rowAt_add]; simp
  intro x
  rw [rowAt_add (addLiteralLed rows l true p) l false, rowAt_add (addLiteralLed rows l false q) l true, hr1, hr2]
  simp only [he1]
  by_cases h1 : x = l
  · simp only [h1, if_true]
    by_cases hc : (rowOf rows l).more = none ∧ Extended rows l <;> simp [hc]
  · simp only [h1, if_false]
    rw [rowAt_add, rowAt_add]
    simp [h1]

theorem sameRows_symm {rows rows' : List Row} (h : SameRows rows rows') : SameRows rows' rows := fun x => (h x).symm

/-- Adding patterns that begin with the same parser, one of them the parser alone. -/
theorem addParserLed_own (a : Parser) (p q : Pattern) (hp : p.pattern = [.parser a]) (rest : List Token) (hr : rest ≠ [])
    (hq : q.pattern = .parser a :: rest) (ps : List Pattern) : addParserLed a q (addParserLed a p ps) = addParserLed a p (addParserLed a q ps) := by
  have hqn : q.pattern ≠ [.parser a] := by rw [hq]; simpa using hr
  have hqh : q.pattern.head? = some (.parser a) := by rw [hq]; rfl
  have hph : p.pattern.head? = some (.parser a) := by rw [hp]; rfl
  induction ps with
  | nil =>
    simp only [addParserLed, if_pos hqh, if_pos hph]
    rw [if_neg (fun h => hqn h.1), if_pos ⟨hp, hqn⟩]
  | cons s ps ih =>
    by_cases hs : s.pattern.head? = some (.parser a)
    · have e1 : addParserLed a p (s :: ps) = (if p.pattern = [.parser a] ∧ s.pattern ≠ [.parser a] then s else p) :: ps := by
        rw [addParserLed, if_pos hs]
      have e2 : addParserLed a q (s :: ps) = q :: ps := by
        rw [addParserLed, if_pos hs, if_neg (fun h => hqn h.1)]
      have e3 : addParserLed a p (q :: ps) = q :: ps := by
        rw [addParserLed, if_pos hqh, if_pos ⟨hp, hqn⟩]
      rw [e1, e2, e3, addParserLed, if_pos (by split; exact hs; exact hph), if_neg (fun h => hqn h.1)]
    · simp only [addParserLed, hs, if_false, ih]

/-! ### Tables -/

/-- Tables with the same rows and the same patterns that begin with parsers. -/
def SameTable (T T' : Table) : Prop := SameRows T.rows T'.rows ∧ T.parserLed = T'.parserLed

theorem sameTable_add {T T' : Table} (h : SameTable T T') (p : Pattern) : SameTable (T.add p) (T'.add p) := by
  unfold Table.add
  split
  · exact h
  · exact ⟨sameRows_add h.1 _ _ _, h.2⟩
  · exact ⟨h.1, by simp only [h.2]⟩

theorem sameTable_commute (p q : Pattern) (h : ¬ OrderMatters p q) (T : Table) : SameTable ((T.add p).add q) ((T.add q).add p) := by
  have hrefl : ∀ T, SameTable T T := fun T => ⟨fun _ => rfl, rfl⟩
  cases hp : p.pattern with
  | nil =>
    have e : ∀ T : Table, T.add p = T := by intro T; unfold Table.add; rw [hp]
    rw [e, e]; exact hrefl _
  | cons tp rp =>
    cases hq : q.pattern with
    | nil =>
      have e : ∀ T : Table, T.add q = T := by intro T; unfold Table.add; rw [hq]
      rw [e, e]; exact hrefl _
    | cons tq rq =>
      unfold OrderMatters at h
      rw [hp, hq] at h
      cases tp with
      | literal l =>
        have ep : ∀ T : Table, T.add p = { T with rows := addLiteralLed T.rows l rp.isEmpty p } := by intro T; unfold Table.add; rw [hp]
        cases tq with
        | literal l' =>
          have eq : ∀ T : Table, T.add q = { T with rows := addLiteralLed T.rows l' rq.isEmpty q } := by intro T; unfold Table.add; rw [hq]
          simp only [ep, eq]
          refine ⟨?_, rfl⟩
          simp only at h
          by_cases e : l = l'
          · subst e
            have : ¬(rp = [] ↔ rq = []) := fun hh => h (.inl ⟨rfl, hh⟩)
            by_cases h1 : rp = []
            · subst h1
              have h2 : rq.isEmpty = false := by simpa using this
              rw [h2]
              exact sameRows_commute_own T.rows l p q
            · have h2 : rq = [] := by
                false_or_by_contra
                rename_i h2
                exact this ⟨fun h => absurd h h1, fun h => absurd h h2⟩
              have h3 : rp.isEmpty = false := by simpa using h1
              rw [h3, h2]
              exact sameRows_symm (sameRows_commute_own T.rows l q p)
          · refine sameRows_commute_other T.rows e ?_ ?_ p q
            · intro hl
              false_or_by_contra
              rename_i hr
              exact h (.inr (.inl ⟨hl, e, by simpa using hr⟩))
            · intro hl
              false_or_by_contra
              rename_i hr
              exact h (.inr (.inr ⟨hl, e, by simpa using hr⟩))
        | parser b =>
          have eq : ∀ T : Table, T.add q = { T with parserLed := addParserLed b q T.parserLed } := by intro T; unfold Table.add; rw [hq]
          simp only [ep, eq]
          exact hrefl _
      | parser a =>
        have ep : ∀ T : Table, T.add p = { T with parserLed := addParserLed a p T.parserLed } := by intro T; unfold Table.add; rw [hp]
        cases tq with
        | literal l' =>
          have eq : ∀ T : Table, T.add q = { T with rows := addLiteralLed T.rows l' rq.isEmpty q } := by intro T; unfold Table.add; rw [hq]
          simp only [ep, eq]
          exact hrefl _
        | parser b =>
          have eq : ∀ T : Table, T.add q = { T with parserLed := addParserLed b q T.parserLed } := by intro T; unfold Table.add; rw [hq]
          simp only [ep, eq]
          refine ⟨fun _ => rfl, ?_⟩
          simp only at h
          by_cases e : a = b
          · subst e
            have this : ¬(rp = [] ↔ rq = []) := fun hh => h (fun _ => hh)
            by_cases h1 : rp = []
            · subst h1
              exact addParserLed_own a p q hp rq (by simpa using this) hq T.parserLed
            · have h2 : rq = [] := by
                false_or_by_contra
                rename_i h2
                exact this ⟨fun h => absurd h h1, fun h => absurd h h2⟩
              subst h2
              exact (addParserLed_own a q p hq rp h1 hp T.parserLed).symm
          · exact absurd (fun he => absurd he e) h

theorem sameTable_of {ps qs : List Pattern} (h : SameOrder OrderMatters ps qs) : SameTable (Table.of ps) (Table.of qs) :=
  reorder OrderMatters Table.add SameTable (fun _ => ⟨fun _ => rfl, rfl⟩) (fun _ _ _ h1 h2 => ⟨fun x => (h1.1 x).trans (h2.1 x), h1.2.trans h2.2⟩)
    (fun _ _ a h => sameTable_add h a) sameTable_commute ps qs h _ _ ⟨fun _ => rfl, rfl⟩

/-- Tables with the same rows answer alike. -/
theorem sameTable_answer {T T' : Table} (h : SameTable T T') (hu : UniqRows T.rows) (hu' : UniqRows T'.rows) {x : Bytes} {r : Option MatchResult}
    (ha : T.Answer x r) : T'.Answer x r := by
  have hm : ∀ row, row ∈ T.rows ↔ row ∈ T'.rows := by
    intro row
    rw [rowAt_mem hu, rowAt_mem hu', h.1]
  have hs : ∀ b, StopPoint T.rows b ↔ StopPoint T'.rows b := by
    intro b
    unfold StopPoint
    simp only [hm]
  obtain ⟨h1, h2⟩ := ha
  refine ⟨fun row hr => h1 row ((hm row).mpr hr), ?_⟩
  intro hno
  obtain ⟨b, ⟨d1, d2, d3⟩, b1, b2, b3⟩ := h2 (fun row hr => hno row ((hm row).mp hr))
  refine ⟨b, ⟨(hs b).mp d1, d2, fun b' hb' => d3 b' ((hs b').mpr hb')⟩, ?_, ?_, ?_⟩
  · rw [← h.2]; exact b1
  · exact fun hb row hr => b2 hb row ((hm row).mpr hr)
  · exact fun hb hh => b3 hb (fun row hr => hh row ((hm row).mp hr))

end Verif
