import Verif.Props.C148_Blocked
/-! C149: whether a pattern is found can be checked with two others at a time. -/
namespace Verif
open Spec

namespace Three

theorem add_lead (T : Table) {q : Pattern} {r : Bytes} {rest : List Token} (e : q.pattern = .literal r :: rest) :
    T.add q = ⟨addLiteralLed T.rows r rest.isEmpty q, T.parserLed⟩ := by
  unfold Table.add
  rw [e]

theorem add_par (T : Table) {q : Pattern} {a : Parser} {rest : List Token} (e : q.pattern = .parser a :: rest) :
    T.add q = ⟨T.rows, addParserLed a q T.parserLed⟩ := by
  unfold Table.add
  rw [e]

theorem rowAt_lead (T : Table) {q : Pattern} {r : Bytes} {rest : List Token} (e : q.pattern = .literal r :: rest) : rowAt (T.add q).rows r ≠ none := by
  rw [add_lead T e]
  simp only [rowAt_add]
  simp

/-- Rows of two patterns that are added one after the other. -/
theorem two_rows (T : Table) {q1 q2 : Pattern} {r s : Bytes} {rest1 rest2 : List Token} (e1 : q1.pattern = .literal r :: rest1)
    (e2 : q2.pattern = .literal s :: rest2) (hne : r ≠ s) (hs : rowAt T.rows s = none) :
    rowAt ((T.add q1).add q2).rows r ≠ none ∧ rowAt ((T.add q1).add q2).rows s ≠ none := by
  refine ⟨?_, rowAt_lead _ e2⟩
  have h1 := rowAt_lead T e1
  rw [add_lead _ e2]
  simp only [rowAt_add]
  rw [if_neg hne, if_neg]
  · exact h1
  · rintro ⟨_, h2, h3⟩
    refine h2 ⟨?_, ?_⟩
    · rw [rowOf_rowAt, add_lead T e1]
      simp only [rowAt_add]
      rw [if_neg (Ne.symm hne)]
      split
      · rfl
      · rw [hs]; rfl
    · rw [extended_rowAt]
      exact ⟨r, h3, hne, h1⟩

theorem row_of_at {rows : List Row} {x : Bytes} (h : rowAt rows x ≠ none) : ∃ row ∈ rows, row.text = x := by
  cases e : rowAt rows x with
  | none => exact absurd e h
  | some r => exact ⟨r, rowAt_text e⟩

theorem pair_sublist {α : Type} {L : List α} {a b : α} (ha : a ∈ L) (hb : b ∈ L) (h : a ≠ b) : [a, b].Sublist L ∨ [b, a].Sublist L := by
  obtain ⟨X, Y, rfl⟩ := List.append_of_mem ha
  rcases List.mem_append.mp hb with g | g
  · exact .inr ((List.singleton_sublist.mpr g).append (List.singleton_sublist.mpr (by simp)))
  · rcases List.mem_cons.mp g with g | g
    · exact absurd g.symm h
    · refine .inl (List.Sublist.trans ?_ (List.sublist_append_right X (a :: Y)))
      exact (List.singleton_sublist.mpr g).cons_cons a

/-- Where an answer comes from. -/
theorem origin {T : Table} {x : Bytes} {r : MatchResult} (h : T.Answer x (some r)) :
    (∃ row ∈ T.rows, row.text = x ∧ ∃ q, row.whole = some q ∧ r.pattern.uuid = q.uuid) ∨
    ((∀ row ∈ T.rows, row.text ≠ x) ∧ ∃ b, Deepest T.rows x b ∧
      ((b = [] ∧ ∃ C q D caps, T.parserLed = C ++ q :: D ∧ (∀ c ∈ C, ¬∃ caps, MatchesStrict c.pattern x caps) ∧ MatchesStrict q.pattern x caps ∧
        r.pattern.uuid = q.uuid) ∨
      (b ≠ [] ∧ ∃ row ∈ T.rows, row.text = b ∧ ∃ q, row.more = some q ∧ r.pattern.uuid = q.uuid ∧ ∃ caps, MatchesStrict q.pattern x caps))) := by
  by_cases hx : ∃ row ∈ T.rows, row.text = x
  · obtain ⟨row, h1, h2⟩ := hx
    have := h.1 row h1 h2
    cases hw : row.whole with
    | none => rw [hw] at this; simp at this
    | some p =>
      rw [hw] at this
      simp only [Option.map_some, Option.some.injEq] at this
      exact .inl ⟨row, h1, h2, p, hw, by rw [this]⟩
  · have hno : ∀ row ∈ T.rows, row.text ≠ x := fun row hr e => hx ⟨row, hr, e⟩
    obtain ⟨b, hd, h1, h2, h3⟩ := h.2 hno
    refine .inr ⟨hno, b, hd, ?_⟩
    by_cases hb : b = []
    · rcases firstAnswer_cases T.parserLed x with hn | ⟨A, p, B, caps, e, h4, h5⟩
      · simpa using (h1 hb).2 hn
      · obtain ⟨res, e', hres⟩ := (h1 hb).1 A p B caps e h4 h5
        simp only [Option.some.injEq] at e'
        subst e'
        exact .inl ⟨hb, A, p, B, caps, e, h4, h5, by rw [hres.1]⟩
    · by_cases hr : ∃ row ∈ T.rows, row.text = b ∧ ∃ p, row.more = some p
      · obtain ⟨row, r1, r2, p, r3⟩ := hr
        rcases firstAnswer_one (h2 hb row r1 r2 p r3) with g | ⟨res, caps, e, hstr, hres⟩
        · simp at g
        · simp only [Option.some.injEq] at e
          subst e
          exact .inr ⟨hb, row, r1, r2, p, r3, by rw [hres.1], caps, hstr⟩
      · have := h3 hb (by
          intro row r1 r2
          cases hm : row.more with
          | none => rfl
          | some p => exact absurd ⟨row, r1, r2, p, hm⟩ hr)
        simp at this

/-- `p` is the answer of the table of `qs`. -/
def Gives (qs : List Pattern) (p : Pattern) (x : Bytes) : Prop := ∃ r, (Table.of qs).Answer x (some r) ∧ r.pattern.uuid = p.uuid

/-- The uuids tell the patterns apart. -/
def Apart (ps : List Pattern) : Prop := ∀ p ∈ ps, ∀ q ∈ ps, p.uuid = q.uuid → p = q

theorem gives_whole {qs : List Pattern} {p : Pattern} {x l : Bytes} (hu : Apart qs) (hp : p ∈ qs) (e : p.pattern = [.literal l]) (h : Gives qs p x) :
    x = l ∧ ∃ row ∈ (Table.of qs).rows, row.text = l ∧ row.whole = some p := by
  obtain ⟨r, ha, hr⟩ := h
  rcases origin ha with ⟨row, h1, h2, q, h3, h4⟩ | ⟨_, b, _, ⟨_, C, q, D, caps, h2, _, _, h3⟩ | ⟨_, row, h1, h2, q, h3, h4, _⟩⟩
  · obtain ⟨h5, h6⟩ := table_whole qs row h1 q h3
    obtain rfl := hu q h5 p hp (by rw [← h4, hr])
    rw [e] at h6
    simp at h6
    exact ⟨by rw [← h2, h6], row, h1, h6.symm, h3⟩
  · have h5 : q ∈ (Table.of qs).parserLed := by rw [h2]; simp
    obtain rfl := hu q (table_parserLed qs q h5) p hp (by rw [← h3, hr])
    have hown : OwnHeads (Table.of qs).parserLed := ownHeads_fold qs ⟨[], []⟩ ⟨by simp, .nil⟩
    obtain ⟨a, g⟩ := hown.1 q h5
    rw [e] at g
    simp at g
  · obtain ⟨h5, rest, h6, h7⟩ := rowAt_source qs row h1 q h3
    obtain rfl := hu q h5 p hp (by rw [← h4, hr])
    rw [e] at h7
    simp at h7
    exact absurd h7.2 h6

theorem gives_more {qs : List Pattern} {p : Pattern} {x l : Bytes} (hu : Apart qs) (hp : p ∈ qs) (hg : GoesOn p l) (h : Gives qs p x) :
    (∀ row ∈ (Table.of qs).rows, row.text ≠ x) ∧ Deepest (Table.of qs).rows x l ∧ (rowOf (Table.of qs).rows l).more = some p ∧
      ∃ caps, MatchesStrict p.pattern x caps := by
  obtain ⟨r, ha, hr⟩ := h
  rcases origin ha with ⟨row, h1, h2, q, h3, h4⟩ | ⟨hno, b, hd, ⟨_, C, q, D, caps, h2, _, _, h3⟩ | ⟨_, row, h1, h2, q, h3, h4, hm⟩⟩
  · obtain ⟨h5, h6⟩ := table_whole qs row h1 q h3
    obtain rfl := hu q h5 p hp (by rw [← h4, hr])
    obtain ⟨rest, g1, g2⟩ := hg
    rw [h6] at g2
    simp at g2
    exact absurd g2.2.symm (fun k => g1 k.symm)
  · have h5 : q ∈ (Table.of qs).parserLed := by rw [h2]; simp
    obtain rfl := hu q (table_parserLed qs q h5) p hp (by rw [← h3, hr])
    exact absurd hg (parserLed_source qs q h5 l)
  · obtain ⟨h5, h6⟩ := rowAt_source qs row h1 q h3
    obtain rfl := hu q h5 p hp (by rw [← h4, hr])
    obtain rfl := goesOn_unique h6 hg
    rw [← h2] at hd
    exact ⟨hno, hd, by rw [rowOf_mem (table_rows qs).1 h1, h3], hm⟩

theorem gives_parser {qs : List Pattern} {p : Pattern} {x : Bytes} {a : Parser} {rest : List Token} (hu : Apart qs) (hp : p ∈ qs)
    (e : p.pattern = .parser a :: rest) (h : Gives qs p x) :
    (∀ row ∈ (Table.of qs).rows, row.text ≠ x) ∧ Deepest (Table.of qs).rows x [] ∧
      ∃ C D caps, (Table.of qs).parserLed = C ++ p :: D ∧ (∀ c ∈ C, ¬∃ caps, MatchesStrict c.pattern x caps) ∧ MatchesStrict p.pattern x caps := by
  obtain ⟨r, ha, hr⟩ := h
  rcases origin ha with ⟨row, h1, h2, q, h3, h4⟩ | ⟨hno, b, hd, ⟨hb, C, q, D, caps, h2, h6, h7, h3⟩ | ⟨_, row, h1, h2, q, h3, h4, hm⟩⟩
  · obtain ⟨h5, h6⟩ := table_whole qs row h1 q h3
    obtain rfl := hu q h5 p hp (by rw [← h4, hr])
    rw [e] at h6
    simp at h6
  · have h5 : q ∈ (Table.of qs).parserLed := by rw [h2]; simp
    obtain rfl := hu q (table_parserLed qs q h5) p hp (by rw [← h3, hr])
    subst hb
    exact ⟨hno, hd, C, D, caps, h2, h6, h7⟩
  · obtain ⟨h5, rest, h6, h7⟩ := rowAt_source qs row h1 q h3
    obtain rfl := hu q h5 p hp (by rw [← h4, hr])
    rw [e] at h7
    simp at h7

/-- `p` is the answer in each list of `p` and at most two others. -/
def InThrees (A B : List Pattern) (p : Pattern) (x : Bytes) : Prop :=
  ∀ X Y, X.Sublist A → Y.Sublist B → X.length + Y.length ≤ 2 → Gives (X ++ p :: Y) p x

theorem apart_part {A B X Y : List Pattern} {p : Pattern} (hu : Apart (A ++ p :: B)) (hX : X.Sublist A) (hY : Y.Sublist B) : Apart (X ++ p :: Y) := by
  have hs : ∀ q ∈ X ++ p :: Y, q ∈ A ++ p :: B := (hX.append (hY.cons_cons p)).subset
  exact fun q hq s hs' => hu q (hs q hq) s (hs s hs')

/-! ### Shorter texts whose patterns go on -/

theorem more_unless {T : Table} {l : Bytes} {b : Pattern} (hb : ¬ GoesOn b l) (h : (rowOf T.rows l).more = none) : (rowOf (T.add b).rows l).more = none := by
  unfold Table.add
  split
  · exact h
  · rename_i k rest e
    simp only []
    rw [rowOf_rowAt, rowAt_add]
    by_cases c : l = k
    · subst c
      have hr : rest.isEmpty = true := by
        cases rest with
        | nil => rfl
        | cons t rest => exact absurd ⟨t :: rest, by simp, e⟩ hb
      rw [if_pos rfl]
      simpa [hr] using h
    · rw [if_neg c]
      split
      · rfl
      · rw [← rowOf_rowAt]; exact h
  · exact h

/-- Additions after which a row is still there: none of them is effective for a shorter text. -/
theorem rows_stay {l : Bytes} (Q : Row → Prop) (B0 : List Pattern) (hown : ∀ b ∈ B0, ∀ rest, b.pattern = .literal l :: rest →
      ∀ rows : List Row, Q (rowOf rows l) → Q (rowOf (addLiteralLed rows l rest.isEmpty b) l)) (B : List Pattern) :
    (∀ b ∈ B, b ∈ B0) → ∀ T : Table, (∃ r, rowAt T.rows l = some r ∧ Q r) → (∀ l', l' <+: l → l' ≠ l → (∃ b ∈ B0, GoesOn b l') → (rowOf T.rows l').more = none) →
    ∃ r, rowAt (B.foldl Table.add T).rows l = some r ∧ Q r := by
  induction B with
  | nil => intro _ T h _; exact h
  | cons b B ih =>
    intro hB T h hshort
    have hb0 := hB b (by simp)
    refine ih (fun c hc => hB c (by simp [hc])) (T.add b) ?_ ?_
    · obtain ⟨r, h1, h2⟩ := h
      unfold Table.add
      split
      · exact ⟨r, h1, h2⟩
      · rename_i k rest e
        simp only []
        by_cases c : l = k
        · subst c
          have hq := hown b hb0 rest e T.rows (by rw [rowOf_rowAt, h1]; exact h2)
          rcases Compact.rowOf_held (rows := addLiteralLed T.rows l rest.isEmpty b) (l := l) with g | g
          · exact ⟨_, g, hq⟩
          · have := rowAt_lead T e
            rw [add_lead T e] at this
            exact absurd g.1 this
        · rw [rowAt_add, if_neg c, if_neg]
          · exact ⟨r, h1, h2⟩
          · rintro ⟨g1, g2, g3⟩
            refine g2 ⟨hshort k g3 (Ne.symm c) ⟨b, hb0, rest, by cases rest <;> simp_all, e⟩, ?_⟩
            rw [extended_rowAt]
            exact ⟨l, g3, c, by rw [h1]; simp⟩
      · exact ⟨r, h1, h2⟩
    · intro l' g1 g2 g3
      have hold := hshort l' g1 g2 g3
      by_cases hb : GoesOn b l'
      · obtain ⟨r, h1, h2⟩ := h
        obtain ⟨rest, k1, k2⟩ := hb
        rw [add_lead T k2]
        have hr : rest.isEmpty = false := by cases rest <;> simp_all
        simp only [hr]
        rw [rowOf_rowAt, rowAt_add, if_pos rfl, if_neg (by simp), if_pos]
        · simpa using hold
        · refine ⟨hold, ?_⟩
          rw [extended_rowAt]
          exact ⟨l, g1, Ne.symm g2, by rw [h1]; simp⟩
      · exact more_unless hb hold

/-- A pattern of `A` that goes on after a shorter text makes a later one remove the row of `p`. -/
theorem removed {q0 p b : Pattern} {l l' : Bytes} {rest : List Token} (e : p.pattern = .literal l :: rest) (hl : l' <+: l) (hne : l' ≠ l) (h0 : GoesOn q0 l')
    (hb : GoesOn b l') : rowAt (Table.of [q0, p, b]).rows l = none := by
  obtain ⟨r0, k1, k2⟩ := h0
  obtain ⟨r1, k3, k4⟩ := hb
  have hr0 : r0.isEmpty = false := by cases r0 <;> simp_all
  have hr1 : r1.isEmpty = false := by cases r1 <;> simp_all
  have e0 : Table.of [q0, p, b] = ((((⟨[], []⟩ : Table).add q0).add p).add b) := rfl
  rw [e0, add_lead _ k4]
  simp only [hr1]
  rw [rowAt_add, if_neg (Ne.symm hne), if_pos]
  refine ⟨rfl, ?_, hl⟩
  rintro ⟨g, _⟩
  have hlen : ¬ l <+: l' := fun k => hne (prefix_eq hl k.length_le)
  rw [rowOf_rowAt, add_lead _ e] at g
  simp only [rowAt_add] at g
  rw [if_neg hne, if_neg (fun k => hlen k.2.2), add_lead _ k2] at g
  simp only [rowAt_add, hr0] at g
  simp [rowOf_rowAt, rowAt, Extended] at g

theorem more_none_snoc {A : List Pattern} {p : Pattern} {l l' : Bytes} {rest : List Token} (e : p.pattern = .literal l :: rest) (hne : l' ≠ l)
    (h : ∀ q ∈ A, ¬ GoesOn q l') : (rowOf (Table.of (A ++ [p])).rows l').more = none := by
  rw [table_snoc]
  refine more_unless ?_ (no_more_at h)
  rintro ⟨_, _, g⟩
  rw [e] at g
  simp at g
  exact hne g.1.symm

/-! ### The literal alone -/

theorem whole_row {A B : List Pattern} {p : Pattern} {x l : Bytes} (hu : Apart (A ++ p :: B)) (hB : p ∉ B) (e : p.pattern = [.literal l])
    (H : InThrees A B p x) : ∃ row ∈ (Table.of (A ++ p :: B)).rows, row.text = x ∧ row.whole = some p := by
  obtain ⟨rfl, _⟩ := gives_whole (apart_part hu (List.nil_sublist _) (List.nil_sublist _)) (by simp) e (H [] [] (List.nil_sublist _) (List.nil_sublist _) (by simp))
  have w1 : ∀ b ∈ B, b.pattern ≠ [.literal x] := by
    intro b hb g
    have hs := List.singleton_sublist.mpr hb
    obtain ⟨_, row, h1, h2, h3⟩ := gives_whole (apart_part hu (List.nil_sublist _) hs) (by simp) e (H [] [b] (List.nil_sublist _) hs (by simp))
    have h4 := (rowAt_mem (table_rows _).1).mp h1
    rw [h2] at h4
    have e0 : Table.of ([] ++ p :: [b]) = ((⟨[], []⟩ : Table).add p).add b := rfl
    rw [e0, add_lead _ g] at h4
    simp only [rowAt_add] at h4
    simp at h4
    rw [← h4] at h3
    simp at h3
    exact hB (h3 ▸ hb)
  have w3 : ∀ b ∈ B, ∀ l', l' <+: x → l' ≠ x → GoesOn b l' → ∀ q ∈ A, ¬ GoesOn q l' := by
    intro b hb l' h1 h2 h3 q hq h4
    have hs := List.singleton_sublist.mpr hb
    have hs' := List.singleton_sublist.mpr hq
    obtain ⟨_, row, g1, g2, g3⟩ := gives_whole (apart_part hu hs' hs) (by simp) e (H [q] [b] hs' hs (by simp))
    have := removed e h1 h2 h4 h3
    exact rowAt_none.mp this row g1 g2
  have hrow : ∃ r, rowAt (Table.of (A ++ p :: B)).rows x = some r ∧ r.whole = some p := by
    have e0 : Table.of (A ++ p :: B) = B.foldl Table.add (Table.of (A ++ [p])) := by
      rw [← Deleted.table_split]; simp
    rw [e0]
    refine rows_stay (fun r => r.whole = some p) B ?_ B (fun _ h => h) _ ?_ ?_
    · intro b hb rest g rows hq
      have hr : rest.isEmpty = false := by
        cases rest with
        | nil => exact absurd g (w1 b hb)
        | cons _ _ => rfl
      rw [rowOf_rowAt, rowAt_add, if_pos rfl, hr]
      simp only [Option.getD_some]
      rw [if_neg (by simp)]
      split <;> exact hq
    · rw [table_snoc, add_lead _ e]
      simp only [rowAt_add]
      simp
    · rintro l' h1 h2 ⟨b, hb, h3⟩
      exact more_none_snoc e h2 fun q hq => w3 b hb l' h1 h2 h3 q hq
  obtain ⟨row, h1, h2⟩ := hrow
  obtain ⟨h3, h4⟩ := rowAt_text h1
  exact ⟨row, h3, h4, h2⟩

theorem three_whole {A B : List Pattern} {p : Pattern} {x l : Bytes} (hu : Apart (A ++ p :: B)) (hB : p ∉ B) (e : p.pattern = [.literal l])
    (H : InThrees A B p x) {r : Option MatchResult} (ha : (Table.of (A ++ p :: B)).Answer x r) : ∃ res, r = some res ∧ res.pattern.uuid = p.uuid := by
  obtain ⟨row, h3, h4, h2⟩ := whole_row hu hB e H
  have := ha.1 row h3 h4
  rw [h2] at this
  exact ⟨_, this, rfl⟩

/-! ### Patterns that go on -/

theorem more_row {A B : List Pattern} {p : Pattern} {x l : Bytes} (hu : Apart (A ++ p :: B)) (hB : p ∉ B) (hl : l ≠ []) (hg : GoesOn p l)
    (H : InThrees A B p x) :
    (∀ row ∈ (Table.of (A ++ p :: B)).rows, row.text ≠ x) ∧ Deepest (Table.of (A ++ p :: B)).rows x l ∧
      (∃ row ∈ (Table.of (A ++ p :: B)).rows, row.text = l ∧ row.more = some p) ∧ ∃ caps, MatchesStrict p.pattern x caps := by
  have give : ∀ X Y : List Pattern, X.Sublist A → Y.Sublist B → X.length + Y.length ≤ 2 → _ := fun X Y hX hY hn =>
    gives_more (apart_part hu hX hY) (by simp) hg (H X Y hX hY hn)
  obtain ⟨rest, hrest, e⟩ := id hg
  have hre : rest.isEmpty = false := by cases rest <;> simp_all
  obtain ⟨-, -, -, caps, hm⟩ := give [] [] (List.nil_sublist _) (List.nil_sublist _) (by simp)
  have hlx : l <+: x ∧ l ≠ x := by
    have hm' := hm
    rw [e] at hm'
    obtain ⟨y, h1, h2, _⟩ := strict_lit_inv hm'
    refine ⟨⟨y, h1.symm⟩, ?_⟩
    intro k
    rw [h1] at k
    exact h2 hrest (by simpa using k)
  have hA : ∀ q ∈ A, ∀ l1 rest1, q.pattern = .literal l1 :: rest1 → l <+: l1 → l1 = l := by
    intro q hq l1 rest1 e1 hpre
    refine Classical.byContradiction fun hne => ?_
    obtain ⟨-, -, hmore, -⟩ := give [q] [] (List.singleton_sublist.mpr hq) (List.nil_sublist _) (by simp)
    have e0 : Table.of ([q] ++ p :: []) = ((⟨[], []⟩ : Table).add q).add p := rfl
    have hrow : (rowOf ((⟨[], []⟩ : Table).add q).rows l).more = none := by
      refine more_unless ?_ rfl
      rintro ⟨_, _, g⟩
      rw [e1] at g
      simp at g
      exact hne g.1
    have hext : Extended ((⟨[], []⟩ : Table).add q).rows l := by
      rw [extended_rowAt]
      exact ⟨l1, hpre, hne, rowAt_lead _ e1⟩
    rw [e0, add_lead _ e, rowOf_rowAt] at hmore
    dsimp only at hmore
    rw [rowAt_add, hre, if_pos rfl, if_neg (by simp), if_pos ⟨hrow, hext⟩] at hmore
    simp only [Option.getD_some] at hmore
    rw [hrow] at hmore
    simp at hmore
  -- a longer leading literal comes from a pattern added later
  have late : ∀ q ∈ A ++ p :: B, ∀ l1 rest1, q.pattern = .literal l1 :: rest1 → l <+: l1 → l1 ≠ l → q ∈ B := by
    intro q hq l1 rest1 e1 h1 h2
    rcases List.mem_append.mp hq with k | k
    · exact absurd (hA q k l1 rest1 e1 h1) h2
    · rcases List.mem_cons.mp k with rfl | k
      · rw [e] at e1
        simp at e1
        exact absurd e1.1.symm h2
      · exact k
  have one : ∀ l1, l1 ≠ l → rowAt (Table.of [p]).rows l1 = none := by
    intro l1 h1
    have e0 : Table.of [p] = (⟨[], []⟩ : Table).add p := rfl
    rw [e0, add_lead _ e]
    simp only [rowAt_add]
    rw [if_neg h1]
    split <;> rfl
  have hno : ∀ row ∈ (Table.of (A ++ p :: B)).rows, row.text ≠ x := by
    intro row hrow ht
    obtain ⟨q, hq, rest1, e1⟩ := (table_rows _).2 row hrow
    rw [ht] at e1
    have hqB := late q hq x rest1 e1 hlx.1 (Ne.symm hlx.2)
    obtain ⟨hn, -⟩ := give [] [q] (List.nil_sublist _) (List.singleton_sublist.mpr hqB) (by simp)
    have e0 : Table.of ([] ++ p :: [q]) = (Table.of [p]).add q := rfl
    rw [e0] at hn
    exact rowAt_lead (Table.of [p]) e1 (rowAt_none.mpr hn)
  have hstop : ∀ b, StopPoint (Table.of (A ++ p :: B)).rows b → b <+: x → b.length ≤ l.length := by
    intro b hb hbx
    refine Classical.byContradiction fun hlen => ?_
    have hlb : l <+: b := prefix_total hlx.1 hbx (by omega)
    rcases hb with rfl | ⟨row, hrow, ht, hmo⟩ | ⟨s, hs, t, ht, hne, hcs⟩
    · simp at hlen
    · cases hq : row.more with
      | none => exact hmo hq
      | some q =>
        obtain ⟨hqm, rest1, hr1, e1⟩ := rowAt_source _ row hrow q hq
        rw [ht] at e1
        have hqB := late q hqm b rest1 e1 hlb (by rintro rfl; omega)
        obtain ⟨-, hd, -⟩ := give [] [q] (List.nil_sublist _) (List.singleton_sublist.mpr hqB) (by simp)
        have e0 : Table.of ([] ++ p :: [q]) = (Table.of [p]).add q := rfl
        rw [e0] at hd
        refine hlen (hd.2.2 b (.inr (.inl ?_)) hbx)
        have hre1 : rest1.isEmpty = false := by cases rest1 <;> simp_all
        have hat : rowAt ((Table.of [p]).add q).rows b = some { rowOf (Table.of [p]).rows b with more := some q } := by
          rw [add_lead _ e1]
          dsimp only
          rw [rowAt_add, hre1, if_pos rfl, if_neg (by simp), if_neg]
          rintro ⟨_, k⟩
          rw [extended_rowAt] at k
          obtain ⟨l2, k1, k2, k3⟩ := k
          refine k3 (one l2 ?_)
          rintro rfl
          have := k1.length_le
          omega
        obtain ⟨k1, k2⟩ := rowAt_text hat
        exact ⟨_, k1, k2, by simp⟩
    · have hs1 := hcs.1.length_le
      have hs2 := hcs.2.1.length_le
      obtain ⟨q1, hq1, rest1, e1⟩ := (table_rows _).2 s hs
      obtain ⟨q2, hq2, rest2, e2⟩ := (table_rows _).2 t ht
      have n1 : s.text ≠ l := by intro k; rw [k] at hs1; omega
      have n2 : t.text ≠ l := by intro k; rw [k] at hs2; omega
      have hq1B := late q1 hq1 _ rest1 e1 (hlb.trans hcs.1) n1
      have hq2B := late q2 hq2 _ rest2 e2 (hlb.trans hcs.2.1) n2
      have hqne : q1 ≠ q2 := by
        rintro rfl
        rw [e1] at e2
        simp at e2
        exact hne e2.1
      have fin : ∀ {u v : Pattern} {c d : Bytes} {ru rv : List Token}, u.pattern = .literal c :: ru → v.pattern = .literal d :: rv → c ≠ d → d ≠ l →
          CommonStart c d b → [u, v].Sublist B → False := by
        intro u v c d ru rv eu ev hcd hdl hcs' hsub
        obtain ⟨-, hd, -⟩ := give [] [u, v] (List.nil_sublist _) hsub (by simp)
        have e0 : Table.of ([] ++ p :: [u, v]) = ((Table.of [p]).add u).add v := rfl
        rw [e0] at hd
        obtain ⟨k1, k2⟩ := two_rows (Table.of [p]) eu ev hcd (one d hdl)
        obtain ⟨r1, m1, rfl⟩ := row_of_at k1
        obtain ⟨r2, m2, rfl⟩ := row_of_at k2
        exact hlen (hd.2.2 b (.inr (.inr ⟨r1, m1, r2, m2, hcd, hcs'⟩)) hbx)
      rcases pair_sublist hq1B hq2B hqne with k | k
      · exact fin e1 e2 hne n2 hcs k
      · exact fin e2 e1 (Ne.symm hne) n1 ⟨hcs.2.1, hcs.1, fun c h1 h2 => hcs.2.2 c h2 h1⟩ k
  have w1 : ∀ b ∈ B, ¬ GoesOn b l := by
    rintro b hb ⟨rest1, hr1, e1⟩
    obtain ⟨-, -, hmore, -⟩ := give [] [b] (List.nil_sublist _) (List.singleton_sublist.mpr hb) (by simp)
    have hre1 : rest1.isEmpty = false := by cases rest1 <;> simp_all
    have e0 : Table.of ([] ++ p :: [b]) = (Table.of [p]).add b := rfl
    rw [e0, rowOf_rowAt, add_lead _ e1] at hmore
    dsimp only at hmore
    rw [rowAt_add, hre1, if_pos rfl, if_neg (by simp), if_neg] at hmore
    · simp at hmore
      exact hB (hmore ▸ hb)
    · rintro ⟨_, k⟩
      rw [extended_rowAt] at k
      obtain ⟨l2, _, k2, k3⟩ := k
      exact k3 (one l2 k2)
  have w3 : ∀ b ∈ B, ∀ l', l' <+: l → l' ≠ l → GoesOn b l' → ∀ q ∈ A, ¬ GoesOn q l' := by
    intro b hb l' h1 h2 h3 q hq h4
    obtain ⟨-, -, hmore, -⟩ := give [q] [b] (List.singleton_sublist.mpr hq) (List.singleton_sublist.mpr hb) (by simp)
    have := removed e h1 h2 h4 h3
    have e0 : [q] ++ p :: [b] = [q, p, b] := rfl
    rw [e0, rowOf_rowAt, this] at hmore
    simp at hmore
  have hrow : ∃ r, rowAt (Table.of (A ++ p :: B)).rows l = some r ∧ r.more = some p := by
    have e0 : Table.of (A ++ p :: B) = B.foldl Table.add (Table.of (A ++ [p])) := by
      rw [← Deleted.table_split]; simp
    rw [e0]
    refine rows_stay (fun r => r.more = some p) B ?_ B (fun _ h => h) _ ?_ ?_
    · intro b hb rest1 g rows hq
      have hr : rest1.isEmpty = true := by
        cases rest1 with
        | nil => rfl
        | cons t u => exact absurd ⟨t :: u, by simp, g⟩ (w1 b hb)
      rw [rowOf_rowAt, rowAt_add, if_pos rfl, hr]
      simpa using hq
    · rw [table_snoc, add_lead _ e]
      dsimp only
      rw [rowAt_add, hre, if_pos rfl, if_neg (by simp), if_neg]
      · exact ⟨_, rfl, rfl⟩
      · rintro ⟨_, row, k1, k2, k3⟩
        obtain ⟨q, hq, rest1, e1⟩ := (table_rows _).2 row k1
        exact k3 (hA q hq _ rest1 e1 k2)
    · rintro l' h1 h2 ⟨b, hb, h3⟩
      exact more_none_snoc e h2 fun q hq => w3 b hb l' h1 h2 h3 q hq
  obtain ⟨row, h1, h2⟩ := hrow
  obtain ⟨h3, h4⟩ := rowAt_text h1
  exact ⟨hno, ⟨.inr (.inl ⟨row, h3, h4, by rw [h2]; simp⟩), hlx.1, hstop⟩, ⟨row, h3, h4, h2⟩, caps, hm⟩

theorem three_more {A B : List Pattern} {p : Pattern} {x l : Bytes} (hu : Apart (A ++ p :: B)) (hB : p ∉ B) (hl : l ≠ []) (hg : GoesOn p l)
    (H : InThrees A B p x) {r : Option MatchResult} (ha : (Table.of (A ++ p :: B)).Answer x r) : ∃ res, r = some res ∧ res.pattern.uuid = p.uuid := by
  obtain ⟨hno, hdl, ⟨row, h3, h4, h2⟩, caps, hm⟩ := more_row hu hB hl hg H
  obtain ⟨b, hd, _, g2, _⟩ := ha.2 hno
  obtain rfl := deepest_unique hd hdl
  obtain ⟨res, k1, k2⟩ := (g2 hl row h3 h4 p h2).1 [] p [] caps rfl (by simp) hm
  exact ⟨res, k1, by rw [k2.1]⟩

/-! ### Patterns that begin with a parser -/

theorem fold_rows (Y : List Pattern) : ∀ {T T' : Table}, T.rows = T'.rows → (Y.foldl Table.add T).rows = (Y.foldl Table.add T').rows := by
  induction Y with
  | nil => intro T T' h; exact h
  | cons y Y ih =>
    intro T T' h
    refine ih ?_
    unfold Table.add
    split <;> simp [h]

theorem rows_par {X Y : List Pattern} {p : Pattern} {a : Parser} {rest : List Token} (e : p.pattern = .parser a :: rest) :
    (Table.of (X ++ p :: Y)).rows = (Table.of (X ++ Y)).rows := by
  have e0 : Table.of (X ++ p :: Y) = Y.foldl Table.add ((Table.of X).add p) := by simp [Table.of]
  have e1 : Table.of (X ++ Y) = Y.foldl Table.add (Table.of X) := by simp [Table.of]
  rw [e0, e1]
  exact fold_rows Y (by rw [add_par _ e])

/-- The slot of a parser is in use once a pattern begins with it; a pattern that is this parser only is in it if there is no other kind. -/
theorem slot (b : Parser) (ps : List Pattern) : (∀ q ∈ ps, q.pattern.head? = some (.parser b) → ledBy (Table.of ps).parserLed b ≠ none) ∧
    ∀ g, ledBy (Table.of ps).parserLed b = some g → g.pattern = [.parser b] → ∀ q ∈ ps, q.pattern.head? = some (.parser b) → q.pattern = [.parser b] := by
  refine snoc_induction (P := fun ps => (∀ q ∈ ps, q.pattern.head? = some (.parser b) → ledBy (Table.of ps).parserLed b ≠ none) ∧
    ∀ g, ledBy (Table.of ps).parserLed b = some g → g.pattern = [.parser b] → ∀ q ∈ ps, q.pattern.head? = some (.parser b) → q.pattern = [.parser b]) ?_ ?_ ps
  · constructor <;> simp
  · rintro ps s ⟨h1, h2⟩
    rw [table_snoc]
    by_cases hs : s.pattern.head? = some (.parser b)
    · obtain ⟨rest, e⟩ : ∃ rest, s.pattern = .parser b :: rest := by
        cases hp : s.pattern with
        | nil => rw [hp] at hs; simp at hs
        | cons t u => rw [hp] at hs; simp at hs; exact ⟨u, by rw [hs]⟩
      rw [add_par _ e]
      simp only [ledBy_add b b s hs, if_true]
      refine ⟨by simp, ?_⟩
      intro g hg hgp q hq hqh
      simp only [Option.some.injEq] at hg
      cases hL : ledBy (Table.of ps).parserLed b with
      | none =>
        rw [hL] at hg
        simp only at hg
        subst hg
        rcases List.mem_append.mp hq with k | k
        · exact absurd hL (h1 q k hqh)
        · simp at k; rw [k]; exact hgp
      | some g' =>
        rw [hL] at hg
        simp only at hg
        split at hg
        · rename_i hc
          subst hg
          exact absurd hgp hc.2
        · rename_i hc
          subst hg
          have hg' : g'.pattern = [.parser b] := Classical.byContradiction fun k => hc ⟨hgp, k⟩
          rcases List.mem_append.mp hq with k | k
          · exact h2 g' hL hg' q k hqh
          · simp at k; rw [k]; exact hgp
    · have same : ledBy ((Table.of ps).add s).parserLed b = ledBy (Table.of ps).parserLed b := by
        unfold Table.add
        split
        · rfl
        · rfl
        · rename_i c rest e
          simp only []
          rw [ledBy_add c b s (by rw [e]; rfl), if_neg]
          rintro rfl
          exact hs (by rw [e]; rfl)
      rw [same]
      constructor
      · intro q hq hqh
        rcases List.mem_append.mp hq with k | k
        · exact h1 q k hqh
        · simp at k; rw [k] at hqh; exact absurd hqh hs
      · intro g hg hgp q hq hqh
        rcases List.mem_append.mp hq with k | k
        · exact h2 g hg hgp q k hqh
        · simp at k; rw [k] at hqh; exact absurd hqh hs

theorem heads_add (a : Parser) (p : Pattern) (hp : p.pattern.head? = some (.parser a)) (L : List Pattern) :
    (addParserLed a p L).map (·.pattern.head?) = L.map (·.pattern.head?) ∨
    ((∀ q ∈ L, q.pattern.head? ≠ some (.parser a)) ∧ addParserLed a p L = L ++ [p]) := by
  induction L with
  | nil => right; simp [addParserLed]
  | cons q L ih =>
    by_cases c : q.pattern.head? = some (.parser a)
    · left
      simp only [addParserLed, if_pos c]
      split <;> simp [hp, c]
    · simp only [addParserLed, if_neg c]
      rcases ih with k | ⟨k1, k2⟩
      · left; simp [k]
      · right
        refine ⟨?_, by rw [k2]; rfl⟩
        intro s hs
        rcases List.mem_cons.mp hs with rfl | hs
        · exact c
        · exact k1 s hs

/-- The parsers are tried in the order in which they were first used. -/
theorem first_use (ps : List Pattern) : ∀ C h D, (Table.of ps).parserLed.map (·.pattern.head?) = C ++ h :: D → ∀ k ∈ C,
    ∃ U g V, ps = U ++ g :: V ∧ g.pattern.head? = k ∧ ∀ u ∈ U, u.pattern.head? ≠ h := by
  refine snoc_induction (P := fun ps => ∀ C h D, (Table.of ps).parserLed.map (·.pattern.head?) = C ++ h :: D → ∀ k ∈ C,
    ∃ U g V, ps = U ++ g :: V ∧ g.pattern.head? = k ∧ ∀ u ∈ U, u.pattern.head? ≠ h) ?_ ?_ ps
  · intro C h D e
    have := congrArg List.length e
    simp [Table.of] at this
  · intro ps s ih C h D e k hk
    have old : ∀ {D}, (Table.of ps).parserLed.map (·.pattern.head?) = C ++ h :: D →
        ∃ U g V, ps ++ [s] = U ++ g :: V ∧ g.pattern.head? = k ∧ ∀ u ∈ U, u.pattern.head? ≠ h := by
      intro D e'
      obtain ⟨U, g, V, h1, h2, h3⟩ := ih C h D e' k hk
      exact ⟨U, g, V ++ [s], by rw [h1]; simp, h2, h3⟩
    rw [table_snoc] at e
    cases hsp : s.pattern with
    | nil =>
      unfold Table.add at e
      rw [hsp] at e
      exact old e
    | cons t rest =>
      cases t with
      | literal l =>
        rw [add_lead _ hsp] at e
        exact old e
      | parser a =>
        rw [add_par _ hsp] at e
        simp only at e
        rcases heads_add a s (by rw [hsp]; rfl) (Table.of ps).parserLed with g | ⟨g1, g2⟩
        · exact old (g ▸ e)
        · rw [g2] at e
          rcases List.eq_nil_or_concat D with rfl | ⟨D', d, rfl⟩
          · rw [List.map_append] at e
            obtain ⟨e1, e2⟩ := List.append_inj' e rfl
            rw [← e1] at hk
            obtain ⟨g, hg, hgk⟩ := List.mem_map.mp hk
            obtain ⟨U, V, rfl⟩ := List.append_of_mem (table_parserLed ps g hg)
            refine ⟨U, g, V ++ [s], by simp, hgk, ?_⟩
            intro u hu
            simp at e2
            rw [← e2, hsp]
            intro hua
            have hne := (slot a (U ++ g :: V)).1 u (by simp [hu]) (by simpa using hua)
            cases hL : ledBy (Table.of (U ++ g :: V)).parserLed a with
            | none => exact hne hL
            | some w => exact g1 w (List.mem_of_find?_eq_some hL) (ledBy_head hL)
          · refine old (D := D') ?_
            rw [List.concat_eq_append, List.map_append, ← List.cons_append, ← List.append_assoc] at e
            exact (List.append_inj' e rfl).1

theorem ledBy_fold {p : Pattern} {a : Parser} (B : List Pattern) : (∀ b ∈ B, b.pattern.head? = some (.parser a) → b.pattern = [.parser a] ∧ p.pattern ≠ [.parser a]) →
    ∀ T : Table, ledBy T.parserLed a = some p → ledBy (B.foldl Table.add T).parserLed a = some p := by
  induction B with
  | nil => intro _ T h; exact h
  | cons b B ih =>
    intro hB T h
    refine ih (fun c hc => hB c (by simp [hc])) _ ?_
    unfold Table.add
    split
    · exact h
    · exact h
    · rename_i c rest e
      simp only []
      rw [ledBy_add c a b (by rw [e]; rfl)]
      split
      · rename_i hc
        subst hc
        have := hB b (by simp) (by rw [e]; rfl)
        rw [h]
        simp [this]
      · exact h

/-- Among the patterns that begin with parsers: `Mt` are those that match. -/
theorem three_slots {A B : List Pattern} {p : Pattern} {a : Parser} {rest : List Token} (hA : p ∉ A) (hB : p ∉ B) (e : p.pattern = .parser a :: rest)
    (Mt : Pattern → Prop) (give : ∀ X Y : List Pattern, X.Sublist A → Y.Sublist B → X.length + Y.length ≤ 2 →
      ∃ C D, (Table.of (X ++ p :: Y)).parserLed = C ++ p :: D ∧ ∀ c ∈ C, ¬ Mt c) :
    ∃ C D, (Table.of (A ++ p :: B)).parserLed = C ++ p :: D ∧ ∀ c ∈ C, ¬ Mt c := by
  have hph : p.pattern.head? = some (.parser a) := by rw [e]; rfl
  -- the slot of `a`
  have wB : ∀ b ∈ B, b.pattern.head? = some (.parser a) → b.pattern = [.parser a] ∧ p.pattern ≠ [.parser a] := by
    intro b hb hbh
    refine Classical.byContradiction fun hc => ?_
    obtain ⟨C, D, h1, -⟩ := give [] [b] (List.nil_sublist _) (List.singleton_sublist.mpr hb) (by simp)
    obtain ⟨rest1, e1⟩ : ∃ rest, b.pattern = .parser a :: rest := by
      cases hp : b.pattern with
      | nil => rw [hp] at hbh; simp at hbh
      | cons t u => rw [hp] at hbh; simp at hbh; exact ⟨u, by rw [hbh]⟩
    have e0 : Table.of ([] ++ p :: [b]) = ((⟨[], []⟩ : Table).add p).add b := rfl
    rw [e0, add_par _ e, add_par _ e1] at h1
    simp only [addParserLed, if_pos hph, if_neg hc] at h1
    have : p ∈ [b] := by rw [h1]; simp
    simp at this
    exact hB (this ▸ hb)
  have wA : ∀ q ∈ A, q.pattern.head? = some (.parser a) → ¬ (p.pattern = [.parser a] ∧ q.pattern ≠ [.parser a]) := by
    intro q hq hqh hc
    obtain ⟨C, D, h1, -⟩ := give [q] [] (List.singleton_sublist.mpr hq) (List.nil_sublist _) (by simp)
    obtain ⟨rest1, e1⟩ : ∃ rest, q.pattern = .parser a :: rest := by
      cases hp : q.pattern with
      | nil => rw [hp] at hqh; simp at hqh
      | cons t u => rw [hp] at hqh; simp at hqh; exact ⟨u, by rw [hqh]⟩
    have e0 : Table.of ([q] ++ p :: []) = ((⟨[], []⟩ : Table).add q).add p := rfl
    rw [e0, add_par _ e1, add_par _ e] at h1
    simp only [addParserLed, if_pos hqh, if_pos hc] at h1
    have : p ∈ [q] := by rw [h1]; simp
    simp at this
    exact hA (this ▸ hq)
  have e0 : Table.of (A ++ p :: B) = B.foldl Table.add (Table.of (A ++ [p])) := by
    rw [← Deleted.table_split]; simp
  have hled : ledBy (Table.of (A ++ p :: B)).parserLed a = some p := by
    rw [e0]
    refine ledBy_fold B wB _ ?_
    rw [table_snoc, add_par _ e]
    simp only [ledBy_add a a p hph, if_true]
    cases hL : ledBy (Table.of A).parserLed a with
    | none => rfl
    | some q =>
      simp only []
      rw [if_neg (wA q (table_parserLed A q (List.mem_of_find?_eq_some hL)) (ledBy_head hL))]
  obtain ⟨C, D, hL⟩ := List.append_of_mem (List.mem_of_find?_eq_some hled)
  have hown : OwnHeads (Table.of (A ++ p :: B)).parserLed := ownHeads_fold _ ⟨[], []⟩ ⟨by simp, .nil⟩
  have hC : ∀ g ∈ C, ¬ Mt g := by
    intro g hg hmg
    have hgL : g ∈ (Table.of (A ++ p :: B)).parserLed := by rw [hL]; simp [hg]
    obtain ⟨b, hb⟩ := hown.1 g hgL
    obtain ⟨restg, eg⟩ : ∃ rest, g.pattern = .parser b :: rest := by
      cases hp : g.pattern with
      | nil => rw [hp] at hb; simp at hb
      | cons t u => rw [hp] at hb; simp at hb; exact ⟨u, by rw [hb]⟩
    have hne : b ≠ a := by
      rintro rfl
      have hpw := hown.2
      rw [hL] at hpw
      exact (List.pairwise_append.mp hpw).2.2 g hg p (by simp) (by rw [hb, hph])
    have hpb : p.pattern.head? ≠ some (.parser b) := by rw [hph]; simpa using Ne.symm hne
    have hgp : g ≠ p := fun k => hpb (k ▸ hb)
    -- the two of them cannot be in this order
    have clash : ∀ C' D' : List Pattern, [g, p] = C' ++ p :: D' → (∀ c ∈ C', ¬ Mt c) → False := by
      intro C' D' h1 h2
      cases C' with
      | nil => simp at h1; exact hgp h1.1
      | cons c C' =>
        simp at h1
        exact h2 c (by simp) (h1.1 ▸ hmg)
    have early : ∀ q ∈ A, q = g → False := by
      rintro q hq rfl
      obtain ⟨C', D', h1, h2⟩ := give [q] [] (List.singleton_sublist.mpr hq) (List.nil_sublist _) (by simp)
      have e0 : Table.of ([q] ++ p :: []) = ((⟨[], []⟩ : Table).add q).add p := rfl
      have hga : q.pattern.head? ≠ some (.parser a) := by rw [hb]; simpa using hne
      rw [e0, add_par _ eg, add_par _ e] at h1
      simp only [addParserLed, if_neg hga] at h1
      exact clash C' D' h1 h2
    have hgB : g ∈ B := by
      rcases List.mem_append.mp (table_parserLed _ g hgL) with k | k
      · exact (early g k rfl).elim
      · rcases List.mem_cons.mp k with k | k
        · exact absurd k hgp
        · exact k
    obtain ⟨U, g0, V, h1, h2, h3⟩ := first_use (A ++ p :: B) (C.map (·.pattern.head?)) (some (.parser a)) (D.map (·.pattern.head?))
      (by rw [hL]; simp [hph]) (some (.parser b)) (by rw [← hb]; exact List.mem_map.mpr ⟨g, hg, rfl⟩)
    have hg0p : g0 ≠ p := fun k => hpb (k ▸ h2)
    have hg0A : g0 ∈ A := by
      rcases List.append_eq_append_iff.mp h1 with ⟨W, k1, k2⟩ | ⟨W, k1, k2⟩
      · cases W with
        | nil => simp at k2; exact absurd k2.1.symm hg0p
        | cons w W =>
          simp at k2
          exact absurd hph (h3 p (by rw [k1, k2.1]; simp))
      · cases W with
        | nil => simp at k2; exact absurd k2.1 hg0p
        | cons w W =>
          simp at k2
          rw [k1, k2.1]
          simp
    have hledb : ledBy (Table.of (A ++ p :: B)).parserLed b = some g := by
      cases hx : ledBy (Table.of (A ++ p :: B)).parserLed b with
      | none =>
        have := List.find?_eq_none.mp hx g hgL
        simp [hb] at this
      | some w =>
        have hwL := List.mem_of_find?_eq_some hx
        have hwh := ledBy_head hx
        refine congrArg some (Classical.byContradiction fun hwg => ?_)
        have hpw := hown.2
        rcases pair_sublist hwL hgL hwg with k | k
        · have := hpw.sublist k
          simp [hwh, hb] at this
        · have := hpw.sublist k
          simp [hwh, hb] at this
    have hnc : ¬ (g.pattern = [.parser b] ∧ g0.pattern ≠ [.parser b]) := by
      rintro ⟨k1, k2⟩
      exact k2 ((slot b _).2 g hledb k1 g0 (by simp [hg0A]) h2)
    obtain ⟨rest0, eg0⟩ : ∃ rest, g0.pattern = .parser b :: rest := by
      cases hp : g0.pattern with
      | nil => rw [hp] at h2; simp at h2
      | cons t u => rw [hp] at h2; simp at h2; exact ⟨u, by rw [h2]⟩
    obtain ⟨C', D', h4, h5⟩ := give [g0] [g] (List.singleton_sublist.mpr hg0A) (List.singleton_sublist.mpr hgB) (by simp)
    have e0 : Table.of ([g0] ++ p :: [g]) = (((⟨[], []⟩ : Table).add g0).add p).add g := rfl
    have hga : g0.pattern.head? ≠ some (.parser a) := by rw [h2]; simpa using hne
    rw [e0, add_par _ eg0, add_par _ e, add_par _ eg] at h4
    simp only [addParserLed, if_neg hga, if_pos h2, if_neg hnc] at h4
    exact clash C' D' h4 h5
  exact ⟨C, D, hL, hC⟩

theorem parser_rows {A B : List Pattern} {p : Pattern} {x : Bytes} {a : Parser} {rest : List Token} (hu : Apart (A ++ p :: B))
    (e : p.pattern = .parser a :: rest) (H : InThrees A B p x) :
    (∀ row ∈ (Table.of (A ++ p :: B)).rows, row.text ≠ x) ∧ Deepest (Table.of (A ++ p :: B)).rows x [] ∧ ∃ caps, MatchesStrict p.pattern x caps := by
  have give : ∀ X Y : List Pattern, X.Sublist A → Y.Sublist B → X.length + Y.length ≤ 2 → _ := fun X Y hX hY hn =>
    gives_parser (apart_part hu hX hY) (by simp) e (H X Y hX hY hn)
  obtain ⟨-, -, -, -, caps, -, -, hm⟩ := give [] [] (List.nil_sublist _) (List.nil_sublist _) (by simp)
  -- the rows of at most two others
  have two : ∀ Z, Z.Sublist (A ++ B) → Z.length ≤ 2 → (∀ row ∈ (Table.of Z).rows, row.text ≠ x) ∧ Deepest (Table.of Z).rows x [] := by
    intro Z hZ hn
    obtain ⟨X, Y, rfl, hX, hY⟩ := List.sublist_append_iff.mp hZ
    obtain ⟨h1, h2, -⟩ := give X Y hX hY (by simpa using hn)
    rw [rows_par e] at h1 h2
    exact ⟨h1, h2⟩
  have hno : ∀ row ∈ (Table.of (A ++ p :: B)).rows, row.text ≠ x := by
    intro row hrow ht
    rw [rows_par e] at hrow
    obtain ⟨q, hq, rest1, e1⟩ := (table_rows _).2 row hrow
    rw [ht] at e1
    exact rowAt_lead ⟨[], []⟩ e1 (rowAt_none.mpr (two [q] (List.singleton_sublist.mpr hq) (by simp)).1)
  have hstop : ∀ b, StopPoint (Table.of (A ++ p :: B)).rows b → b <+: x → b.length ≤ ([] : Bytes).length := by
    intro b hb hbx
    rw [rows_par e] at hb
    rcases hb with rfl | ⟨row, hrow, ht, hmo⟩ | ⟨s, hs, t, ht, hne, hcs⟩
    · exact Nat.le_refl _
    · cases hq : row.more with
      | none => exact absurd hq hmo
      | some q =>
        obtain ⟨hqm, rest1, hr1, e1⟩ := rowAt_source _ row hrow q hq
        rw [ht] at e1
        have hd := (two [q] (List.singleton_sublist.mpr hqm) (by simp)).2
        refine hd.2.2 b (.inr (.inl ?_)) hbx
        have hre1 : rest1.isEmpty = false := by cases rest1 <;> simp_all
        have hat : rowAt (Table.of [q]).rows b = some { rowOf [] b with more := some q } := by
          have e0 : Table.of [q] = (⟨[], []⟩ : Table).add q := rfl
          rw [e0, add_lead _ e1]
          dsimp only
          rw [rowAt_add, hre1, if_pos rfl, if_neg (by simp), if_neg]
          rintro ⟨_, row, k, _⟩
          simp at k
        obtain ⟨k1, k2⟩ := rowAt_text hat
        exact ⟨_, k1, k2, by simp⟩
    · obtain ⟨q1, hq1, rest1, e1⟩ := (table_rows _).2 s hs
      obtain ⟨q2, hq2, rest2, e2⟩ := (table_rows _).2 t ht
      have hqne : q1 ≠ q2 := by
        rintro rfl
        rw [e1] at e2
        simp at e2
        exact hne e2.1
      have fin : ∀ {u v : Pattern} {c d : Bytes} {ru rv : List Token}, u.pattern = .literal c :: ru → v.pattern = .literal d :: rv → c ≠ d →
          CommonStart c d b → [u, v].Sublist (A ++ B) → b.length ≤ ([] : Bytes).length := by
        intro u v c d ru rv eu ev hcd hcs' hsub
        have hd := (two [u, v] hsub (by simp)).2
        have e0 : Table.of [u, v] = ((⟨[], []⟩ : Table).add u).add v := rfl
        rw [e0] at hd
        obtain ⟨k1, k2⟩ := two_rows ⟨[], []⟩ eu ev hcd rfl
        obtain ⟨r1, m1, rfl⟩ := row_of_at k1
        obtain ⟨r2, m2, rfl⟩ := row_of_at k2
        exact hd.2.2 b (.inr (.inr ⟨r1, m1, r2, m2, hcd, hcs'⟩)) hbx
      rcases pair_sublist hq1 hq2 hqne with k | k
      · exact fin e1 e2 hne hcs k
      · exact fin e2 e1 (Ne.symm hne) ⟨hcs.2.1, hcs.1, fun c h1 h2 => hcs.2.2 c h2 h1⟩ k
  exact ⟨hno, ⟨.inl rfl, List.nil_prefix, hstop⟩, caps, hm⟩

theorem three_parser {A B : List Pattern} {p : Pattern} {x : Bytes} {a : Parser} {rest : List Token} (hu : Apart (A ++ p :: B)) (hA : p ∉ A) (hB : p ∉ B)
    (e : p.pattern = .parser a :: rest) (H : InThrees A B p x) {r : Option MatchResult} (ha : (Table.of (A ++ p :: B)).Answer x r) :
    ∃ res, r = some res ∧ res.pattern.uuid = p.uuid := by
  obtain ⟨hno, hdl, caps, hm⟩ := parser_rows hu e H
  obtain ⟨C, D, hL, hC⟩ := three_slots hA hB e (fun g => ∃ caps, MatchesStrict g.pattern x caps) fun X Y hX hY hn => by
    obtain ⟨-, -, C, D, _, h1, h2, -⟩ := gives_parser (apart_part hu hX hY) (by simp) e (H X Y hX hY hn)
    exact ⟨C, D, h1, h2⟩
  obtain ⟨b, hd, g1, _, _⟩ := ha.2 hno
  obtain rfl := deepest_unique hd hdl
  obtain ⟨res, k1, k2⟩ := (g1 rfl).1 C p D caps hL hC hm
  exact ⟨res, k1, by rw [k2.1]⟩

end Three

open Three in
/-- C149: if a pattern is the answer whenever it is loaded with at most two of the others, it is the answer when all of them are loaded. -/
theorem C149_three (sip : Bytes → UInt64) (ps : List Pattern) (hps : Proper sip ps) (hd : ps.Pairwise fun p q => p.uuid ≠ q.uuid) (p : Pattern) (hp : p ∈ ps)
    (text : Bytes) (hx : Utf8 text)
    (h : ∀ qs, qs.Sublist ps → qs.length ≤ 3 → p ∈ qs →
      ∃ res, (SuffixTree.build sip qs >>= fun t => t.parse text) = .ok (some res) ∧ res.pattern.uuid = p.uuid)
    (r : Option MatchResult) (hr : (SuffixTree.build sip ps >>= fun t => t.parse text) = .ok r) : ∃ res, r = some res ∧ res.pattern.uuid = p.uuid := by
  obtain ⟨A, B, rfl⟩ := List.append_of_mem hp
  have ha := proper_answer hps hx hr
  have hu : Apart (A ++ p :: B) := by
    intro q hq s hs hqs
    refine Classical.byContradiction fun hne => ?_
    rcases pair_sublist hq hs hne with k | k
    · have := hd.sublist k
      simp [hqs] at this
    · have := hd.sublist k
      simp [hqs] at this
  have hA : p ∉ A := fun k => (List.pairwise_append.mp hd).2.2 p k p (by simp) rfl
  have hB : p ∉ B := fun k => (List.pairwise_cons.mp (List.pairwise_append.mp hd).2.1).1 p k rfl
  have H : InThrees A B p text := by
    intro X Y hX hY hn
    have hs : (X ++ p :: Y).Sublist (A ++ p :: B) := hX.append (hY.cons_cons p)
    obtain ⟨res, k1, k2⟩ := h (X ++ p :: Y) hs (by simp; omega) (by simp)
    exact ⟨res, proper_answer (proper_sub hps fun q hq => hs.subset hq) hx k1, k2⟩
  cases e : p.pattern with
  | nil =>
    obtain ⟨res, k1, -⟩ := H [] [] (List.nil_sublist _) (List.nil_sublist _) (by simp)
    have e0 : Table.of ([] ++ p :: []) = ⟨[], []⟩ := by
      simp [Table.of, Table.add, e]
    rw [e0] at k1
    rcases origin k1 with ⟨row, m, _⟩ | ⟨_, b, _, ⟨_, C, q, D, _, m, _⟩ | ⟨_, row, m, _⟩⟩
    · simp at m
    · simp at m
    · simp at m
  | cons t rest =>
    cases t with
    | parser a => exact three_parser hu hA hB e H ha
    | literal l =>
      cases rest with
      | nil => exact three_whole hu hB e H ha
      | cons t rest =>
        have hl : l ≠ [] := hps.nonempty p hp l (by rw [e]; simp)
        exact three_more hu hB hl ⟨t :: rest, by simp, e⟩ H ha

/-! With two others it is needed: `ab` is found beside each of `a%{INT:x}` and `a%{GREEDY:y}`, but not beside both of them. -/

namespace Three

def subs {α : Type} : List α → List (List α)
  | [] => [[]]
  | a :: L => subs L ++ (subs L).map (a :: ·)

theorem mem_subs {α : Type} {Z L : List α} (h : Z.Sublist L) : Z ∈ subs L := by
  induction h with
  | slnil => simp [subs]
  | cons a _ ih => simp [subs, ih]
  | cons_cons a _ ih => simp [subs, ih]

def wholeSample : Pattern := Samples.pat 1 [.literal b!"ab"]
def pairSample : List Pattern := [lateSample, wholeSample, laterSample]
def threeSample : List Pattern :=
  [Samples.pat 7 [.literal b!"abc"], Samples.pat 5 [.parser (Samples.int b!"z")], wholeSample, lateSample, Samples.pat 6 [.literal b!"abd"],
    Samples.pat 8 [.literal b!"ab", .parser (Samples.int b!"x")]]

theorem threeSample_proper : Proper Samples.sip threeSample := by
  refine ⟨?_, ?_, ?_, ?_⟩
  · intro p hp l hl
    simp [threeSample, wholeSample, lateSample] at hp
    rcases hp with rfl | rfl | rfl | rfl | rfl | rfl <;> simp [Samples.pat] at hl <;> subst hl <;> exact ascii_utf8 (by decide)
  · intro p hp l hl
    simp [threeSample, wholeSample, lateSample] at hp
    rcases hp with rfl | rfl | rfl | rfl | rfl | rfl <;> simp [Samples.pat] at hl <;> subst hl <;> decide
  · intro p hp l rest e l'
    simp [threeSample, wholeSample, lateSample] at hp
    rcases hp with rfl | rfl | rfl | rfl | rfl | rfl <;> simp [Samples.pat] at e <;> first | (rw [← e.2]; simp) | (rw [e.2]; simp)
  · have key : ∀ a, (∃ p ∈ threeSample, p.pattern.head? = some (.parser a)) → a = Samples.int b!"z" := by
      rintro a ⟨p, hp, e⟩
      simp [threeSample, wholeSample, lateSample] at hp
      rcases hp with rfl | rfl | rfl | rfl | rfl | rfl <;> simp [Samples.pat] at e
      exact e.symm
    intro a b ha hb _
    rw [key a ha, key b hb]

end Three

open Three in
/-- C149: to look at one other pattern at a time is not enough. -/
theorem C149_two_do_not_count : ∃ (ps : List Pattern) (p : Pattern) (text : Bytes), Proper Samples.sip ps ∧ (ps.Pairwise fun p q => p.uuid ≠ q.uuid) ∧ p ∈ ps ∧
    Utf8 text ∧ (∀ qs, qs.Sublist ps → qs.length ≤ 2 → p ∈ qs →
      ∃ res, (SuffixTree.build Samples.sip qs >>= fun t => t.parse text) = .ok (some res) ∧ res.pattern.uuid = p.uuid) ∧
    ∃ res, (SuffixTree.build Samples.sip ps >>= fun t => t.parse text) = .ok (some res) ∧ res.pattern.uuid ≠ p.uuid := by
  refine ⟨pairSample, wholeSample, b!"ab", proper_sub shutSample_proper (by intro s hs; simp [pairSample, wholeSample] at hs ⊢; rcases hs with h | h | h <;> simp [h]),
    by decide +kernel, by decide +kernel, ascii_utf8 (by decide), ?_, { pattern := Samples.pat 3 [], values := [(b!"y", b!"b")] }, by decide +kernel,
    by decide +kernel⟩
  have key : ∀ qs ∈ subs pairSample, qs.length ≤ 2 → wholeSample ∈ qs →
      (SuffixTree.build Samples.sip qs >>= fun t => t.parse b!"ab") = .ok (some { pattern := Samples.pat 1 [], values := [] }) := by decide +kernel
  exact fun qs hs hl hp => ⟨_, key qs (mem_subs hs) hl hp, rfl⟩

open Three in
example (r : Option MatchResult) (hr : (SuffixTree.build Samples.sip threeSample >>= fun t => t.parse b!"ab") = .ok r) :
    ∃ res, r = some res ∧ res.pattern.uuid = wholeSample.uuid := by
  have key : ∀ qs ∈ subs threeSample, qs.length ≤ 3 → wholeSample ∈ qs →
      (SuffixTree.build Samples.sip qs >>= fun t => t.parse b!"ab") = .ok (some { pattern := Samples.pat 1 [], values := [] }) := by decide +kernel
  exact C149_three Samples.sip threeSample threeSample_proper (by decide +kernel) wholeSample (by decide +kernel) b!"ab" (ascii_utf8 (by decide))
    (fun qs hs hl hp => ⟨_, key qs (mem_subs hs) hl hp, rfl⟩) r hr

end Verif
