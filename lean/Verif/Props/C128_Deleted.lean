import Verif.Props.C118_SuffixKept
/-! C128: deleting a pattern that answers no message. -/
namespace Verif
open Spec

namespace Deleted

/-! ### A row that holds nothing -/

/-- The rows differ only in that the first ones have an empty row for `l`, where others have longer texts that begin with `l`. -/
structure Ghost (l : Bytes) (R S : List Row) : Prop where
  at_l : rowAt R l = some ⟨l, none, none⟩
  not_l : rowAt S l = none
  other : ∀ x, x ≠ l → rowAt R x = rowAt S x
  longer : Extended S l

theorem ghost_rowOf {l : Bytes} {R S : List Row} (h : Ghost l R S) (x : Bytes) : rowOf R x = rowOf S x := by
  rw [rowOf_rowAt, rowOf_rowAt]
  by_cases e : x = l
  · subst e; rw [h.at_l, h.not_l]; rfl
  · rw [h.other x e]

theorem ghost_extended {l : Bytes} {R S : List Row} (h : Ghost l R S) (x : Bytes) : Extended R x ↔ Extended S x := by
  rw [extended_rowAt, extended_rowAt]
  constructor
  · rintro ⟨y, h1, h2, h3⟩
    by_cases e : y = l
    · subst e
      obtain ⟨z, g1, g2, g3⟩ := extended_rowAt.mp h.longer
      refine ⟨z, h1.trans g1, ?_, g3⟩
      rintro rfl
      exact h2 (prefix_eq g1 h1.length_le)
    · exact ⟨y, h1, h2, by rw [← h.other y e]; exact h3⟩
  · rintro ⟨y, h1, h2, h3⟩
    have e : y ≠ l := by rintro rfl; exact h3 h.not_l
    exact ⟨y, h1, h2, by rw [h.other y e]; exact h3⟩

theorem ghost_add {l : Bytes} {R S : List Row} (h : Ghost l R S) (l0 : Bytes) (a : Bool) (q : Pattern) :
    SameRows (addLiteralLed R l0 a q) (addLiteralLed S l0 a q) ∨ (l0 ≠ l ∧ Ghost l (addLiteralLed R l0 a q) (addLiteralLed S l0 a q)) := by
  have hro := ghost_rowOf h l0
  have hex := ghost_extended h l0
  by_cases e : l = l0
  · subst e
    left
    intro x
    rw [rowAt_add, rowAt_add, hro]
    simp only [hex]
    by_cases ex : x = l
    · rw [if_pos ex, if_pos ex]
    · rw [h.other x ex]
  · by_cases c : a = false ∧ ¬((rowOf S l0).more = none ∧ Extended S l0) ∧ l0 <+: l
    · left
      intro x
      rw [rowAt_add, rowAt_add, hro]
      simp only [hex]
      by_cases ex : x = l
      · subst ex
        rw [if_neg e, if_neg e, if_pos c, if_pos c]
      · rw [h.other x ex]
    · right
      refine ⟨Ne.symm e, ?_, ?_, ?_, ?_⟩
      · rw [rowAt_add, if_neg e, if_neg]
        · exact h.at_l
        · rw [hro, hex]; exact c
      · rw [rowAt_add, if_neg e, if_neg c]
        exact h.not_l
      · intro x ex
        rw [rowAt_add, rowAt_add, hro]
        simp only [hex, h.other x ex]
      · rw [extended_rowAt]
        obtain ⟨y, h1, h2, h3⟩ := extended_rowAt.mp h.longer
        by_cases hl : l <+: l0
        · exact ⟨l0, hl, Ne.symm e, by rw [rowAt_add, if_pos rfl]; simp⟩
        · refine ⟨y, h1, h2, ?_⟩
          have ey : y ≠ l0 := by rintro rfl; exact hl h1
          rw [rowAt_add, if_neg ey, if_neg]
          · exact h3
          · rintro ⟨c1, c2, c3⟩
            rcases Nat.le_total l0.length l.length with g | g
            · exact c ⟨c1, c2, prefix_total c3 h1 g⟩
            · exact hl (prefix_total h1 c3 g)

/-- The tables differ at most in such a row. -/
def Near (l : Bytes) (T U : Table) : Prop := T.parserLed = U.parserLed ∧ (SameRows T.rows U.rows ∨ Ghost l T.rows U.rows)

theorem near_add {l : Bytes} {T U : Table} (h : Near l T U) (q : Pattern) : Near l (T.add q) (U.add q) := by
  obtain ⟨h1, h2⟩ := h
  unfold Table.add
  split
  · exact ⟨h1, h2⟩
  · refine ⟨h1, ?_⟩
    rcases h2 with h2 | h2
    · exact .inl (sameRows_add h2 _ _ _)
    · exact (ghost_add h2 _ _ _).imp_right And.right
  · exact ⟨by simp only [h1], h2⟩

theorem near_fold {l : Bytes} (B : List Pattern) : ∀ T U : Table, Near l T U → Near l (B.foldl Table.add T) (B.foldl Table.add U) := by
  induction B with
  | nil => intro T U h; exact h
  | cons q B ih => intro T U h; exact ih _ _ (near_add h q)

theorem same_fold (B : List Pattern) : ∀ T U : Table, SameTable T U → SameTable (B.foldl Table.add T) (B.foldl Table.add U) := by
  induction B with
  | nil => intro T U h; exact h
  | cons q B ih => intro T U h; exact ih _ _ (sameTable_add h q)

/-- Once another pattern that begins with `l` was added, the tables are the same. -/
theorem near_led {l : Bytes} (B : List Pattern) : ∀ T U : Table, Near l T U → Leading B l → SameTable (B.foldl Table.add T) (B.foldl Table.add U) := by
  induction B with
  | nil => rintro T U _ ⟨p, hp, _⟩; simp at hp
  | cons q B ih =>
    intro T U h hl
    by_cases hq : ∃ rest, q.pattern = .literal l :: rest
    · obtain ⟨rest, e⟩ := hq
      refine same_fold B _ _ ?_
      have hn := near_add h q
      refine ⟨?_, hn.1⟩
      rcases h.2 with g | g
      · exact (sameTable_add ⟨g, h.1⟩ q).1
      · have := ghost_add g l rest.isEmpty q
        unfold Table.add
        rw [e]
        rcases this with this | this
        · exact this
        · exact absurd rfl this.1
    · refine ih _ _ (near_add h q) ?_
      obtain ⟨p, hp, rest, e⟩ := hl
      rcases List.mem_cons.mp hp with rfl | hp
      · exact absurd ⟨rest, e⟩ hq
      · exact ⟨p, hp, rest, e⟩

theorem ghost_stops {l : Bytes} {S : List Row} (hu : UniqRows S) (hl : Extended S l) (hn : rowAt S l = none) {b x : Bytes} (hx : b <+: x) (hb : b ≠ l) :
    StopPoint (⟨l, none, none⟩ :: S.filter fun r => decide (r.text ≠ l)) b ↔ StopPoint S b := by
  have hm : (⟨l, none, none⟩ : Row).more = (rowOf S l).more := by rw [rowOf_rowAt, hn]; rfl
  have hg := grown_replace hu (x := x) ⟨l, none, none⟩ rfl hm
  constructor
  · intro h
    rcases grown_new_stops hg h hx with g | ⟨s, s1, s2, s3⟩
    · exact g
    · obtain ⟨e, e1, e2, e3⟩ := hl
      have hls : ¬ l <+: s.text := fun g => hb (prefix_eq s3.2.1 (s3.2.2 l g (List.prefix_refl _)))
      refine .inr (.inr ⟨s, s1, e, e1, ?_, s3.1, s3.2.1.trans e2, ?_⟩)
      · intro g; exact hls (g ▸ e2)
      · intro c c1 c2
        rcases Nat.le_total c.length l.length with g | g
        · exact s3.2.2 c c1 (prefix_total c2 e2 g)
        · exact absurd ((prefix_total e2 c2 g).trans c1) hls
  · intro h
    exact grown_stops hg h hx

theorem ghost_answer {l : Bytes} {R S : List Row} {P : List Pattern} (h : Ghost l R S) (hR : UniqRows R) (hS : UniqRows S) {x : Bytes}
    {r r' : Option MatchResult} (ha : Table.Answer ⟨R, P⟩ x r) (ha' : Table.Answer ⟨S, P⟩ x r') : r = r' ∨ (r = none ∧ l <+: x) := by
  have hm : (⟨l, none, none⟩ : Row).more = (rowOf S l).more := by rw [rowOf_rowAt, h.not_l]; rfl
  have hG : SameRows R (⟨l, none, none⟩ :: S.filter fun r => decide (r.text ≠ l)) := by
    intro y
    have := find_filter_cons S ⟨l, none, none⟩ (fun r => decide (r.text ≠ l)) y (fun t => decide (t ≠ l)) (fun _ => rfl)
    rw [this]
    by_cases e : y = l
    · subst e; rw [h.at_l, if_pos rfl]
    · rw [if_neg e, if_pos (by simpa using e)]; exact h.other y e
  have hU : UniqRows (⟨l, none, none⟩ :: S.filter fun r => decide (r.text ≠ l)) := by
    intro a ha b hb e
    rcases List.mem_cons.mp ha with rfl | ha
    · rcases List.mem_cons.mp hb with rfl | hb
      · rfl
      · have := (List.mem_filter.mp hb).2
        simp [← e] at this
    · rcases List.mem_cons.mp hb with rfl | hb
      · have := (List.mem_filter.mp ha).2
        simp [e] at this
      · exact hS _ (List.mem_filter.mp ha).1 _ (List.mem_filter.mp hb).1 e
  have ha2 := sameTable_answer (T := ⟨R, P⟩) (T' := ⟨_, P⟩) ⟨hG, rfl⟩ hR hU ha
  have hg := grown_replace hS (x := x) ⟨l, none, none⟩ rfl hm
  by_cases hlx : l <+: x
  · by_cases e : x = l
    · subst e
      exact .inr ⟨by simpa using ha2.1 ⟨x, none, none⟩ (by simp) rfl, hlx⟩
    · rcases grown_answer hg e ha' ha2 with g | g
      · exact .inl g
      · exact .inr ⟨g.1, hlx⟩
  · left
    have hxl : x ≠ l := by rintro rfl; exact hlx (List.prefix_refl _)
    by_cases hrow : ∃ row ∈ S, row.text = x
    · obtain ⟨row, h1, h2⟩ := hrow
      rw [ha'.1 row h1 h2, ha2.1 row (by simp [h1, h2, hxl]) h2]
    · have hno : ∀ row ∈ S, row.text ≠ x := fun row h1 h2 => hrow ⟨row, h1, h2⟩
      have hno' : ∀ row ∈ (⟨l, none, none⟩ :: S.filter fun r => decide (r.text ≠ l)), row.text ≠ x := by
        intro row hr
        rcases List.mem_cons.mp hr with rfl | hr
        · exact Ne.symm hxl
        · exact hno row (List.mem_filter.mp hr).1
      obtain ⟨b, hb⟩ := deepest_exists S x
      have hbl : ∀ c, c <+: x → c ≠ l := by rintro c hc rfl; exact hlx hc
      refine answer_same ha' ha2 hno hno' hb ⟨(ghost_stops hS h.longer h.not_l hb.2.1 (hbl b hb.2.1)).mpr hb.1, hb.2.1, ?_⟩ ?_ ?_
      · intro c c1 c2
        exact hb.2.2 c ((ghost_stops hS h.longer h.not_l c2 (hbl c c2)).mp c1) c2
      · intro _ row h1 h2 p hp
        exact ⟨row, by simp [h1, h2, hbl b hb.2.1], h2, hp⟩
      · intro _ row h1 h2 p hp
        rcases List.mem_cons.mp h1 with rfl | h1
        · simp at hp
        · exact ⟨row, (List.mem_filter.mp h1).1, h2, hp⟩

theorem near_answer {l : Bytes} {T U : Table} (h : Near l T U) (hT : UniqRows T.rows) (hU : UniqRows U.rows) {x : Bytes}
    {r r' : Option MatchResult} (ha : T.Answer x r) (ha' : U.Answer x r') : r = r' ∨ (r = none ∧ l <+: x) := by
  obtain ⟨h1, h2⟩ := h
  rcases h2 with h2 | h2
  · exact .inl (C65_answer_unique U x r r' (sameTable_answer ⟨h2, h1⟩ hT hU ha) ha')
  · exact ghost_answer (R := T.rows) (S := U.rows) (P := U.parserLed) h2 hT hU (h1 ▸ ha) ha'

theorem table_split (A B : List Pattern) : Table.of (A ++ B) = B.foldl Table.add (Table.of A) := by simp [Table.of]

/-- The tables just after the lost pattern. -/
theorem near_lost {A : List Pattern} {p : Pattern} {l : Bytes} (hp : GoesOn p l) (hno : (rowOf (Table.of A).rows l).more = none)
    (hl : Extended (Table.of A).rows l) : Near l ((Table.of A).add p) (Table.of A) := by
  rw [← table_snoc, table_goesOn hp]
  refine ⟨rfl, ?_⟩
  simp only
  cases hr : rowAt (Table.of A).rows l with
  | some row =>
    left
    intro x
    rw [rowAt_add]
    by_cases e : x = l
    · subst e
      simp only [Bool.false_eq_true, ↓reduceIte, hno, hl, and_self]
      rw [rowOf_rowAt, hr]; rfl
    · rw [if_neg e, if_neg]
      rintro ⟨_, h, _⟩
      exact h ⟨hno, hl⟩
  | none =>
    right
    refine ⟨?_, hr, ?_, hl⟩
    · rw [rowAt_add, if_pos rfl]
      simp only [Bool.false_eq_true, ↓reduceIte, hno, hl, and_self]
      rw [rowOf_rowAt, hr]; rfl
    · intro x e
      rw [rowAt_add, if_neg e, if_neg]
      rintro ⟨_, h, _⟩
      exact h ⟨hno, hl⟩

/-- A leading literal stays in the table while no pattern goes on after a beginning of it. -/
theorem leading_stays {l : Bytes} (ps : List Pattern) : (∀ p ∈ ps, ∀ l', l' <+: l → ¬ GoesOn p l') → Leading ps l → rowAt (Table.of ps).rows l ≠ none := by
  refine snoc_induction (P := fun ps => (∀ p ∈ ps, ∀ l', l' <+: l → ¬ GoesOn p l') → Leading ps l → rowAt (Table.of ps).rows l ≠ none) ?_ ?_ ps
  · rintro _ ⟨p, hp, _⟩
    simp at hp
  · intro ps q ih h hl
    have ih' := ih fun p hp => h p (by simp [hp])
    rw [table_snoc]
    unfold Table.add
    split
    · rename_i e
      rcases leading_snoc.mp hl with g | ⟨rest, g⟩
      · exact ih' g
      · rw [e] at g; simp at g
    · rename_i l0 rest0 e
      simp only
      rw [rowAt_add]
      by_cases e0 : l = l0
      · rw [if_pos e0]; simp
      · rw [if_neg e0, if_neg]
        · rcases leading_snoc.mp hl with g | ⟨rest, g⟩
          · exact ih' g
          · rw [e] at g; simp at g; exact absurd g.1.symm e0
        · rintro ⟨ha, _, hp⟩
          exact h q (by simp) l0 hp ⟨rest0, by simpa using ha, e⟩
    · rename_i e
      rcases leading_snoc.mp hl with g | ⟨rest, g⟩
      · exact ih' g
      · rw [e] at g; simp at g

theorem same_lost {A : List Pattern} {p : Pattern} {l : Bytes} (hp : GoesOn p l) (hno : (rowOf (Table.of A).rows l).more = none)
    (hl : Extended (Table.of A).rows l) (h : rowAt (Table.of A).rows l ≠ none) : SameTable ((Table.of A).add p) (Table.of A) := by
  obtain ⟨h1, h2⟩ := near_lost hp hno hl
  rcases h2 with h2 | h2
  · exact ⟨h2, h1⟩
  · exact absurd h2.not_l h

/-! ### Patterns that begin with a parser of their own -/

theorem addParserLed_after {a : Parser} {p : Pattern} {b : Parser} {q : Pattern} (hp : p.pattern.head? = some (.parser a)) (hne : b ≠ a)
    (X Y : List Pattern) : (∃ X' Y', addParserLed b q (X ++ p :: Y) = X' ++ p :: Y' ∧ addParserLed b q (X ++ Y) = X' ++ Y') := by
  induction X with
  | nil =>
    refine ⟨[], addParserLed b q Y, ?_, rfl⟩
    simp only [List.nil_append, addParserLed]
    rw [if_neg]
    rw [hp]
    simpa using Ne.symm hne
  | cons s X ih =>
    obtain ⟨X', Y', h1, h2⟩ := ih
    simp only [List.cons_append, addParserLed]
    by_cases c : s.pattern.head? = some (.parser b)
    · rw [if_pos c, if_pos c]
      exact ⟨_ :: X, Y, rfl, rfl⟩
    · rw [if_neg c, if_neg c, h1, h2]
      exact ⟨s :: X', Y', rfl, rfl⟩

theorem ownLed_new {a : Parser} {p : Pattern} (X : List Pattern) (h : ∀ q ∈ X, q.pattern.head? ≠ some (.parser a)) :
    addParserLed a p X = X ++ [p] := by
  induction X with
  | nil => rfl
  | cons s X ih =>
    rw [addParserLed, if_neg (h s (by simp)), ih fun q hq => h q (by simp [hq])]
    rfl

theorem own_fold {a : Parser} {p : Pattern} (hp : p.pattern.head? = some (.parser a)) (B : List Pattern) :
    (∀ q ∈ B, q.pattern.head? ≠ some (.parser a)) → ∀ (rows : List Row) (X Y : List Pattern), ∃ rows' X' Y',
      B.foldl Table.add ⟨rows, X ++ p :: Y⟩ = ⟨rows', X' ++ p :: Y'⟩ ∧ B.foldl Table.add ⟨rows, X ++ Y⟩ = ⟨rows', X' ++ Y'⟩ := by
  induction B with
  | nil => intro _ rows X Y; exact ⟨rows, X, Y, rfl, rfl⟩
  | cons q B ih =>
    intro h rows X Y
    have ih' := ih fun q hq => h q (by simp [hq])
    simp only [List.foldl_cons, Table.add]
    cases hq : q.pattern with
    | nil => exact ih' rows X Y
    | cons tok rest =>
      cases tok with
      | literal l => exact ih' _ X Y
      | parser b =>
        have hne : b ≠ a := by
          rintro rfl
          exact h q (by simp) (by rw [hq]; rfl)
        obtain ⟨X', Y', h1, h2⟩ := addParserLed_after (q := q) hp hne X Y
        simp only [h1, h2]
        exact ih' rows X' Y'

theorem firstAnswer_without {X Y : List Pattern} {p : Pattern} {x : Bytes} (hn : ¬∃ caps, MatchesStrict p.pattern x caps) {r : Option MatchResult}
    (h : FirstAnswer (X ++ p :: Y) x r) : FirstAnswer (X ++ Y) x r := by
  refine ⟨?_, ?_⟩
  · intro C q D caps e hC hq
    rcases List.append_eq_append_iff.mp e with ⟨Z, h1, h2⟩ | ⟨Z, h1, h2⟩
    · -- the answering pattern comes after
      refine h.1 (X ++ p :: Z) q D caps (by rw [h2]; simp) ?_ hq
      intro s hs
      rcases List.mem_append.mp hs with g | g
      · exact hC s (by rw [h1]; simp [g])
      · rcases List.mem_cons.mp g with rfl | g
        · exact hn
        · exact hC s (by rw [h1]; simp [g])
    · cases Z with
      | nil =>
        simp only [List.nil_append, List.append_nil] at h1 h2
        refine h.1 (X ++ [p]) q D caps (by rw [← h2]; simp) ?_ hq
        intro s hs
        rcases List.mem_append.mp hs with g | g
        · exact hC s (h1 ▸ g)
        · rw [List.mem_singleton.mp g]; exact hn
      | cons z Z =>
        simp only [List.cons_append, List.cons.injEq] at h2
        refine h.1 C q (Z ++ p :: Y) caps (by rw [h1, h2.1]; simp) hC hq
  · intro hno
    refine h.2 ?_
    intro s hs
    rcases List.mem_append.mp hs with g | g
    · exact hno s (by simp [g])
    · rcases List.mem_cons.mp g with rfl | g
      · exact hn
      · exact hno s (by simp [g])

/-! ### Suffix arrays -/

theorem lastWith_delete {A B : List Pattern} {p : Pattern} {P : List Token → Prop} (h : P p.pattern → ∃ q ∈ B, P q.pattern) (s : Pattern)
    (hs : LastWith (A ++ B) P s) : LastWith (A ++ p :: B) P s := by
  obtain ⟨C, D, e, h1, h2⟩ := hs
  rcases List.append_eq_append_iff.mp e with ⟨Z, g1, g2⟩ | ⟨Z, g1, g2⟩
  · exact ⟨A ++ p :: Z, D, by rw [g2]; simp, h1, h2⟩
  · cases Z with
    | nil =>
      simp only [List.nil_append, List.append_nil] at g1 g2
      exact ⟨A ++ [p], D, by rw [← g2]; simp, h1, h2⟩
    | cons z Z =>
      simp only [List.cons_append, List.cons.injEq] at g2
      refine ⟨C, Z ++ p :: B, by rw [g1, g2.1]; simp, h1, ?_⟩
      intro q hq
      rcases List.mem_append.mp hq with g | g
      · exact h2 q (by rw [g2.2]; simp [g])
      · have hB : ∀ q ∈ B, ¬ P q.pattern := fun q hq => h2 q (by rw [g2.2]; simp [hq])
        rcases List.mem_cons.mp g with rfl | g
        · intro hP
          obtain ⟨q', g3, g4⟩ := h hP
          exact hB q' g3 g4
        · exact hB q g

/-- If each literal and kind of pattern that `p` stands for occurs later again, the answers do not depend on `p`. -/
theorem suffixAnswer_delete {A B : List Pattern} {p : Pattern} (hlead : ∃ l, Leads (A ++ B) l) (hl : ∀ l, p.pattern.head? = some (.literal l) → Leads (A ++ B) l)
    (h1 : ∀ l, p.pattern = [.literal l] → ∃ q ∈ B, q.pattern = [.literal l])
    (h2 : ∀ l, (∃ rest, rest ≠ [] ∧ p.pattern = .literal l :: rest) → ∃ q ∈ B, ∃ rest, rest ≠ [] ∧ q.pattern = .literal l :: rest) {x : Bytes}
    {r : Option MatchResult} (h : SuffixAnswer (A ++ p :: B) x r) : SuffixAnswer (A ++ B) x r := by
  have hleads : ∀ l, Leads (A ++ p :: B) l ↔ Leads (A ++ B) l := by
    intro l
    constructor
    · rintro ⟨q, hq, e⟩
      rcases List.mem_append.mp hq with g | g
      · exact ⟨q, by simp [g], e⟩
      · rcases List.mem_cons.mp g with rfl | g
        · exact hl l e
        · exact ⟨q, by simp [g], e⟩
    · rintro ⟨q, hq, e⟩
      exact ⟨q, by rcases List.mem_append.mp hq with g | g <;> simp [g], e⟩
  have hmem : ∀ q ∈ A ++ p :: B, q = p ∨ q ∈ A ++ B := by
    intro q hq
    rcases List.mem_append.mp hq with g | g
    · exact .inr (by simp [g])
    · rcases List.mem_cons.mp g with rfl | g
      · exact .inl rfl
      · exact .inr (by simp [g])
  refine ⟨fun hn => absurd hlead (fun ⟨l, hl⟩ => hn l hl), ?_⟩
  intro l hc
  have hc' : Chosen (A ++ p :: B) x l := by
    unfold Chosen at hc ⊢
    simp only [hleads]
    exact hc
  obtain ⟨k1, k2⟩ := h.2 l hc'
  refine ⟨fun hx => ?_, fun hx => ?_⟩
  · obtain ⟨k3, k4⟩ := k1 hx
    refine ⟨fun s hs => k3 s (lastWith_delete (h1 l) s hs), fun hn => k4 ?_⟩
    intro q hq e
    rcases hmem q hq with rfl | g
    · obtain ⟨q', g1, g2⟩ := h1 l e
      exact hn q' (by simp [g1]) g2
    · exact hn q g e
  · obtain ⟨k3, k4⟩ := k2 hx
    refine ⟨fun s hs => k3 s (lastWith_delete (h2 l) s hs), fun hn => k4 ?_⟩
    intro q hq rest hr e
    rcases hmem q hq with rfl | g
    · obtain ⟨q', g1, rest', g2, g3⟩ := h2 l ⟨rest, hr, e⟩
      exact hn q' (by simp [g1]) rest' g2 g3
    · exact hn q g rest hr e

theorem without_sub {A B : List Pattern} {p : Pattern} : ∀ q ∈ A ++ B, q ∈ A ++ p :: B := by
  intro q hq
  rcases List.mem_append.mp hq with g | g <;> simp [g]

end Deleted
open Deleted

/-- C128, trie: a pattern that was lost when it was added (C116) can be deleted from the list: the answers stay the same, except that texts that begin with
its first literal and were not answered may get an answer. -/
theorem C128_lost_partial (sip : Bytes → UInt64) (A B : List Pattern) (p : Pattern) (hps : Proper sip (A ++ p :: B)) (l : Bytes) (hp : GoesOn p l)
    (hno : ∀ q ∈ A, ∀ l', l' <+: l → ¬ GoesOn q l') (hlost : LongerLed A l) (text : Bytes) (hx : Utf8 text) (r r' : Option MatchResult)
    (hr : (SuffixTree.build sip (A ++ p :: B) >>= fun t => t.parse text) = .ok r)
    (hr' : (SuffixTree.build sip (A ++ B) >>= fun t => t.parse text) = .ok r') : r = r' ∨ (r = none ∧ l <+: text) := by
  have hn := near_lost hp (no_more_at fun q hq => hno q hq l (List.prefix_refl _)) (longer_stays A hno hlost)
  have h := near_fold B _ _ hn
  have e1 : B.foldl Table.add ((Table.of A).add p) = Table.of (A ++ p :: B) := by rw [table_split]; rfl
  rw [← table_split, e1] at h
  exact near_answer h (table_rows _).1 (table_rows _).1 (proper_answer hps hx hr) (proper_answer (proper_sub hps without_sub) hx hr')

/-- C128, trie: if another pattern begins with the same literal, deleting the lost pattern changes no answer. -/
theorem C128_lost_same_partial (sip : Bytes → UInt64) (A B : List Pattern) (p : Pattern) (hps : Proper sip (A ++ p :: B)) (l : Bytes) (hp : GoesOn p l)
    (hno : ∀ q ∈ A, ∀ l', l' <+: l → ¬ GoesOn q l') (hlost : LongerLed A l) (hled : Leading (A ++ B) l) (text : Bytes) (hx : Utf8 text)
    (r r' : Option MatchResult) (hr : (SuffixTree.build sip (A ++ p :: B) >>= fun t => t.parse text) = .ok r)
    (hr' : (SuffixTree.build sip (A ++ B) >>= fun t => t.parse text) = .ok r') : r = r' := by
  have hmore := no_more_at (ps := A) fun q hq => hno q hq l (List.prefix_refl _)
  have hlong := longer_stays A hno hlost
  have e1 : B.foldl Table.add ((Table.of A).add p) = Table.of (A ++ p :: B) := by rw [table_split]; rfl
  have h : SameTable (Table.of (A ++ p :: B)) (Table.of (A ++ B)) := by
    rw [← e1, table_split]
    obtain ⟨q, hq, rest, e⟩ := hled
    rcases List.mem_append.mp hq with g | g
    · exact same_fold B _ _ (same_lost hp hmore hlong (leading_stays A hno ⟨q, g, rest, e⟩))
    · exact near_led B _ _ (near_lost hp hmore hlong) ⟨q, g, rest, e⟩
  exact C65_answer_unique _ text r r' (sameTable_answer h (table_rows _).1 (table_rows _).1 (proper_answer hps hx hr))
    (proper_answer (proper_sub hps without_sub) hx hr')

/-- C128, trie: a pattern that begins with a parser with which no other pattern begins can be deleted without an effect on the texts it does not match. -/
theorem C128_parser_led_partial (sip : Bytes → UInt64) (A B : List Pattern) (p : Pattern) (hps : Proper sip (A ++ p :: B)) (a : Parser) (rest : List Token)
    (hp : p.pattern = .parser a :: rest) (hown : ∀ q ∈ A ++ B, q.pattern.head? ≠ some (.parser a)) (text : Bytes) (hx : Utf8 text)
    (hm : ¬∃ caps, MatchesStrict p.pattern text caps) (r r' : Option MatchResult)
    (hr : (SuffixTree.build sip (A ++ p :: B) >>= fun t => t.parse text) = .ok r)
    (hr' : (SuffixTree.build sip (A ++ B) >>= fun t => t.parse text) = .ok r') : r = r' := by
  have hhead : p.pattern.head? = some (.parser a) := by rw [hp]; rfl
  have e1 : Table.of (A ++ p :: B) = B.foldl Table.add ((Table.of A).add p) := by rw [table_split]; rfl
  have e2 : (Table.of A).add p = ⟨(Table.of A).rows, (Table.of A).parserLed ++ p :: []⟩ := by
    unfold Table.add
    rw [hp]
    simp only
    rw [ownLed_new _ fun q hq => hown q (by simp [table_parserLed A q hq])]
  obtain ⟨rows, X, Y, h1, h2⟩ := own_fold hhead B (fun q hq => hown q (by simp [hq])) (Table.of A).rows (Table.of A).parserLed []
  have ha := proper_answer hps hx hr
  have ha' := proper_answer (proper_sub hps without_sub) hx hr'
  rw [e1, e2, h1] at ha
  rw [table_split] at ha'
  have e3 : Table.of A = ⟨(Table.of A).rows, (Table.of A).parserLed ++ []⟩ := by simp
  rw [e3, h2] at ha'
  refine C65_answer_unique ⟨rows, X ++ Y⟩ text r r' ⟨ha.1, fun hn => ?_⟩ ha'
  obtain ⟨b, g1, g2, g3⟩ := ha.2 hn
  exact ⟨b, g1, fun e => firstAnswer_without hm (g2 e), g3⟩

/-- C128, suffix array: a pattern that begins with a literal and is replaced by a later one of its kind (C118) can be deleted: no answer changes. -/
theorem C128_suffix_replaced_partial (sip : Bytes → UInt64) (A B : List Pattern) (p q : Pattern) (hu : ∀ s ∈ A ++ p :: B, Utf8Lits s)
    (hcol : NoCollision sip (A ++ p :: B)) (l : Bytes) (rest rest' : List Token) (hp : p.pattern = .literal l :: rest) (hq : q.pattern = .literal l :: rest')
    (hqB : q ∈ B) (hkind : rest = [] ↔ rest' = []) (text : Bytes) (hx : Utf8 text) (r r' : Option MatchResult)
    (hr : (SuffixTable.build sip (A ++ p :: B) >>= fun t => t.parse text) = .ok r)
    (hr' : (SuffixTable.build sip (A ++ B) >>= fun t => t.parse text) = .ok r') : r = r' := by
  have hu' : ∀ s ∈ A ++ B, Utf8Lits s := fun s hs => hu s (without_sub s hs)
  have hlead : Leads (A ++ B) l := ⟨q, by simp [hqB], by rw [hq]; rfl⟩
  refine C73_answer_unique (A ++ B) hu' text hx r r' (suffixAnswer_delete ⟨l, hlead⟩ ?_ ?_ ?_ (suffix_answer_of hu hcol hx hr))
    (suffix_answer_of hu' (noCollision_sub hcol without_sub) hx hr')
  · intro l' e
    rw [hp] at e
    simp at e
    exact e ▸ hlead
  · intro l' e
    rw [hp] at e
    simp only [List.cons.injEq, Token.literal.injEq] at e
    exact ⟨q, hqB, by rw [hq, hkind.mp e.2, e.1]⟩
  · rintro l' ⟨rest0, h0, e⟩
    rw [hp] at e
    simp only [List.cons.injEq, Token.literal.injEq] at e
    exact ⟨q, hqB, rest', fun h => h0 (e.2 ▸ hkind.mpr h), by rw [hq, e.1]⟩

/-- C128, suffix array: a pattern that begins with a parser can be deleted if some pattern begins with a literal: no answer changes. -/
theorem C128_suffix_parser_led_partial (sip : Bytes → UInt64) (A B : List Pattern) (p : Pattern) (hu : ∀ s ∈ A ++ p :: B, Utf8Lits s)
    (hcol : NoCollision sip (A ++ p :: B)) (a : Parser) (rest : List Token) (hp : p.pattern = .parser a :: rest) (hl : ∃ l, Leading (A ++ B) l)
    (text : Bytes) (hx : Utf8 text) (r r' : Option MatchResult)
    (hr : (SuffixTable.build sip (A ++ p :: B) >>= fun t => t.parse text) = .ok r)
    (hr' : (SuffixTable.build sip (A ++ B) >>= fun t => t.parse text) = .ok r') : r = r' := by
  have hu' : ∀ s ∈ A ++ B, Utf8Lits s := fun s hs => hu s (without_sub s hs)
  refine C73_answer_unique (A ++ B) hu' text hx r r' (suffixAnswer_delete (hl.imp fun l h => leads_leading.mpr h) ?_ ?_ ?_ (suffix_answer_of hu hcol hx hr))
    (suffix_answer_of hu' (noCollision_sub hcol without_sub) hx hr')
  · intro l' e; rw [hp] at e; simp at e
  · intro l' e; rw [hp] at e; simp at e
  · rintro l' ⟨_, _, e⟩; rw [hp] at e; simp at e

/-! ### What can happen -/

namespace Deleted

/-- One leading parser alone cannot collide. -/
theorem one_parser {sip : Bytes → UInt64} {ps : List Pattern} (a : Parser) (h : ∀ p ∈ ps, ∀ b, p.pattern.head? = some (.parser b) → b = a) :
    NoCollision sip ps := by
  rintro b c ⟨p, hp, e⟩ ⟨q, hq, e'⟩ _
  rw [h p hp b e, h q hq c e']

/-- `ab`, `%{GREEDY:g}` and `a%{INT:i}`, which is lost -/
def trieSample : List Pattern := [Samples.pat 1 [.literal b!"ab"], Samples.pat 2 [.parser (Samples.greedy b!"g" none)]]
def lostSample : Pattern := Samples.pat 3 [.literal b!"a", .parser (Samples.int b!"i")]

theorem trieSample_proper : Proper Samples.sip (trieSample ++ [lostSample]) := by
  refine ⟨?_, ?_, ?_, one_parser (.greedy ⟨some b!"g", none⟩) ?_⟩
  · intro p hp l hl
    simp only [trieSample, lostSample, List.cons_append, List.nil_append, List.mem_cons, List.not_mem_nil, or_false] at hp
    rcases hp with rfl | rfl | rfl <;> simp [Samples.pat] at hl <;> subst hl <;> exact ascii_utf8 (by decide)
  · intro p hp l hl
    simp only [trieSample, lostSample, List.cons_append, List.nil_append, List.mem_cons, List.not_mem_nil, or_false] at hp
    rcases hp with rfl | rfl | rfl <;> simp [Samples.pat] at hl <;> subst hl <;> decide
  · intro p hp l rest e l'
    simp only [trieSample, lostSample, List.cons_append, List.nil_append, List.mem_cons, List.not_mem_nil, or_false] at hp
    rcases hp with rfl | rfl | rfl <;> simp [Samples.pat] at e <;> obtain ⟨-, rfl⟩ := e <;> simp
  · simp [trieSample, lostSample, Samples.pat, Samples.greedy]

theorem lostSample_goesOn : GoesOn lostSample b!"a" := ⟨_, by simp, rfl⟩
theorem lostSample_late : LongerLed trieSample b!"a" := ⟨b!"ab", ⟨_, List.mem_cons_self .., _, rfl⟩, by decide, by decide⟩
theorem trieSample_stops : ∀ q ∈ trieSample, ∀ l', l' <+: b!"a" → ¬ GoesOn q l' := by
  rintro q hq l' _ ⟨rest, h, e⟩
  simp only [trieSample, List.mem_cons, List.not_mem_nil, or_false] at hq
  rcases hq with rfl | rfl
  · simp only [Samples.pat, List.cons.injEq] at e; exact h e.2.symm
  · simp [Samples.pat] at e

theorem trieSample_changes : (SuffixTree.build Samples.sip (trieSample ++ [lostSample]) >>= fun t => t.parse b!"ac") = .ok none ∧
    (SuffixTree.build Samples.sip trieSample >>= fun t => t.parse b!"ac") = .ok (some ⟨Samples.pat 2 [], [(b!"g", b!"ac")]⟩) := by decide +kernel

/-- `a%{GREEDY:g}` and `ab%{GREEDY:h}%{INT:i}`, which matches nothing -/
def arraySample : List Pattern := [Samples.pat 1 [.literal b!"a", .parser (Samples.greedy b!"g" none)]]
def emptySample : Pattern := Samples.pat 2 [.literal b!"ab", .parser (Samples.greedy b!"h" none), .parser (Samples.int b!"i")]

theorem arraySample_utf8 : ∀ p ∈ arraySample ++ [emptySample], Utf8Lits p := by
  intro p hp l hl
  simp only [arraySample, emptySample, List.cons_append, List.nil_append, List.mem_cons, List.not_mem_nil, or_false] at hp
  rcases hp with rfl | rfl <;> simp [Samples.pat] at hl <;> subst hl <;> exact ascii_utf8 (by decide)

theorem emptySample_nothing (x : Bytes) : ¬∃ caps, LooseMatches emptySample.pattern x caps := by
  rintro ⟨caps, h⟩
  simp only [emptySample, Samples.pat] at h
  cases h with
  | literal _ c y _ _ _ _ _ h =>
    cases h with
    | parser _ _ v z caps' h1 h2 =>
      simp only [ParserMatch, Samples.greedy] at h1
      have hz : z = [] := by
        have := congrArg List.length h1
        simp at this; exact this
      subst hz
      generalize hz : ([] : Bytes) = z at h2
      cases h2 with
      | parser _ _ v' y' caps'' h3 h4 =>
        have hv : v' = [] := by simp at hz; exact hz.1
        exact h3.nonempty hv

theorem arraySample_changes : (SuffixTable.build Samples.sip (arraySample ++ [emptySample]) >>= fun t => t.parse b!"abc") = .ok none ∧
    (SuffixTable.build Samples.sip arraySample >>= fun t => t.parse b!"abc") = .ok (some ⟨Samples.pat 1 [], [(b!"g", b!"bc")]⟩) := by decide +kernel

end Deleted

/-- C128 is false for the trie: `a%{INT:i}`, added after `ab`, is the answer for no text.  But without it `%{GREEDY:g}` is the answer for `ac`, and with it
there is none. -/
theorem C128_refuted : ¬ ∀ (sip : Bytes → UInt64) (A B : List Pattern) (p : Pattern), Proper sip (A ++ p :: B) → UuidsTell (A ++ p :: B) →
    (∀ text res, Utf8 text → (SuffixTree.build sip (A ++ p :: B) >>= fun t => t.parse text) = .ok (some res) → res.pattern.uuid ≠ p.uuid) →
    ∀ text, Utf8 text → (SuffixTree.build sip (A ++ p :: B) >>= fun t => t.parse text) = (SuffixTree.build sip (A ++ B) >>= fun t => t.parse text) := by
  intro h
  have := h Samples.sip trieSample [] lostSample trieSample_proper (by decide) (fun text res hx hr =>
    C116_lost Samples.sip trieSample lostSample trieSample_proper (by decide) b!"a" lostSample_goesOn trieSample_stops lostSample_late text hx res hr)
    b!"ac" (ascii_utf8 (by decide))
  rw [List.append_nil, trieSample_changes.1, trieSample_changes.2] at this
  simp at this

/-- C128 is false for the suffix array: `ab%{GREEDY:h}%{INT:i}` is the answer for no text.  But without it `a%{GREEDY:g}` is the answer for `abc`, and with it
there is none. -/
theorem C128_suffix_refuted : ¬ ∀ (sip : Bytes → UInt64) (A B : List Pattern) (p : Pattern), (∀ s ∈ A ++ p :: B, Utf8Lits s) → NoCollision sip (A ++ p :: B) →
    UuidsTell (A ++ p :: B) →
    (∀ text res, Utf8 text → (SuffixTable.build sip (A ++ p :: B) >>= fun t => t.parse text) = .ok (some res) → res.pattern.uuid ≠ p.uuid) →
    ∀ text, Utf8 text → (SuffixTable.build sip (A ++ p :: B) >>= fun t => t.parse text) = (SuffixTable.build sip (A ++ B) >>= fun t => t.parse text) := by
  intro h
  have hcol : NoCollision Samples.sip (arraySample ++ [emptySample]) :=
    one_parser (Samples.int b!"i") (by simp [arraySample, emptySample, Samples.pat])
  have := h Samples.sip arraySample [] emptySample arraySample_utf8 hcol (by decide) (fun text res hx hr => by
    cases hb : SuffixTable.build Samples.sip (arraySample ++ [emptySample]) with
    | error e => rw [hb] at hr; simp [bind, Except.bind] at hr
    | ok t =>
      rw [hb] at hr
      obtain ⟨p, hp, caps, h1, h2⟩ := C28_loose_partial Samples.sip _ arraySample_utf8 hcol t hb text hx res hr
      rcases List.mem_append.mp hp with g | g
      · rw [List.mem_singleton.mp g] at h2
        rw [h2.1]
        decide
      · rw [List.mem_singleton.mp g] at h1
        exact absurd ⟨caps, h1⟩ (emptySample_nothing text))
    b!"abc" (ascii_utf8 (by decide))
  rw [List.append_nil, arraySample_changes.1, arraySample_changes.2] at this
  simp at this

end Verif
