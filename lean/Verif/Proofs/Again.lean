import Verif.Proofs.Reorder
/-! Adding the same patterns again. -/
namespace Verif
open Spec

/-! ### The rows -/

/-- A pattern goes on after the text. -/
def OpenRow (rows : List Row) (x : Bytes) : Prop := ∃ r, rowAt rows x = some r ∧ r.more ≠ none

/-- A pattern goes on after a proper beginning of the text. -/
def Covered (rows : List Row) (x : Bytes) : Prop := ∃ y, y <+: x ∧ y ≠ x ∧ OpenRow rows y

theorem openRow_rowOf {rows : List Row} {x : Bytes} : OpenRow rows x ↔ (rowOf rows x).more ≠ none := by
  unfold OpenRow
  rw [rowOf_rowAt]
  cases h : rowAt rows x with
  | none => simp
  | some r => simp

/-- Rows that are not covered stay. -/
def StayRows (A F : List Row) : Prop :=
  ∀ x, rowAt A x ≠ none → ¬ Covered A x → rowAt F x ≠ none ∧ ¬ Covered F x ∧ (OpenRow A x → OpenRow F x)

theorem stayRows_refl (A : List Row) : StayRows A A := fun _ h h' => ⟨h, h', id⟩

theorem stayRows_trans {A B C : List Row} (h : StayRows A B) (h' : StayRows B C) : StayRows A C := by
  intro x hx hc
  obtain ⟨h1, h2, h3⟩ := h x hx hc
  obtain ⟨g1, g2, g3⟩ := h' x h1 h2
  exact ⟨g1, g2, fun ho => g3 (h3 ho)⟩

/-- Which rows are open after an addition. -/
theorem openRow_add {rows : List Row} {l : Bytes} {a : Bool} {p : Pattern} {x : Bytes} (h : OpenRow (addLiteralLed rows l a p) x) :
    OpenRow rows x ∨ (x = l ∧ a = false ∧ ¬((rowOf rows l).more = none ∧ Extended rows l)) := by
  obtain ⟨r, h1, h2⟩ := h
  rw [rowAt_add] at h1
  split at h1
  · rename_i e
    subst e
    by_cases c : a = false ∧ ¬((rowOf rows x).more = none ∧ Extended rows x)
    · exact .inr ⟨rfl, c⟩
    · left
      rw [openRow_rowOf]
      simp only [Option.some.injEq] at h1
      subst h1
      cases a with
      | true => simpa using h2
      | false =>
        have : (rowOf rows x).more = none ∧ Extended rows x := by
          false_or_by_contra
          rename_i g
          exact c ⟨rfl, g⟩
        rw [if_neg (by simp), if_pos this] at h2
        exact h2
  · split at h1
    · cases h1
    · exact .inl ⟨r, h1, h2⟩

theorem stayRows_add (rows : List Row) (l : Bytes) (a : Bool) (p : Pattern) : StayRows rows (addLiteralLed rows l a p) := by
  intro x hx hc
  have key : l <+: x → x ≠ l → a = false → (rowOf rows l).more = none ∧ Extended rows l := by
    intro h1 h2 _
    refine ⟨?_, extended_rowAt.mpr ⟨x, h1, h2, hx⟩⟩
    false_or_by_contra
    rename_i h
    exact hc ⟨l, h1, fun e => h2 e.symm, openRow_rowOf.mpr h⟩
  refine ⟨?_, ?_, ?_⟩
  · rw [rowAt_add]
    split
    · simp
    · rename_i e
      rw [if_neg]
      · exact hx
      · rintro ⟨h1, h2, h3⟩
        exact h2 (key h3 e h1)
  · rintro ⟨y, h1, h2, h3⟩
    rcases openRow_add h3 with g | ⟨rfl, g1, g2⟩
    · exact hc ⟨y, h1, h2, g⟩
    · exact g2 (key h1 (fun e => h2 e.symm) g1)
  · rintro ho
    rw [openRow_rowOf] at ho
    by_cases e : x = l
    · subst e
      refine ⟨_, by rw [rowAt_add, if_pos rfl], ?_⟩
      cases a with
      | true => simpa using ho
      | false =>
        rw [if_neg (by simp), if_neg (fun h => ho h.1)]
        simp
    · obtain ⟨r, h1, h2⟩ := openRow_rowOf.mpr ho
      refine ⟨r, ?_, h2⟩
      rw [rowAt_add, if_neg e, if_neg]
      · exact h1
      · rintro ⟨g1, g2, g3⟩
        exact g2 (key g3 e g1)

/-- What is known of a text from two rows, the first one having precedence. -/
def mergeRows : Option Row → Option Row → Option Row
  | none, f => f
  | some a, none => some a
  | some a, some f => some ⟨a.text, a.whole.or f.whole, a.more.or f.more⟩

/-- `B` results from laying the rows `A` over `F`. -/
def Overlaid (A B F : List Row) : Prop :=
  ∀ x, (Covered A x → rowAt B x = rowAt A x) ∧ (¬ Covered A x → rowAt B x = mergeRows (rowAt A x) (rowAt F x))

theorem overlaid_start (F : List Row) : Overlaid [] F F := by
  intro x
  have : ¬ Covered [] x := by
    rintro ⟨y, _, _, r, h, _⟩
    simp [rowAt] at h
  exact ⟨fun h => absurd h this, fun _ => by simp [rowAt, mergeRows]⟩

theorem overlaid_end {B F : List Row} (h : Overlaid F B F) : SameRows B F := by
  intro x
  by_cases c : Covered F x
  · exact (h x).1 c
  · rw [(h x).2 c]
    cases rowAt F x with
    | none => rfl
    | some r => simp [mergeRows]

theorem covered_congr {A A' : List Row} (h : ∀ x, OpenRow A' x ↔ OpenRow A x) (x : Bytes) : Covered A' x ↔ Covered A x := by
  unfold Covered
  simp only [h]

theorem mergeRows_more (a f : Option Row) (l : Bytes) :
    ((mergeRows a f).getD ⟨l, none, none⟩).more = ((a.getD ⟨l, none, none⟩).more).or ((f.getD ⟨l, none, none⟩).more) := by
  cases a with
  | none => cases f <;> simp [mergeRows]
  | some a => cases f <;> simp [mergeRows]

theorem overlaid_alone {A B F : List Row} (h : Overlaid A B F) (l : Bytes) (p : Pattern) :
    Overlaid (addLiteralLed A l true p) (addLiteralLed B l true p) F := by
  have hA : ∀ x, rowAt (addLiteralLed A l true p) x = if x = l then some { rowOf A l with whole := some p } else rowAt A x := by
    intro x; rw [rowAt_add]; simp
  have hB : ∀ x, rowAt (addLiteralLed B l true p) x = if x = l then some { rowOf B l with whole := some p } else rowAt B x := by
    intro x; rw [rowAt_add]; simp
  have hopen : ∀ x, OpenRow (addLiteralLed A l true p) x ↔ OpenRow A x := by
    intro x
    rw [openRow_rowOf, openRow_rowOf, rowOf_rowAt (addLiteralLed A l true p), hA]
    by_cases e : x = l
    · subst e; simp
    · rw [if_neg e]; exact Iff.rfl
  intro x
  rw [covered_congr hopen, hA, hB]
  by_cases e : x = l
  · subst e
    simp only [if_true]
    constructor
    · intro c
      rw [rowOf_rowAt B, rowOf_rowAt A, (h x).1 c]
    · intro c
      rw [rowOf_rowAt B, rowOf_rowAt A, (h x).2 c]
      cases ha : rowAt A x with
      | none =>
        cases hf : rowAt F x with
        | none => simp [mergeRows]
        | some f =>
          have := (rowAt_text hf).2
          simp [mergeRows, this]
      | some r =>
        cases hf : rowAt F x with
        | none => simp [mergeRows]
        | some f => simp [mergeRows]
  · simp only [if_neg e]
    exact h x

/-- Where a row extends a text that is not covered and after which nothing goes on, a row that is not covered does. -/
theorem uncovered_extension {A : List Row} {l : Bytes} (hl : ¬ Covered A l) (ho : (rowOf A l).more = none) (he : Extended A l) :
    ∃ x, l <+: x ∧ x ≠ l ∧ rowAt A x ≠ none ∧ ¬ Covered A x := by
  obtain ⟨x, h1, h2, h3⟩ := extended_rowAt.mp he
  -- the shortest such row
  have key : ∀ n, ∀ x, x.length ≤ n → l <+: x → x ≠ l → rowAt A x ≠ none → ∃ x, l <+: x ∧ x ≠ l ∧ rowAt A x ≠ none ∧ ¬ Covered A x := by
    intro n
    induction n with
    | zero =>
      intro x hx h1 h2 _
      have : x = [] := List.length_eq_zero_iff.mp (Nat.le_zero.mp hx)
      subst this
      exact absurd (List.prefix_nil.mp h1).symm h2
    | succ n ih =>
      intro x hx h1 h2 h3
      by_cases c : Covered A x
      · obtain ⟨y, y1, y2, y3⟩ := c
        have hlen : y.length < x.length := by
          refine Nat.lt_of_le_of_ne y1.length_le (fun e => y2 (y1.eq_of_length e))
        have hly : l <+: y := by
          rcases Nat.le_total l.length y.length with g | g
          · exact List.prefix_of_prefix_length_le h1 y1 g
          · have hyl : y <+: l := List.prefix_of_prefix_length_le y1 h1 g
            by_cases e : y = l
            · exact e ▸ List.prefix_refl _
            · exact absurd ⟨y, hyl, e, y3⟩ hl
        have hne : y ≠ l := by
          rintro rfl
          exact openRow_rowOf.mp y3 ho
        obtain ⟨r, hr, _⟩ := y3
        exact ih y (by omega) hly hne (by rw [hr]; simp)
      · exact ⟨x, h1, h2, h3, c⟩
  exact key x.length x (Nat.le_refl _) h1 h2 h3

theorem overlaid_more {A B F : List Row} (h : Overlaid A B F) (l : Bytes) (p : Pattern) (hs : StayRows (addLiteralLed A l false p) F) :
    Overlaid (addLiteralLed A l false p) (addLiteralLed B l false p) F := by
  have hs0 : StayRows A F := stayRows_trans (stayRows_add A l false p) hs
  by_cases hc : Covered A l
  · -- the region of `l` is the same in both
    have hcx : ∀ x, l <+: x → Covered A x := by
      intro x hx
      obtain ⟨y, y1, y2, y3⟩ := hc
      refine ⟨y, y1.trans hx, ?_, y3⟩
      rintro rfl
      exact y2 (y1.eq_of_length (Nat.le_antisymm y1.length_le hx.length_le))
    have hr : ∀ x, l <+: x → rowAt B x = rowAt A x := fun x hx => (h x).1 (hcx x hx)
    have hro : rowOf B l = rowOf A l := by rw [rowOf_rowAt, rowOf_rowAt, hr l (List.prefix_refl _)]
    have hex : Extended B l ↔ Extended A l := by
      rw [extended_rowAt, extended_rowAt]
      constructor
      · rintro ⟨x, h1, h2, h3⟩; exact ⟨x, h1, h2, by rwa [← hr x h1]⟩
      · rintro ⟨x, h1, h2, h3⟩; exact ⟨x, h1, h2, by rwa [hr x h1]⟩
    have hcov : ∀ x, ¬ l <+: x → (Covered (addLiteralLed A l false p) x ↔ Covered A x) := by
      intro x hx
      have hopen : ∀ y, y <+: x → (OpenRow (addLiteralLed A l false p) y ↔ OpenRow A y) := by
        intro y hy
        have hly : ¬ l <+: y := fun g => hx (g.trans hy)
        rw [openRow_rowOf, openRow_rowOf, rowOf_rowAt (addLiteralLed A l false p), rowAt_add,
          if_neg (fun e : y = l => hly (e ▸ List.prefix_refl _)), if_neg (fun g => hly g.2.2)]
        exact Iff.rfl
      constructor
      · rintro ⟨y, h1, h2, h3⟩; exact ⟨y, h1, h2, (hopen y h1).mp h3⟩
      · rintro ⟨y, h1, h2, h3⟩; exact ⟨y, h1, h2, (hopen y h1).mpr h3⟩
    -- what covers `l` still does
    have hcl : ∀ x, l <+: x → Covered (addLiteralLed A l false p) x := by
      intro x hx
      obtain ⟨y, y1, y2, y3⟩ := hc
      have hly : ¬ l <+: y := fun g => y2 (y1.eq_of_length (Nat.le_antisymm y1.length_le g.length_le))
      refine ⟨y, y1.trans hx, fun e => hly (e ▸ hx), ?_⟩
      rw [openRow_rowOf, rowOf_rowAt, rowAt_add, if_neg (fun e : y = l => hly (e ▸ List.prefix_refl _)), if_neg (fun g => hly g.2.2)]
      exact openRow_rowOf.mp y3
    intro x
    by_cases hx : l <+: x
    · refine ⟨fun _ => ?_, fun g => absurd (hcl x hx) g⟩
      rw [rowAt_add, rowAt_add, hro]
      simp only [hex, hr x hx]
    · rw [hcov x hx, rowAt_add, rowAt_add, if_neg (fun e : x = l => hx (e ▸ List.prefix_refl _)), if_neg (fun g => hx g.2.2),
        if_neg (fun e : x = l => hx (e ▸ List.prefix_refl _)), if_neg (fun g => hx g.2.2)]
      exact h x
  · by_cases hlost : (rowOf A l).more = none ∧ Extended A l
    · -- lost in both
      obtain ⟨y, y1, y2, y3, y4⟩ := uncovered_extension hc hlost.1 hlost.2
      obtain ⟨f1, f2, _⟩ := hs0 y y3 y4
      have hFl : (rowOf F l).more = none := by
        false_or_by_contra
        rename_i g
        exact f2 ⟨l, y1, fun e => y2 e.symm, openRow_rowOf.mpr g⟩
      have hBl : (rowOf B l).more = none := by
        rw [rowOf_rowAt, (h l).2 hc, mergeRows_more, ← rowOf_rowAt, ← rowOf_rowAt, hlost.1, hFl]
        rfl
      have hBe : Extended B l := by
        refine extended_rowAt.mpr ⟨y, y1, y2, ?_⟩
        rw [(h y).2 y4]
        cases ha : rowAt A y with
        | none => exact absurd ha y3
        | some r => cases rowAt F y <;> simp [mergeRows]
      have hA : ∀ x, rowAt (addLiteralLed A l false p) x = if x = l then some (rowOf A l) else rowAt A x := by
        intro x; rw [rowAt_add]; simp [hlost]
      have hB : ∀ x, rowAt (addLiteralLed B l false p) x = if x = l then some (rowOf B l) else rowAt B x := by
        intro x; rw [rowAt_add]; simp [hBl, hBe]
      have hopen : ∀ x, OpenRow (addLiteralLed A l false p) x ↔ OpenRow A x := by
        intro x
        rw [openRow_rowOf, openRow_rowOf, rowOf_rowAt (addLiteralLed A l false p), hA]
        by_cases e : x = l
        · subst e; simp
        · rw [if_neg e]; exact Iff.rfl
      intro x
      rw [covered_congr hopen, hA, hB]
      by_cases e : x = l
      · subst e
        simp only [if_true]
        refine ⟨fun g => absurd g hc, fun _ => ?_⟩
        rw [rowOf_rowAt B, rowOf_rowAt A, (h x).2 hc]
        cases ha : rowAt A x with
        | none =>
          cases hf : rowAt F x with
          | none => simp [mergeRows]
          | some f =>
            obtain ⟨_, ht⟩ := rowAt_text hf
            cases f
            simp only at ht
            subst ht
            simp [mergeRows]
        | some r =>
          cases hf : rowAt F x with
          | none => simp [mergeRows]
          | some f => simp [mergeRows]
      · simp only [if_neg e]
        exact h x
    · -- placed in both
      have hrow : rowAt (addLiteralLed A l false p) l = some { rowOf A l with more := some p } := by
        rw [rowAt_add]; simp [hlost]
      have hopenl : OpenRow (addLiteralLed A l false p) l := ⟨_, hrow, by simp⟩
      have hopen : ∀ y, ¬ l <+: y → (OpenRow (addLiteralLed A l false p) y ↔ OpenRow A y) := by
        intro y hly
        rw [openRow_rowOf, openRow_rowOf, rowOf_rowAt (addLiteralLed A l false p), rowAt_add,
          if_neg (fun e : y = l => hly (e ▸ List.prefix_refl _)), if_neg (fun g => hly g.2.2)]
        exact Iff.rfl
      have hnc : ∀ x, x <+: l ∨ ¬ l <+: x → (Covered (addLiteralLed A l false p) x ↔ Covered A x) := by
        intro x hx
        have hpre : ∀ y, y <+: x → y ≠ x → ¬ l <+: y := by
          intro y h1 h2 h3
          rcases hx with hx | hx
          · exact h2 (h1.eq_of_length (Nat.le_antisymm h1.length_le (Nat.le_trans hx.length_le h3.length_le)))
          · exact hx (h3.trans h1)
        constructor
        · rintro ⟨y, h1, h2, h3⟩; exact ⟨y, h1, h2, (hopen y (hpre y h1 h2)).mp h3⟩
        · rintro ⟨y, h1, h2, h3⟩; exact ⟨y, h1, h2, (hopen y (hpre y h1 h2)).mpr h3⟩
      have hcA : ¬ Covered (addLiteralLed A l false p) l := fun g => hc ((hnc l (.inl (List.prefix_refl _))).mp g)
      obtain ⟨_, _, f3⟩ := hs l (by rw [hrow]; simp) hcA
      have hFl : (rowOf F l).more ≠ none := openRow_rowOf.mp (f3 hopenl)
      have hBl : (rowOf B l).more ≠ none := by
        rw [rowOf_rowAt, (h l).2 hc, mergeRows_more, ← rowOf_rowAt, ← rowOf_rowAt]
        cases (rowOf A l).more with
        | none => simpa using hFl
        | some q => simp
      have hBlost : ¬((rowOf B l).more = none ∧ Extended B l) := fun g => hBl g.1
      intro x
      by_cases e : x = l
      · subst e
        refine ⟨fun g => absurd g hcA, fun _ => ?_⟩
        have hrowB : rowAt (addLiteralLed B x false p) x = some { rowOf B x with more := some p } := by
          rw [rowAt_add]; simp [hBl]
        rw [hrow, hrowB, rowOf_rowAt B, rowOf_rowAt A, (h x).2 hc]
        cases ha : rowAt A x with
        | none =>
          cases hf : rowAt F x with
          | none => simp [mergeRows]
          | some f =>
            have := (rowAt_text hf).2
            simp [mergeRows, this]
        | some r =>
          cases hf : rowAt F x with
          | none => simp [mergeRows]
          | some f => simp [mergeRows]
      · by_cases hx : l <+: x
        · have hcx : Covered (addLiteralLed A l false p) x := ⟨l, hx, fun g => e g.symm, hopenl⟩
          refine ⟨fun _ => ?_, fun g => absurd hcx g⟩
          rw [rowAt_add, rowAt_add, if_neg e, if_neg e, if_pos ⟨rfl, hBlost, hx⟩, if_pos ⟨rfl, hlost, hx⟩]
        · rw [hnc x (.inr hx), rowAt_add, rowAt_add, if_neg e, if_neg e, if_neg (fun g => hx g.2.2), if_neg (fun g => hx g.2.2)]
          exact h x

/-! ### The patterns that begin with a parser -/

/-- The pattern that begins with the parser. -/
def ledBy (L : List Pattern) (a : Parser) : Option Pattern := L.find? fun q => decide (q.pattern.head? = some (.parser a))

theorem ledBy_head {L : List Pattern} {a : Parser} {g : Pattern} (h : ledBy L a = some g) : g.pattern.head? = some (.parser a) := by
  have := List.find?_some h
  simpa using this

theorem ledBy_add (a b : Parser) (p : Pattern) (hp : p.pattern.head? = some (.parser a)) (L : List Pattern) :
    ledBy (addParserLed a p L) b = if b = a then
      some (match ledBy L a with | some q => if p.pattern = [.parser a] ∧ q.pattern ≠ [.parser a] then q else p | none => p)
      else ledBy L b := by
  induction L with
  | nil =>
    by_cases e : b = a
    · subst e; simp [addParserLed, ledBy, hp]
    · have : ¬ a = b := fun h => e h.symm
      simp [addParserLed, ledBy, hp, e, this]
  | cons q L ih =>
    by_cases hq : q.pattern.head? = some (.parser a)
    · have hr : (if p.pattern = [.parser a] ∧ q.pattern ≠ [.parser a] then q else p).pattern.head? = some (.parser a) := by
        split
        · exact hq
        · exact hp
      rw [addParserLed, if_pos hq]
      unfold ledBy
      by_cases e : b = a
      · subst e
        rw [if_pos rfl, List.find?_cons_of_pos (by simpa using hr), List.find?_cons_of_pos (by simpa using hq)]
      · have hne : ∀ s : Pattern, s.pattern.head? = some (.parser a) → ¬ s.pattern.head? = some (.parser b) := by
          intro s hs g
          rw [hs] at g
          simp only [Option.some.injEq, Token.parser.injEq] at g
          exact e g.symm
        rw [if_neg e, List.find?_cons_of_neg (by simpa using hne _ hr), List.find?_cons_of_neg (by simpa using hne _ hq)]
    · rw [addParserLed, if_neg hq]
      have hL : ledBy (q :: L) a = ledBy L a := by
        unfold ledBy
        rw [List.find?_cons_of_neg (by simpa using hq)]
      rw [hL]
      by_cases hb : q.pattern.head? = some (.parser b)
      · have e : ¬ b = a := by rintro rfl; exact hq hb
        rw [if_neg e]
        unfold ledBy
        rw [List.find?_cons_of_pos (by simpa using hb), List.find?_cons_of_pos (by simpa using hb)]
      · have h1 : ∀ L', ledBy (q :: L') b = ledBy L' b := by
          intro L'
          unfold ledBy
          rw [List.find?_cons_of_neg (by simpa using hb)]
        rw [h1, h1, ih]

/-- What becomes of a pattern when the patterns `A` are laid over it. -/
def laidOver (A : List Pattern) (f : Pattern) : Pattern :=
  match f.pattern.head? with
  | some (.parser a) =>
    match ledBy A a with
    | none => f
    | some g => if g.pattern = [.parser a] ∧ f.pattern ≠ [.parser a] then f else g
  | _ => f

theorem laidOver_eq {A : List Pattern} {f : Pattern} {a : Parser} (h : f.pattern.head? = some (.parser a)) :
    laidOver A f = match ledBy A a with | none => f | some g => if g.pattern = [.parser a] ∧ f.pattern ≠ [.parser a] then f else g := by
  unfold laidOver
  rw [h]

theorem laidOver_head {A : List Pattern} {f : Pattern} {a : Parser} (h : f.pattern.head? = some (.parser a)) :
    (laidOver A f).pattern.head? = some (.parser a) := by
  rw [laidOver_eq h]
  split
  · exact h
  · rename_i g hg
    split
    · exact h
    · exact ledBy_head hg

/-- Every pattern begins with a parser of its own. -/
def OwnHeads (L : List Pattern) : Prop :=
  (∀ q ∈ L, ∃ a, q.pattern.head? = some (.parser a)) ∧ L.Pairwise fun q q' => q.pattern.head? ≠ q'.pattern.head?

theorem laidOver_add (a : Parser) (p : Pattern) (hp : p.pattern.head? = some (.parser a)) (A : List Pattern) :
    ∀ F : List Pattern, OwnHeads F → (∃ f ∈ F, f.pattern.head? = some (.parser a)) →
      addParserLed a p (F.map (laidOver A)) = F.map (laidOver (addParserLed a p A)) := by
  have hother : ∀ f : Pattern, (∃ b, f.pattern.head? = some (.parser b)) → f.pattern.head? ≠ some (.parser a) →
      laidOver (addParserLed a p A) f = laidOver A f := by
    rintro f ⟨b, hb⟩ hn
    rw [laidOver_eq hb, laidOver_eq hb, ledBy_add a b p hp, if_neg]
    rintro rfl
    exact hn hb
  intro F
  induction F with
  | nil => rintro _ ⟨f, hf, _⟩; cases hf
  | cons f F ih =>
    intro hF hex
    have hF' : OwnHeads F := ⟨fun q hq => hF.1 q (List.mem_cons_of_mem _ hq), (List.pairwise_cons.mp hF.2).2⟩
    by_cases hf : f.pattern.head? = some (.parser a)
    · have hrest : F.map (laidOver (addParserLed a p A)) = F.map (laidOver A) := by
        refine List.map_congr_left (fun q hq => hother q (hF'.1 q hq) ?_)
        rw [← hf]
        exact ((List.pairwise_cons.mp hF.2).1 q hq).symm
      rw [List.map_cons, List.map_cons, addParserLed, if_pos (laidOver_head hf), hrest]
      congr 1
      rw [laidOver_eq hf, laidOver_eq hf, ledBy_add a a p hp, if_pos rfl]
      cases hA : ledBy A a with
      | none =>
        simp only
      | some g =>
        simp only
        by_cases h1 : p.pattern = [.parser a] <;> by_cases h2 : g.pattern = [.parser a] <;> by_cases h3 : f.pattern = [.parser a] <;> simp [h1, h2, h3]
    · have hfa : ¬ (laidOver A f).pattern.head? = some (.parser a) := by
        obtain ⟨b, hb⟩ := hF.1 f (List.mem_cons_self ..)
        rw [laidOver_head hb]
        rw [hb] at hf
        exact hf
      rw [List.map_cons, List.map_cons, addParserLed, if_neg hfa, hother f (hF.1 f (List.mem_cons_self ..)) hf, ih hF']
      obtain ⟨s, hs, hh⟩ := hex
      rcases List.mem_cons.mp hs with rfl | hs
      · exact absurd hh hf
      · exact ⟨s, hs, hh⟩

theorem laidOver_nil (F : List Pattern) : F.map (laidOver []) = F := by
  have : ∀ f, laidOver [] f = f := by
    intro f
    unfold laidOver
    split
    · simp [ledBy]
    · rfl
  simp [funext this]

theorem laidOver_self {F : List Pattern} (h : OwnHeads F) : F.map (laidOver F) = F := by
  have : ∀ f ∈ F, laidOver F f = f := by
    intro f hf
    obtain ⟨a, ha⟩ := h.1 f hf
    have hl : ledBy F a = some f := by
      have hx : ∀ G : List Pattern, OwnHeads G → f ∈ G → ledBy G a = some f := by
        intro G
        induction G with
        | nil => intro _ h; cases h
        | cons g G ih =>
          intro hG hm
          unfold ledBy
          rcases List.mem_cons.mp hm with rfl | hm
          · rw [List.find?_cons_of_pos (by simpa using ha)]
          · have hne := (List.pairwise_cons.mp hG.2).1 f hm
            rw [ha] at hne
            rw [List.find?_cons_of_neg (by simpa using hne)]
            exact ih ⟨fun q hq => hG.1 q (List.mem_cons_of_mem _ hq), (List.pairwise_cons.mp hG.2).2⟩ hm
      exact hx F h hf
    rw [laidOver_eq ha, hl]
    simp
  exact (List.map_congr_left this).trans (List.map_id' F)

theorem ownHeads_add {a : Parser} {p : Pattern} (hp : p.pattern.head? = some (.parser a)) : ∀ {L : List Pattern}, OwnHeads L → OwnHeads (addParserLed a p L) := by
  have hmem : ∀ L : List Pattern, ∀ q ∈ addParserLed a p L, (∃ s ∈ L, s.pattern.head? = q.pattern.head?) ∨ q.pattern.head? = some (.parser a) := by
    intro L q hq
    rcases addParserLed_mem hq with h | rfl
    · exact .inl ⟨q, h, rfl⟩
    · exact .inr hp
  intro L
  induction L with
  | nil => intro _; exact ⟨fun q hq => ⟨a, by rw [List.mem_singleton.mp hq]; exact hp⟩, List.pairwise_singleton _ _⟩
  | cons s L ih =>
    intro h
    have hL : OwnHeads L := ⟨fun q hq => h.1 q (List.mem_cons_of_mem _ hq), (List.pairwise_cons.mp h.2).2⟩
    rw [addParserLed]
    by_cases e : s.pattern.head? = some (.parser a)
    · rw [if_pos e]
      have hr : (if p.pattern = [.parser a] ∧ s.pattern ≠ [.parser a] then s else p).pattern.head? = s.pattern.head? := by
        split
        · rfl
        · rw [hp, e]
      refine ⟨?_, ?_⟩
      · intro q hq
        rcases List.mem_cons.mp hq with rfl | hq
        · exact ⟨a, by rw [hr, e]⟩
        · exact hL.1 q hq
      · refine List.pairwise_cons.mpr ⟨fun q hq => ?_, hL.2⟩
        rw [hr]
        exact (List.pairwise_cons.mp h.2).1 q hq
    · rw [if_neg e]
      refine ⟨?_, ?_⟩
      · intro q hq
        rcases List.mem_cons.mp hq with rfl | hq
        · exact h.1 _ (List.mem_cons_self ..)
        · exact (ih hL).1 q hq
      · refine List.pairwise_cons.mpr ⟨fun q hq => ?_, (ih hL).2⟩
        rcases hmem L q hq with ⟨w, hw, ew⟩ | g
        · rw [← ew]
          exact (List.pairwise_cons.mp h.2).1 w hw
        · rw [g]; exact e

/-! ### The whole table -/

theorem stay_fold (qs : List Pattern) : ∀ T : Table, StayRows T.rows (qs.foldl Table.add T).rows := by
  induction qs with
  | nil => intro T; exact stayRows_refl _
  | cons q qs ih =>
    intro T
    refine stayRows_trans ?_ (ih (T.add q))
    unfold Table.add
    split
    · exact stayRows_refl _
    · exact stayRows_add _ _ _ _
    · exact stayRows_refl _

theorem ownHeads_fold (qs : List Pattern) : ∀ T : Table, OwnHeads T.parserLed → OwnHeads (qs.foldl Table.add T).parserLed := by
  induction qs with
  | nil => intro T h; exact h
  | cons q qs ih =>
    intro T h
    refine ih _ ?_
    unfold Table.add
    split
    · exact h
    · exact h
    · rename_i e
      exact ownHeads_add (by rw [e]; rfl) h

theorem ledBy_fold (a : Parser) (qs : List Pattern) : ∀ T : Table, ledBy T.parserLed a ≠ none → ledBy (qs.foldl Table.add T).parserLed a ≠ none := by
  induction qs with
  | nil => intro T h; exact h
  | cons q qs ih =>
    intro T h
    refine ih _ ?_
    unfold Table.add
    split
    · exact h
    · exact h
    · rename_i b rest e
      simp only
      rw [ledBy_add b a q (by rw [e]; rfl)]
      split
      · simp
      · exact h

/-- Adding to the table `F`, which results from `A` by the additions `qs`, the patterns `qs` again. -/
theorem again_fold (qs : List Pattern) : ∀ A B F : Table, F = qs.foldl Table.add A → OwnHeads F.parserLed → Overlaid A.rows B.rows F.rows →
    B.parserLed = F.parserLed.map (laidOver A.parserLed) → SameTable (qs.foldl Table.add B) F := by
  induction qs with
  | nil =>
    intro A B F hF ho hr hp
    have : F = A := hF
    subst this
    refine ⟨overlaid_end hr, ?_⟩
    show B.parserLed = _
    rw [hp, laidOver_self ho]
  | cons q qs ih =>
    intro A B F hF ho hr hp
    have hF' : F = qs.foldl Table.add (A.add q) := hF
    have hs : StayRows (A.add q).rows F.rows := hF' ▸ stay_fold qs (A.add q)
    refine ih (A.add q) (B.add q) F hF' ho ?_ ?_
    · unfold Table.add at hs ⊢
      split
      · exact hr
      · rename_i l rest e
        rw [e] at hs
        simp only at hs ⊢
        cases hrest : rest.isEmpty with
        | true => exact overlaid_alone hr l q
        | false =>
          rw [hrest] at hs
          exact overlaid_more hr l q hs
      · exact hr
    · cases e : q.pattern with
      | nil =>
        have e' : ∀ T : Table, T.add q = T := by intro T; unfold Table.add; rw [e]
        rw [e', e', hp]
      | cons tok rest =>
        cases tok with
        | literal l =>
          have e' : ∀ T : Table, (T.add q).parserLed = T.parserLed := by intro T; unfold Table.add; rw [e]
          rw [e', e', hp]
        | parser a =>
          have hh : q.pattern.head? = some (.parser a) := by rw [e]; rfl
          have e' : ∀ T : Table, (T.add q).parserLed = addParserLed a q T.parserLed := by intro T; unfold Table.add; rw [e]
          rw [e', e', hp]
          refine laidOver_add a q hh _ _ ho ?_
          have hl : ledBy F.parserLed a ≠ none := by
            rw [hF']
            refine ledBy_fold a qs _ ?_
            rw [e', ledBy_add a a q hh, if_pos rfl]
            simp
          cases hf : ledBy F.parserLed a with
          | none => exact absurd hf hl
          | some f => exact ⟨f, List.mem_of_find?_eq_some hf, ledBy_head hf⟩

/-- Adding all patterns again leaves the table as it is. -/
theorem again_table (ps : List Pattern) : SameTable (Table.of (ps ++ ps)) (Table.of ps) := by
  unfold Table.of
  rw [List.foldl_append]
  refine again_fold ps ⟨[], []⟩ _ _ rfl ?_ (overlaid_start _) ?_
  · exact ownHeads_fold ps _ ⟨fun _ h => (by cases h), List.Pairwise.nil⟩
  · exact (laidOver_nil _).symm

end Verif
