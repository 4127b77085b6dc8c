import Verif.Spec.Compact
import Verif.Props.C146_Led
import Verif.Props.C143_Fewer
import Verif.Props.C128_Deleted
/-! C147: a history in which each place is taken once. -/
namespace Verif
open Spec

namespace Compact

theorem choice_fun {α : Type} (d : Pattern) {L : List α} {Q : α → Pattern → Prop} (h : ∀ r ∈ L, ∃ p, Q r p) : ∃ f : α → Pattern, ∀ r ∈ L, Q r (f r) := by
  classical
  refine ⟨fun r => if g : ∃ p, Q r p then Classical.choose g else d, fun r hr => ?_⟩
  have g := h r hr
  simp only [g, dif_pos]
  exact Classical.choose_spec g

/-- The rows after adding patterns that go on after their literals, shorter literals first. -/
theorem fold_mores (f : Row → Pattern) (L : List Row) : ∀ (T : Table), L.Pairwise (fun r s => r.text ≠ s.text) →
    L.Pairwise (fun r s => r.text.length ≤ s.text.length) → (∀ r ∈ L, GoesOn (f r) r.text) →
    (∀ r ∈ L, ∀ x, rowAt T.rows x ≠ none → x.length ≤ r.text.length ∧ x ≠ r.text) →
    ((L.map f).foldl Table.add T).parserLed = T.parserLed ∧
    ∀ x, rowAt ((L.map f).foldl Table.add T).rows x = ((rowAt L x).map fun r => ⟨x, none, some (f r)⟩).or (rowAt T.rows x) := by
  induction L with
  | nil => intro T _ _ _ _; exact ⟨rfl, fun x => by simp [rowAt]⟩
  | cons r L ih =>
    intro T h1 h2 h3 h4
    obtain ⟨rest, hr, e⟩ := h3 r (by simp)
    have hadd : T.add (f r) = ⟨addLiteralLed T.rows r.text false (f r), T.parserLed⟩ := by
      unfold Table.add
      rw [e]
      have : rest.isEmpty = false := by cases rest <;> simp_all
      simp [this]
    have hnone : rowAt T.rows r.text = none := by
      cases g : rowAt T.rows r.text with
      | none => rfl
      | some s => exact absurd rfl (h4 r (by simp) r.text (by simp [g])).2
    have hext : ¬ Extended T.rows r.text := by
      rw [extended_rowAt]
      rintro ⟨x, k1, k2, k3⟩
      exact k2 (prefix_eq k1 (h4 r (by simp) x k3).1).symm
    have hrow : ∀ x, rowAt (T.add (f r)).rows x = if x = r.text then some ⟨x, none, some (f r)⟩ else rowAt T.rows x := by
      intro x
      rw [hadd]
      simp only []
      rw [rowAt_add, rowOf_rowAt, hnone]
      by_cases c : x = r.text
      · simp [c, hext]
      · simp only [if_neg c]
        split
        · rename_i g
          cases k : rowAt T.rows x with
          | none => rfl
          | some s =>
            exact absurd (prefix_eq g.2.2 (h4 r (by simp) x (by simp [k])).1).symm c
        · rfl
    have h1' := List.pairwise_cons.mp h1
    have h2' := List.pairwise_cons.mp h2
    obtain ⟨k1, k2⟩ := ih (T.add (f r)) h1'.2 h2'.2 (fun s hs => h3 s (by simp [hs])) (by
      intro s hs x hx
      rw [hrow] at hx
      by_cases c : x = r.text
      · exact ⟨c ▸ h2'.1 s hs, c ▸ h1'.1 s hs⟩
      · rw [if_neg c] at hx
        exact h4 s (by simp [hs]) x hx)
    simp only [List.map_cons, List.foldl_cons]
    refine ⟨by rw [k1, hadd], fun x => ?_⟩
    rw [k2, hrow]
    by_cases c : x = r.text
    · have : rowAt L x = none := rowAt_none.mpr fun s hs g => h1'.1 s hs (by rw [g, c])
      rw [this]
      simp [c, rowAt]
    · have : rowAt (r :: L) x = rowAt L x := by
        unfold rowAt
        rw [List.find?_cons_of_neg (by simpa using Ne.symm c)]
      rw [this, if_neg c]

/-- The rows after adding patterns that are literals alone. -/
theorem fold_wholes (f : Row → Pattern) (L : List Row) : ∀ (T : Table), L.Pairwise (fun r s => r.text ≠ s.text) →
    (∀ r ∈ L, (f r).pattern = [.literal r.text]) →
    ((L.map f).foldl Table.add T).parserLed = T.parserLed ∧
    ∀ x, rowAt ((L.map f).foldl Table.add T).rows x = ((rowAt L x).map fun r => { rowOf T.rows x with whole := some (f r) }).or (rowAt T.rows x) := by
  induction L with
  | nil => intro T _ _; exact ⟨rfl, fun x => by simp [rowAt]⟩
  | cons r L ih =>
    intro T h1 h3
    have e := h3 r (by simp)
    have hadd : T.add (f r) = ⟨addLiteralLed T.rows r.text true (f r), T.parserLed⟩ := by
      unfold Table.add
      rw [e]
      simp
    have hrow : ∀ x, rowAt (T.add (f r)).rows x = if x = r.text then some { rowOf T.rows x with whole := some (f r) } else rowAt T.rows x := by
      intro x
      rw [hadd]
      simp only []
      rw [rowAt_add]
      by_cases c : x = r.text <;> simp [c]
    have h1' := List.pairwise_cons.mp h1
    obtain ⟨k1, k2⟩ := ih (T.add (f r)) h1'.2 (fun s hs => h3 s (by simp [hs]))
    simp only [List.map_cons, List.foldl_cons]
    refine ⟨by rw [k1, hadd], fun x => ?_⟩
    rw [k2, hrow]
    by_cases c : x = r.text
    · have : rowAt L x = none := rowAt_none.mpr fun s hs g => h1'.1 s hs (by rw [g, c])
      rw [this]
      simp [c, rowAt]
    · have : rowAt (r :: L) x = rowAt L x := by
        unfold rowAt
        rw [List.find?_cons_of_neg (by simpa using Ne.symm c)]
      rw [this, if_neg c, rowOf_rowAt, rowOf_rowAt, hrow, if_neg c]

/-- The rows after adding patterns that are lost. -/
theorem fold_losts (f : Row → Pattern) (L : List Row) : ∀ (T : Table), L.Pairwise (fun r s => r.text ≠ s.text) →
    (∀ r ∈ L, GoesOn (f r) r.text) → (∀ r ∈ L, Extended T.rows r.text ∧ rowAt T.rows r.text = none) →
    ((L.map f).foldl Table.add T).parserLed = T.parserLed ∧
    ∀ x, rowAt ((L.map f).foldl Table.add T).rows x = ((rowAt L x).map fun _ => ⟨x, none, none⟩).or (rowAt T.rows x) := by
  induction L with
  | nil => intro T _ _ _; exact ⟨rfl, fun x => by simp [rowAt]⟩
  | cons r L ih =>
    intro T h1 h3 h4
    obtain ⟨rest, hr, e⟩ := h3 r (by simp)
    have hadd : T.add (f r) = ⟨addLiteralLed T.rows r.text false (f r), T.parserLed⟩ := by
      unfold Table.add
      rw [e]
      have : rest.isEmpty = false := by cases rest <;> simp_all
      simp [this]
    obtain ⟨hext, hnone⟩ := h4 r (by simp)
    have hrow : ∀ x, rowAt (T.add (f r)).rows x = if x = r.text then some ⟨x, none, none⟩ else rowAt T.rows x := by
      intro x
      rw [hadd]
      simp only []
      rw [rowAt_add, rowOf_rowAt, hnone]
      by_cases c : x = r.text <;> simp [c, hext]
    have h1' := List.pairwise_cons.mp h1
    obtain ⟨k1, k2⟩ := ih (T.add (f r)) h1'.2 (fun s hs => h3 s (by simp [hs])) (by
      intro s hs
      obtain ⟨g1, g2⟩ := h4 s (by simp [hs])
      refine ⟨?_, by rw [hrow, if_neg (Ne.symm (h1'.1 s hs)), g2]⟩
      rw [extended_rowAt] at g1 ⊢
      obtain ⟨x, q1, q2, q3⟩ := g1
      refine ⟨x, q1, q2, ?_⟩
      rw [hrow]
      split
      · simp
      · exact q3)
    simp only [List.map_cons, List.foldl_cons]
    refine ⟨by rw [k1, hadd], fun x => ?_⟩
    rw [k2, hrow]
    by_cases c : x = r.text
    · have : rowAt L x = none := rowAt_none.mpr fun s hs g => h1'.1 s hs (by rw [g, c])
      rw [this]
      simp [c, rowAt]
    · have : rowAt (r :: L) x = rowAt L x := by
        unfold rowAt
        rw [List.find?_cons_of_neg (by simpa using Ne.symm c)]
      rw [this, if_neg c]

/-- Patterns that begin with different parsers are kept as they are. -/
theorem fold_parsers (P : List Pattern) : ∀ T : Table, OwnHeads (T.parserLed ++ P) → P.foldl Table.add T = ⟨T.rows, T.parserLed ++ P⟩ := by
  induction P with
  | nil => intro T _; simp
  | cons p P ih =>
    intro T h
    obtain ⟨a, ha⟩ := h.1 p (by simp)
    have hadd : T.add p = ⟨T.rows, T.parserLed ++ [p]⟩ := by
      unfold Table.add
      cases e : p.pattern with
      | nil => rw [e] at ha; simp at ha
      | cons tok rest =>
        rw [e] at ha
        simp only [List.head?_cons, Option.some.injEq] at ha
        subst ha
        simp only []
        rw [Deleted.ownLed_new]
        intro q hq g
        exact (List.pairwise_append.mp h.2).2.2 q hq p (by simp) (by rw [g, e]; rfl)
    rw [List.foldl_cons, hadd, ih ⟨T.rows, T.parserLed ++ [p]⟩ (by simpa using h)]
    simp

/-- What the table of a history holds. -/
structure Held (ps : List Pattern) (T : Table) : Prop where
  texts : T.rows.Pairwise fun r s => r.text ≠ s.text
  mores : ∀ x r p, rowAt T.rows x = some r → r.more = some p → p ∈ ps ∧ GoesOn p x
  wholes : ∀ x r p, rowAt T.rows x = some r → r.whole = some p → p ∈ ps ∧ p.pattern = [.literal x]
  losts : ∀ x r, rowAt T.rows x = some r → r.more = none → r.whole = none → Extended T.rows x ∧ ∃ p ∈ ps, GoesOn p x
  parsers : ∀ p ∈ T.parserLed, p ∈ ps

theorem texts_add {rows : List Row} (h : rows.Pairwise fun r s => r.text ≠ s.text) (l : Bytes) (alone : Bool) (p : Pattern) :
    (addLiteralLed rows l alone p).Pairwise fun r s => r.text ≠ s.text := by
  have ht := rowOf_text rows l
  unfold addLiteralLed
  split
  · refine List.pairwise_cons.mpr ⟨fun s hs => ?_, h.filter _⟩
    have := (List.mem_filter.mp hs).2
    simp only [ht]
    simpa using Ne.symm (by simpa using this)
  · split
    · refine List.pairwise_cons.mpr ⟨fun s hs => ?_, h.filter _⟩
      have := (List.mem_filter.mp hs).2
      simp only [ht]
      simpa using Ne.symm (by simpa using this)
    · refine List.pairwise_cons.mpr ⟨fun s hs => ?_, h.filter _⟩
      have := (List.mem_filter.mp hs).2
      simp only [ht]
      rintro rfl
      simp at this

theorem addParserLed_sub {a : Parser} {p : Pattern} (X : List Pattern) : ∀ q ∈ addParserLed a p X, q = p ∨ q ∈ X := by
  induction X with
  | nil => intro q hq; simp [addParserLed] at hq; exact .inl hq
  | cons s X ih =>
    intro q hq
    rw [addParserLed] at hq
    split at hq
    · rcases List.mem_cons.mp hq with g | g
      · split at g
        · exact .inr (by simp [g])
        · exact .inl g
      · exact .inr (by simp [g])
    · rcases List.mem_cons.mp hq with g | g
      · exact .inr (by simp [g])
      · rcases ih q g with k | k
        · exact .inl k
        · exact .inr (by simp [k])

theorem rowOf_held {rows : List Row} {l : Bytes} : rowAt rows l = some (rowOf rows l) ∨ (rowAt rows l = none ∧ rowOf rows l = ⟨l, none, none⟩) := by
  rw [rowOf_rowAt]
  cases rowAt rows l <;> simp

theorem held_add {ps : List Pattern} {T : Table} (h : Held ps T) {p : Pattern} (hp : p ∈ ps) : Held ps (T.add p) := by
  unfold Table.add
  cases e : p.pattern with
  | nil => exact h
  | cons tok rest =>
    cases tok with
    | parser a => exact ⟨h.texts, h.mores, h.wholes, h.losts, fun q hq => (addParserLed_sub _ q hq).elim (fun g => g ▸ hp) (h.parsers q)⟩
    | literal l =>
      simp only []
      have ext : ∀ x r, x ≠ l → rowAt (addLiteralLed T.rows l rest.isEmpty p) x = some r → Extended T.rows x →
          Extended (addLiteralLed T.rows l rest.isEmpty p) x := by
        intro x r hx hr g
        rw [extended_rowAt] at g ⊢
        obtain ⟨y, g1, g2, g3⟩ := g
        by_cases c : y = l
        · exact ⟨l, c ▸ g1, Ne.symm hx, by rw [rowAt_add]; simp⟩
        · by_cases k : rest.isEmpty = false ∧ ¬((rowOf T.rows l).more = none ∧ Extended T.rows l) ∧ l <+: y
          · rw [rowAt_add, if_neg hx] at hr
            have hn : ¬ l <+: x := by
              intro g
              rw [if_pos ⟨k.1, k.2.1, g⟩] at hr
              simp at hr
            refine ⟨l, ?_, Ne.symm hx, by rw [rowAt_add]; simp⟩
            rcases Nat.le_total x.length l.length with q | q
            · exact prefix_total g1 k.2.2 q
            · exact absurd (prefix_total k.2.2 g1 q) hn
          · exact ⟨y, g1, g2, by rw [rowAt_add, if_neg c, if_neg k]; exact g3⟩
      have old : ∀ x r, x ≠ l → rowAt (addLiteralLed T.rows l rest.isEmpty p) x = some r → rowAt T.rows x = some r := by
        intro x r hx hr
        rw [rowAt_add, if_neg hx] at hr
        split at hr
        · simp at hr
        · exact hr
      have new : rowAt (addLiteralLed T.rows l rest.isEmpty p) l = some (if rest.isEmpty = true then { rowOf T.rows l with whole := some p }
          else if (rowOf T.rows l).more = none ∧ Extended T.rows l then rowOf T.rows l else { rowOf T.rows l with more := some p }) := by
        rw [rowAt_add, if_pos rfl]
      have ownMore : ∀ q, (rowOf T.rows l).more = some q → q ∈ ps ∧ GoesOn q l := by
        intro q g
        rcases rowOf_held (rows := T.rows) (l := l) with k | k
        · exact h.mores l _ q k g
        · rw [k.2] at g; simp at g
      have ownWhole : ∀ q, (rowOf T.rows l).whole = some q → q ∈ ps ∧ q.pattern = [.literal l] := by
        intro q g
        rcases rowOf_held (rows := T.rows) (l := l) with k | k
        · exact h.wholes l _ q k g
        · rw [k.2] at g; simp at g
      have hrest : ¬ rest.isEmpty = true → GoesOn p l := fun g => ⟨rest, by simpa using g, e⟩
      have hrest' : rest.isEmpty = true → p.pattern = [.literal l] := fun g => by rw [e]; simpa using g
      refine ⟨texts_add h.texts _ _ _, ?_, ?_, ?_, h.parsers⟩
      · intro x r q hr hq
        by_cases c : x = l
        · subst c
          rw [new] at hr
          obtain rfl := Option.some.inj hr
          split at hq
          · exact ownMore q hq
          · rename_i g
            split at hq
            · exact ownMore q hq
            · simp only [Option.some.injEq] at hq
              subst hq
              exact ⟨hp, hrest g⟩
        · exact h.mores x r q (old x r c hr) hq
      · intro x r q hr hq
        by_cases c : x = l
        · subst c
          rw [new] at hr
          obtain rfl := Option.some.inj hr
          split at hq
          · rename_i g
            simp only [Option.some.injEq] at hq
            subst hq
            exact ⟨hp, hrest' g⟩
          · split at hq
            · exact ownWhole q hq
            · exact ownWhole q hq
        · exact h.wholes x r q (old x r c hr) hq
      · intro x r hr hm hw
        by_cases c : x = l
        · subst c
          rw [new] at hr
          obtain rfl := Option.some.inj hr
          split at hm
          · rename_i g
            simp [g] at hw
          · rename_i g
            split at hm
            · rename_i k
              refine ⟨?_, p, hp, hrest g⟩
              have k2 := k.2
              rw [extended_rowAt] at k2 ⊢
              obtain ⟨y, g1, g2, g3⟩ := k2
              exact ⟨y, g1, g2, by rw [rowAt_add, if_neg g2, if_neg fun q => q.2.1 k]; exact g3⟩
            · simp at hm
        · obtain ⟨g1, g2⟩ := h.losts x r (old x r c hr) hm hw
          exact ⟨ext x r c hr g1, g2⟩

theorem held_fold {ps : List Pattern} (qs : List Pattern) : ∀ {T : Table}, Held ps T → (∀ q ∈ qs, q ∈ ps) → Held ps (qs.foldl Table.add T) := by
  induction qs with
  | nil => intro T h _; exact h
  | cons q qs ih => intro T h hq; exact ih (held_add h (hq q (by simp))) fun s hs => hq s (by simp [hs])

theorem held_of (ps : List Pattern) : Held ps (Table.of ps) :=
  held_fold ps ⟨.nil, by simp [rowAt], by simp [rowAt], by simp [rowAt], by simp⟩ fun _ h => h

theorem rowAt_filter {rows : List Row} (h : rows.Pairwise fun r s => r.text ≠ s.text) (f : Row → Bool) (x : Bytes) :
    rowAt (rows.filter f) x = (rowAt rows x).filter f := by
  induction rows with
  | nil => rfl
  | cons r rows ih =>
    have h' := List.pairwise_cons.mp h
    have ih := ih h'.2
    by_cases c : r.text = x
    · have hn : rowAt rows x = none := rowAt_none.mpr fun s hs g => h'.1 s hs (by rw [g, c])
      have e : rowAt (r :: rows) x = some r := by simp [rowAt, c]
      rw [e]
      cases g : f r with
      | true => simp [List.filter_cons, g, rowAt, c, Option.filter]
      | false => rw [List.filter_cons]; simp only [g]; rw [hn] at ih; simp [ih, g, Option.filter]
    · have e : rowAt (r :: rows) x = rowAt rows x := by
        unfold rowAt
        rw [List.find?_cons_of_neg (by simpa using c)]
      rw [e, ← ih]
      cases g : f r with
      | true =>
        simp only [List.filter_cons, g, if_true]
        unfold rowAt
        rw [List.find?_cons_of_neg (by simpa using c)]
      | false => simp [List.filter_cons, g]

theorem rowAt_perm {rows rows' : List Row} (hp : rows.Perm rows') (h : rows.Pairwise fun r s => r.text ≠ s.text)
    (h' : rows'.Pairwise fun r s => r.text ≠ s.text) (x : Bytes) : rowAt rows x = rowAt rows' x := by
  have uniq : ∀ {L : List Row}, L.Pairwise (fun r s => r.text ≠ s.text) → UniqRows L := by
    intro L
    induction L with
    | nil => intro _ r hr; simp at hr
    | cons a L ih =>
      intro g r hr s hs e
      have g' := List.pairwise_cons.mp g
      rcases List.mem_cons.mp hr with k1 | k1
      · rcases List.mem_cons.mp hs with k2 | k2
        · rw [k1, k2]
        · exact absurd (k1 ▸ e) (g'.1 s k2)
      · rcases List.mem_cons.mp hs with k2 | k2
        · exact absurd (k2 ▸ e.symm) (g'.1 r k1)
        · exact ih g'.2 r k1 s k2 e
  cases e : rowAt rows x with
  | none =>
    exact (rowAt_none.mpr fun r hr => rowAt_none.mp e r (hp.mem_iff.mpr hr)).symm
  | some r =>
    obtain ⟨h1, rfl⟩ := rowAt_text e
    exact ((rowAt_mem (uniq h')).mp (hp.mem_iff.mp h1)).symm

theorem goesOn_head {p : Pattern} {l : Bytes} (h : GoesOn p l) : p.pattern.head? = some (.literal l) ∧ p.pattern.length ≠ 1 := by
  obtain ⟨rest, hr, e⟩ := h
  rw [e]
  cases rest <;> simp_all

/-- A history with the same table in which each place is taken once. -/
theorem compact_table (ps : List Pattern) : ∃ qs, Choice ps qs ∧ SameTable (Table.of ps) (Table.of qs) := by
  by_cases hps : ps = []
  · subst hps
    exact ⟨[], ⟨fun _ h => h, .nil⟩, fun _ => rfl, rfl⟩
  obtain ⟨d, _⟩ := List.exists_mem_of_ne_nil ps hps
  have H := held_of ps
  have hown : OwnHeads (Table.of ps).parserLed := ownHeads_fold ps ⟨[], []⟩ ⟨by simp, .nil⟩
  generalize Table.of ps = F at H hown
  have hmem : ∀ r ∈ F.rows, rowAt F.rows r.text = some r := by
    intro r hr
    have := rowAt_filter H.texts (fun s => decide (s = r)) r.text
    cases e : rowAt F.rows r.text with
    | none => exact absurd rfl (rowAt_none.mp e r hr)
    | some s =>
      rw [e] at this
      by_cases g : s = r
      · rw [g]
      · simp [Option.filter, g] at this
        exact absurd rfl (rowAt_none.mp this r (List.mem_filter.mpr ⟨hr, by simp⟩))
  let leq : Row → Row → Bool := fun r s => decide (r.text.length ≤ s.text.length)
  let M := (F.rows.filter fun r => r.more.isSome).mergeSort leq
  let W := F.rows.filter fun r => r.whole.isSome
  let N := F.rows.filter fun r => r.more.isNone && r.whole.isNone
  have permM : M.Perm (F.rows.filter fun r => r.more.isSome) := List.mergeSort_perm _ _
  have textsM' : (F.rows.filter fun r => r.more.isSome).Pairwise fun r s => r.text ≠ s.text := H.texts.filter _
  have textsM : M.Pairwise fun r s => r.text ≠ s.text := (permM.pairwise_iff (fun h => Ne.symm h)).mpr textsM'
  have sortM : M.Pairwise fun r s => r.text.length ≤ s.text.length := by
    have := List.pairwise_mergeSort (le := leq) (fun a b c => by simp only [leq, decide_eq_true_eq]; omega)
      (fun a b => by simp only [leq, Bool.or_eq_true, decide_eq_true_eq]; omega) (F.rows.filter fun r => r.more.isSome)
    exact this.imp fun h => by simpa [leq] using h
  have textsW : W.Pairwise fun r s => r.text ≠ s.text := H.texts.filter _
  have textsN : N.Pairwise fun r s => r.text ≠ s.text := H.texts.filter _
  have inM : ∀ r ∈ M, r ∈ F.rows ∧ ∃ p, r.more = some p := fun r hr => by
    have := List.mem_filter.mp (permM.mem_iff.mp hr)
    exact ⟨this.1, Option.isSome_iff_exists.mp this.2⟩
  have inW : ∀ r ∈ W, r ∈ F.rows ∧ ∃ p, r.whole = some p := fun r hr => by
    have := List.mem_filter.mp hr
    exact ⟨this.1, Option.isSome_iff_exists.mp this.2⟩
  have inN : ∀ r ∈ N, r ∈ F.rows ∧ r.more = none ∧ r.whole = none := fun r hr => by
    have := List.mem_filter.mp hr
    refine ⟨this.1, ?_⟩
    simpa using this.2
  obtain ⟨fM, hM⟩ := choice_fun d (L := M) (Q := fun r p => r.more = some p) fun r hr => (inM r hr).2
  obtain ⟨fW, hW⟩ := choice_fun d (L := W) (Q := fun r p => r.whole = some p) fun r hr => (inW r hr).2
  obtain ⟨fN, hN⟩ := choice_fun d (L := N) (Q := fun r p => p ∈ ps ∧ GoesOn p r.text) fun r hr =>
    (H.losts r.text r (hmem r (inN r hr).1) (inN r hr).2.1 (inN r hr).2.2).2
  have gM : ∀ r ∈ M, fM r ∈ ps ∧ GoesOn (fM r) r.text := fun r hr => H.mores r.text r _ (hmem r (inM r hr).1) (hM r hr)
  have gW : ∀ r ∈ W, fW r ∈ ps ∧ (fW r).pattern = [.literal r.text] := fun r hr => H.wholes r.text r _ (hmem r (inW r hr).1) (hW r hr)
  obtain ⟨a1, a2⟩ := fold_mores fM M ⟨[], []⟩ textsM sortM (fun r hr => (gM r hr).2) (by simp [rowAt])
  obtain ⟨b1, b2⟩ := fold_wholes fW W ((M.map fM).foldl Table.add ⟨[], []⟩) textsW (fun r hr => (gW r hr).2)
  have rowM : ∀ x, rowAt M x = (rowAt F.rows x).filter fun r => r.more.isSome := fun x => by
    rw [rowAt_perm permM textsM textsM', rowAt_filter H.texts]
  have rowW : ∀ x, rowAt W x = (rowAt F.rows x).filter fun r => r.whole.isSome := fun x => rowAt_filter H.texts _ x
  have rowN : ∀ x, rowAt N x = (rowAt F.rows x).filter fun r => r.more.isNone && r.whole.isNone := fun x => rowAt_filter H.texts _ x
  -- the rows after the first two parts
  have both : ∀ x, rowAt ((W.map fW).foldl Table.add ((M.map fM).foldl Table.add ⟨[], []⟩)).rows x =
      (rowAt F.rows x).filter fun r => !(r.more.isNone && r.whole.isNone) := by
    intro x
    rw [b2, rowOf_rowAt, a2, rowM, rowW]
    cases e : rowAt F.rows x with
    | none => simp [rowAt]
    | some r =>
      obtain ⟨hr, rfl⟩ := rowAt_text e
      have fm : ∀ p, r.more = some p → fM r = p := fun p g => by
        have := hM r (permM.mem_iff.mpr (List.mem_filter.mpr ⟨hr, by simp [g]⟩))
        rw [g] at this
        exact (Option.some.inj this).symm
      have fw : ∀ p, r.whole = some p → fW r = p := fun p g => by
        have := hW r (List.mem_filter.mpr ⟨hr, by simp [g]⟩)
        rw [g] at this
        exact (Option.some.inj this).symm
      obtain ⟨t, w, m⟩ := r
      cases m with
      | none =>
        cases w with
        | none => simp [rowAt, Option.filter]
        | some w => simp [rowAt, Option.filter, fw w rfl]
      | some m =>
        cases w with
        | none => simp [rowAt, Option.filter, fm m rfl]
        | some w => simp [rowAt, Option.filter, fm m rfl, fw w rfl]
  -- texts of lost patterns are extended by texts with patterns
  have longer : ∀ n x, (∃ y, x <+: y ∧ y ≠ x ∧ rowAt F.rows y ≠ none ∧ n ≤ y.length) → Extended F.rows x →
      Extended ((W.map fW).foldl Table.add ((M.map fM).foldl Table.add ⟨[], []⟩)).rows x := by
    intro n x h1 h2
    -- a longest one
    have : ∀ k, ∀ y, x <+: y → y ≠ x → rowAt F.rows y ≠ none → (∀ r ∈ F.rows, r.text.length ≤ y.length + k) →
        Extended ((W.map fW).foldl Table.add ((M.map fM).foldl Table.add ⟨[], []⟩)).rows x := by
      intro k
      induction k with
      | zero =>
        intro y g1 g2 g3 g4
        rw [extended_rowAt]
        refine ⟨y, g1, g2, ?_⟩
        rw [both]
        cases e : rowAt F.rows y with
        | none => exact absurd e g3
        | some r =>
          by_cases c : r.more = none ∧ r.whole = none
          · obtain ⟨s, q1, q2, q3⟩ := (H.losts y r e c.1 c.2).1
            exact absurd (prefix_eq q2 (g4 s q1)).symm q3
          · simp only [Option.filter, ne_eq]
            rw [if_pos]
            · simp
            · cases g : r.more <;> cases k : r.whole <;> simp_all
      | succ k ih =>
        intro y g1 g2 g3 g4
        cases e : rowAt F.rows y with
        | none => exact absurd e g3
        | some r =>
          by_cases c : r.more = none ∧ r.whole = none
          · obtain ⟨s, q1, q2, q3⟩ := (H.losts y r e c.1 c.2).1
            have hl : y.length < s.text.length := by
              have := q2.length_le
              rcases Nat.lt_or_ge y.length s.text.length with q | q
              · exact q
              · exact absurd (prefix_eq q2 q).symm q3
            refine ih s.text (g1.trans q2) ?_ (by rw [hmem s q1]; simp) fun t ht => ?_
            · intro q
              have := g1.length_le
              rw [q] at hl
              omega
            · have := g4 t ht
              omega
          · rw [extended_rowAt]
            refine ⟨y, g1, g2, ?_⟩
            rw [both, e]
            simp only [Option.filter, ne_eq]
            rw [if_pos]
            · simp
            · cases g : r.more <;> cases k : r.whole <;> simp_all
    obtain ⟨y, g1, g2, g3, _⟩ := h1
    have bound : ∀ (L : List Row), ∃ k, ∀ r ∈ L, r.text.length ≤ k := by
      intro L
      induction L with
      | nil => exact ⟨0, by simp⟩
      | cons a L ih =>
        obtain ⟨k, hk⟩ := ih
        refine ⟨a.text.length + k, fun r hr => ?_⟩
        rcases List.mem_cons.mp hr with rfl | hr
        · omega
        · have := hk r hr; omega
    obtain ⟨k, hk⟩ := bound F.rows
    exact this k y g1 g2 g3 fun r hr => by have := hk r hr; omega
  obtain ⟨c1, c2⟩ := fold_losts fN N ((W.map fW).foldl Table.add ((M.map fM).foldl Table.add ⟨[], []⟩)) textsN (fun r hr => (hN r hr).2) (by
    intro r hr
    obtain ⟨q1, q2, q3⟩ := inN r hr
    refine ⟨?_, by rw [both, hmem r q1]; simp [Option.filter, q2, q3]⟩
    have he := (H.losts r.text r (hmem r q1) q2 q3).1
    refine longer 0 r.text ?_ he
    obtain ⟨y, k1, k2, k3⟩ := extended_rowAt.mp he
    exact ⟨y, k1, k2, k3, Nat.zero_le _⟩)
  refine ⟨M.map fM ++ W.map fW ++ N.map fN ++ F.parserLed, ⟨?_, ?_⟩, ?_⟩
  · intro q hq
    simp only [List.mem_append, List.mem_map] at hq
    rcases hq with ((⟨r, hr, rfl⟩ | ⟨r, hr, rfl⟩) | ⟨r, hr, rfl⟩) | hq
    · exact (gM r hr).1
    · exact (gW r hr).1
    · exact (hN r hr).1
    · exact H.parsers q hq
  · have pM : (M.map fM).Pairwise fun p q => ¬ SamePlace p q := by
      rw [List.pairwise_map]
      refine List.Pairwise.imp_of_mem (fun {r s} hr hs g k => ?_) textsM
      have := k.1
      rw [(goesOn_head (gM r hr).2).1, (goesOn_head (gM s hs).2).1] at this
      simp at this
      exact g this
    have pW : (W.map fW).Pairwise fun p q => ¬ SamePlace p q := by
      rw [List.pairwise_map]
      refine List.Pairwise.imp_of_mem (fun {r s} hr hs g k => ?_) textsW
      have := k.1
      rw [(gW r hr).2, (gW s hs).2] at this
      simp at this
      exact g this
    have pN : (N.map fN).Pairwise fun p q => ¬ SamePlace p q := by
      rw [List.pairwise_map]
      refine List.Pairwise.imp_of_mem (fun {r s} hr hs g k => ?_) textsN
      have := k.1
      rw [(goesOn_head (hN r hr).2).1, (goesOn_head (hN s hs).2).1] at this
      simp at this
      exact g this
    have pP : F.parserLed.Pairwise fun p q => ¬ SamePlace p q := hown.2.imp fun g k => g k.1
    refine List.pairwise_append.mpr ⟨List.pairwise_append.mpr ⟨List.pairwise_append.mpr ⟨pM, pW, ?_⟩, pN, ?_⟩, pP, ?_⟩
    · intro p hp q hq k
      obtain ⟨r, hr, rfl⟩ := List.mem_map.mp hp
      obtain ⟨s, hs, rfl⟩ := List.mem_map.mp hq
      have g := goesOn_head (gM r hr).2
      exact g.2 ((k.2 ⟨_, g.1⟩).mpr (by rw [(gW s hs).2]; rfl))
    · intro p hp q hq k
      obtain ⟨s, hs, rfl⟩ := List.mem_map.mp hq
      have g := goesOn_head (hN s hs).2
      rcases List.mem_append.mp hp with hp | hp
      · obtain ⟨r, hr, rfl⟩ := List.mem_map.mp hp
        have := k.1
        rw [(goesOn_head (gM r hr).2).1, g.1] at this
        simp at this
        have e1 := hmem r (inM r hr).1
        rw [this, hmem s (inN s hs).1] at e1
        obtain rfl := Option.some.inj e1
        obtain ⟨_, g⟩ := (inM s hr).2
        rw [(inN s hs).2.1] at g
        simp at g
      · obtain ⟨r, hr, rfl⟩ := List.mem_map.mp hp
        exact g.2 ((k.2 ⟨r.text, by rw [(gW r hr).2]; rfl⟩).mp (by rw [(gW r hr).2]; rfl))
    · intro p hp q hq k
      obtain ⟨a, ha⟩ := hown.1 q hq
      have hl : ∃ l, p.pattern.head? = some (.literal l) := by
        simp only [List.mem_append, List.mem_map] at hp
        rcases hp with (⟨r, hr, rfl⟩ | ⟨r, hr, rfl⟩) | ⟨r, hr, rfl⟩
        · exact ⟨_, (goesOn_head (gM r hr).2).1⟩
        · exact ⟨r.text, by rw [(gW r hr).2]; rfl⟩
        · exact ⟨_, (goesOn_head (hN r hr).2).1⟩
      obtain ⟨l, hl⟩ := hl
      have := k.1
      rw [hl, ha] at this
      simp at this
  · have hnil : (((N.map fN).foldl Table.add ((W.map fW).foldl Table.add ((M.map fM).foldl Table.add ⟨[], []⟩)))).parserLed = [] := by
      rw [c1, b1, a1]
    have e : Table.of (M.map fM ++ W.map fW ++ N.map fN ++ F.parserLed) =
        ⟨((N.map fN).foldl Table.add ((W.map fW).foldl Table.add ((M.map fM).foldl Table.add ⟨[], []⟩))).rows, F.parserLed⟩ := by
      unfold Table.of
      rw [List.foldl_append, List.foldl_append, List.foldl_append, fold_parsers _ _ (by rw [hnil]; simpa using hown), hnil]
      simp
    rw [e]
    refine ⟨fun x => ?_, rfl⟩
    simp only []
    rw [c2, both, rowN]
    cases g : rowAt F.rows x with
    | none => simp
    | some r =>
      obtain ⟨hr, rfl⟩ := rowAt_text g
      obtain ⟨t, w, m⟩ := r
      cases m <;> cases w <;> simp [Option.filter]

/-! ### Suffix arrays -/

/-- All patterns that take the place of one that has the property have it, too. -/
def Place (P : List Token → Prop) : Prop :=
  ∀ p : Pattern, P p.pattern → (∃ l, p.pattern.head? = some (.literal l)) ∧ ∀ q : Pattern, SamePlace p q → P q.pattern

theorem place_whole (l : Bytes) : Place (· = [.literal l]) := by
  intro p e
  have e : p.pattern = [.literal l] := e
  refine ⟨⟨l, by rw [e]; rfl⟩, fun q h => ?_⟩
  have h1 := h.1
  have h2 := (h.2 ⟨l, by rw [e]; rfl⟩).mp (by rw [e]; rfl)
  rw [e] at h1
  show q.pattern = [.literal l]
  cases g : q.pattern with
  | nil => rw [g] at h1; simp at h1
  | cons t rest =>
    rw [g] at h1 h2
    simp at h1 h2
    rw [h1, h2]

theorem place_more (l : Bytes) : Place (fun toks => ∃ rest, rest ≠ [] ∧ toks = .literal l :: rest) := by
  rintro p ⟨rest, hr, e⟩
  refine ⟨⟨l, by rw [e]; rfl⟩, fun q h => ?_⟩
  have h1 := h.1
  have h2 := h.2 ⟨l, by rw [e]; rfl⟩
  rw [e] at h1 h2
  cases g : q.pattern with
  | nil => rw [g] at h1; simp at h1
  | cons t rest' =>
    rw [g] at h1 h2
    simp at h1 h2
    exact ⟨rest', fun k => hr (h2.mpr k), by rw [h1]⟩

theorem lastWith_cons {p s : Pattern} {ps : List Pattern} {P : List Token → Prop} :
    LastWith (p :: ps) P s ↔ LastWith ps P s ∨ (s = p ∧ P p.pattern ∧ ∀ q ∈ ps, ¬ P q.pattern) := by
  constructor
  · rintro ⟨A, B, e, h1, h2⟩
    cases A with
    | nil =>
      simp only [List.nil_append, List.cons.injEq] at e
      obtain ⟨rfl, rfl⟩ := e
      exact .inr ⟨rfl, h1, h2⟩
    | cons a A =>
      simp only [List.cons_append, List.cons.injEq] at e
      exact .inl ⟨A, B, e.2, h1, h2⟩
  · rintro (h | ⟨rfl, h1, h2⟩)
    · exact lastWith_append (A := [p]) h
    · exact ⟨[], ps, rfl, h1, h2⟩

theorem lastWith_some {ps : List Pattern} {P : List Token → Prop} : (∃ p ∈ ps, P p.pattern) ↔ ∃ s, LastWith ps P s := by
  refine ⟨lastWith_exists, ?_⟩
  rintro ⟨s, A, B, e, h1, _⟩
  exact ⟨s, by rw [e]; simp, h1⟩

/-- The last patterns for each place that begins with a literal. -/
theorem last_part (ps : List Pattern) : ∃ X, Choice ps X ∧ (∀ q ∈ X, ∃ l, q.pattern.head? = some (.literal l)) ∧
    ∀ P, Place P → ∀ s, LastWith X P s ↔ LastWith ps P s := by
  induction ps with
  | nil => exact ⟨[], ⟨fun _ h => h, .nil⟩, by simp, fun _ _ _ => Iff.rfl⟩
  | cons p ps ih =>
    obtain ⟨X, h1, h2, h3⟩ := ih
    by_cases c : (∃ l, p.pattern.head? = some (.literal l)) ∧ ∀ q ∈ ps, ¬ SamePlace p q
    · refine ⟨p :: X, ⟨?_, List.pairwise_cons.mpr ⟨fun q hq => c.2 q (h1.1 q hq), h1.2⟩⟩, ?_, ?_⟩
      · intro q hq
        rcases List.mem_cons.mp hq with g | g
        · simp [g]
        · exact List.mem_cons_of_mem _ (h1.1 q g)
      · intro q hq
        rcases List.mem_cons.mp hq with g | g
        · exact g ▸ c.1
        · exact h2 q g
      · intro P hP s
        rw [lastWith_cons, lastWith_cons, h3 P hP]
        have e : (∀ q ∈ X, ¬ P q.pattern) ↔ ∀ q ∈ ps, ¬ P q.pattern := by
          have : (∃ q ∈ X, P q.pattern) ↔ ∃ q ∈ ps, P q.pattern := by
            rw [lastWith_some, lastWith_some]
            simp only [h3 P hP]
          constructor
          · intro k q hq g
            obtain ⟨q', g1, g2⟩ := this.mpr ⟨q, hq, g⟩
            exact k q' g1 g2
          · intro k q hq g
            obtain ⟨q', g1, g2⟩ := this.mp ⟨q, hq, g⟩
            exact k q' g1 g2
        rw [e]
    · refine ⟨X, ⟨fun q hq => List.mem_cons_of_mem _ (h1.1 q hq), h1.2⟩, h2, ?_⟩
      intro P hP s
      rw [lastWith_cons, h3 P hP]
      refine ⟨.inl, fun h => h.elim id ?_⟩
      rintro ⟨_, g1, g2⟩
      refine absurd ⟨(hP p g1).1, fun q hq k => g2 q hq ((hP p g1).2 q k)⟩ c

theorem fold_literals (X : List Pattern) : ∀ T : Table, (∀ q ∈ X, ∃ l, q.pattern.head? = some (.literal l)) → (X.foldl Table.add T).parserLed = T.parserLed := by
  induction X with
  | nil => intro T _; rfl
  | cons p X ih =>
    intro T h
    rw [List.foldl_cons, ih _ fun q hq => h q (by simp [hq])]
    obtain ⟨l, hl⟩ := h p (by simp)
    obtain ⟨rest, e⟩ := head_literal hl
    unfold Table.add
    rw [e]

/-- A choice with the same last patterns and the same patterns that begin with parsers. -/
theorem last_choice (ps : List Pattern) : ∃ qs, Choice ps qs ∧ (Table.of qs).parserLed = (Table.of ps).parserLed ∧
    ∀ P, Place P → ∀ s, LastWith qs P s ↔ LastWith ps P s := by
  obtain ⟨X, h1, h2, h3⟩ := last_part ps
  have hown : OwnHeads (Table.of ps).parserLed := ownHeads_fold ps ⟨[], []⟩ ⟨by simp, .nil⟩
  have hX : (Table.of X).parserLed = [] := fold_literals X ⟨[], []⟩ h2
  refine ⟨X ++ (Table.of ps).parserLed, ⟨?_, ?_⟩, ?_, ?_⟩
  · intro q hq
    rcases List.mem_append.mp hq with g | g
    · exact h1.1 q g
    · exact (held_of ps).parsers q g
  · refine List.pairwise_append.mpr ⟨h1.2, hown.2.imp fun g k => g k.1, ?_⟩
    intro p hp q hq k
    obtain ⟨l, hl⟩ := h2 p hp
    obtain ⟨a, ha⟩ := hown.1 q hq
    have := k.1
    rw [hl, ha] at this
    simp at this
  · have e : Table.of (X ++ (Table.of ps).parserLed) = (Table.of ps).parserLed.foldl Table.add (Table.of X) := by
      unfold Table.of
      rw [List.foldl_append]
    rw [e, fold_parsers _ _ (by rw [hX]; simpa using hown), hX]
    simp
  · intro P hP s
    rw [← h3 P hP]
    have hno : ∀ q ∈ (Table.of ps).parserLed, ¬ P q.pattern := by
      intro q hq g
      obtain ⟨a, ha⟩ := hown.1 q hq
      obtain ⟨l, hl⟩ := (hP q g).1
      rw [ha] at hl
      simp at hl
    generalize (Table.of ps).parserLed = Y at hno
    clear h1 h2 h3 hX
    induction X with
    | nil =>
      rw [List.nil_append]
      constructor
      · rintro ⟨A, B, e, g, _⟩
        exact absurd g (hno s (by rw [e]; simp))
      · rintro ⟨A, B, e, _⟩
        simp at e
    | cons p X ih =>
      have ih' : LastWith (X ++ Y) P s ↔ LastWith X P s := ih
      rw [List.cons_append, lastWith_cons, lastWith_cons, ih']
      have : (∀ q ∈ X ++ Y, ¬ P q.pattern) ↔ ∀ q ∈ X, ¬ P q.pattern := by
        constructor
        · intro k q hq; exact k q (by simp [hq])
        · intro k q hq
          rcases List.mem_append.mp hq with g | g
          · exact k q g
          · exact hno q g
      rw [this]

theorem same_some {ps qs : List Pattern} {P : List Token → Prop} (h : ∀ s, LastWith qs P s ↔ LastWith ps P s) :
    (∃ q ∈ qs, P q.pattern) ↔ ∃ q ∈ ps, P q.pattern := by
  rw [lastWith_some, lastWith_some]
  simp only [h]

theorem lastWith_split {ps rs : List Pattern} {P : List Token → Prop} {s : Pattern} :
    LastWith (ps ++ rs) P s ↔ LastWith rs P s ∨ (LastWith ps P s ∧ ∀ q ∈ rs, ¬ P q.pattern) := by
  induction ps with
  | nil =>
    rw [List.nil_append]
    refine ⟨.inl, fun h => h.elim id ?_⟩
    rintro ⟨⟨A, B, e, _⟩, _⟩
    simp at e
  | cons p ps ih =>
    have ih' : LastWith (ps ++ rs) P s ↔ LastWith rs P s ∨ (LastWith ps P s ∧ ∀ q ∈ rs, ¬ P q.pattern) := ih
    rw [List.cons_append, lastWith_cons, lastWith_cons, ih']
    constructor
    · rintro ((h | ⟨h1, h2⟩) | ⟨h1, h2, h3⟩)
      · exact .inl h
      · exact .inr ⟨.inl h1, h2⟩
      · exact .inr ⟨.inr ⟨h1, h2, fun q hq => h3 q (by simp [hq])⟩, fun q hq => h3 q (by simp [hq])⟩
    · rintro (h | ⟨h1 | ⟨h1, h2, h3⟩, h4⟩)
      · exact .inl (.inl h)
      · exact .inl (.inr ⟨h1, h4⟩)
      · refine .inr ⟨h1, h2, fun q hq => ?_⟩
        rcases List.mem_append.mp hq with g | g
        · exact h3 q g
        · exact h4 q g

theorem parsers_fold (rs : List Pattern) : ∀ T T' : Table, T.parserLed = T'.parserLed → (rs.foldl Table.add T).parserLed = (rs.foldl Table.add T').parserLed := by
  induction rs with
  | nil => intro T T' h; exact h
  | cons r rs ih =>
    intro T T' h
    refine ih _ _ ?_
    unfold Table.add
    split
    · exact h
    · exact h
    · simp only [h]

theorem leads_iff {ps : List Pattern} {l : Bytes} : Leads ps l ↔
    (∃ q ∈ ps, q.pattern = [.literal l]) ∨ ∃ q ∈ ps, ∃ rest, rest ≠ [] ∧ q.pattern = .literal l :: rest := by
  constructor
  · rintro ⟨q, hq, e⟩
    obtain ⟨rest, e⟩ := head_literal e
    by_cases c : rest = []
    · exact .inl ⟨q, hq, by rw [e, c]⟩
    · exact .inr ⟨q, hq, rest, c, e⟩
  · rintro (⟨q, hq, e⟩ | ⟨q, hq, rest, _, e⟩)
    · exact ⟨q, hq, by rw [e]; rfl⟩
    · exact ⟨q, hq, by rw [e]; rfl⟩

end Compact
open Compact

/-- C147, trie: for every history of patterns there is one made of some of its patterns, with at most two patterns for each leading literal (one that is the
literal alone and one that goes on) and one for each leading parser, that has the same outcome for every text, and still has it after any further
additions. -/
theorem C147_trie_later (sip : Bytes → UInt64) (ps : List Pattern) : ∃ qs, Choice ps qs ∧ ∀ rs, Plain sip (ps ++ rs) → ∀ text, Utf8 text →
    (SuffixTree.build sip (qs ++ rs) >>= fun t => t.parse text) = (SuffixTree.build sip (ps ++ rs) >>= fun t => t.parse text) := by
  obtain ⟨qs, hq, ht⟩ := compact_table ps
  refine ⟨qs, hq, fun rs hps text hx => ?_⟩
  have hsub : ∀ q ∈ qs ++ rs, q ∈ ps ++ rs := fun q h => List.mem_append.mpr ((List.mem_append.mp h).imp (hq.1 q) id)
  have ht : SameTable (Table.of (ps ++ rs)) (Table.of (qs ++ rs)) := by
    rw [Deleted.table_split, Deleted.table_split]
    exact sameTable_fold rs ht
  obtain ⟨t, hb, _⟩ := build_ascii sip (ps ++ rs) hps.ascii
  obtain ⟨t', hb', _⟩ := build_ascii sip (qs ++ rs) (fun p hp => hps.ascii p (hsub p hp))
  rw [hb, hb']
  exact (sameTable_parse hps.proper (proper_sub hps.proper hsub) ht hb hb' hx).symm

/-- C147, trie, without further additions. -/
theorem C147_trie (sip : Bytes → UInt64) (ps : List Pattern) (hps : Plain sip ps) : ∃ qs, Choice ps qs ∧ ∀ text, Utf8 text →
    (SuffixTree.build sip qs >>= fun t => t.parse text) = (SuffixTree.build sip ps >>= fun t => t.parse text) := by
  obtain ⟨qs, h1, h2⟩ := C147_trie_later sip ps
  refine ⟨qs, h1, fun text hx => ?_⟩
  have := h2 [] (by simpa using hps) text hx
  simpa using this

/-- C147, trie, for all UTF-8 literals: if the additions return. -/
theorem C147_trie_utf8 (sip : Bytes → UInt64) (ps : List Pattern) (hps : Proper sip ps) (t : SuffixTree) (hb : SuffixTree.build sip ps = .ok t) :
    ∃ qs, Choice ps qs ∧ ∀ t', SuffixTree.build sip qs = .ok t' → ∀ text, Utf8 text → t'.parse text = t.parse text := by
  obtain ⟨qs, hq, ht⟩ := compact_table ps
  exact ⟨qs, hq, fun t' hb' text hx => (sameTable_parse hps (proper_sub hps hq.1) ht hb hb' hx).symm⟩

/-- C147, suffix array: the same. -/
theorem C147_suffix_array_later (sip : Bytes → UInt64) (ps : List Pattern) : ∃ qs, Choice ps qs ∧ ∀ rs, (∀ p ∈ ps ++ rs, Utf8Lits p) →
    NoCollision sip (ps ++ rs) → ∀ text, Utf8 text →
      (SuffixTable.build sip (qs ++ rs) >>= fun t => t.parse text) = (SuffixTable.build sip (ps ++ rs) >>= fun t => t.parse text) := by
  obtain ⟨qs, hq, ht, hl⟩ := last_choice ps
  refine ⟨qs, hq, fun rs hu hcol text hx => ?_⟩
  have hsub : ∀ q ∈ qs ++ rs, q ∈ ps ++ rs := fun q h => List.mem_append.mpr ((List.mem_append.mp h).imp (hq.1 q) id)
  have hl : ∀ P, Place P → ∀ s, LastWith (qs ++ rs) P s ↔ LastWith (ps ++ rs) P s := fun P hP s => by
    rw [lastWith_split, lastWith_split, hl P hP]
  have ht : (Table.of (qs ++ rs)).parserLed = (Table.of (ps ++ rs)).parserLed := by
    rw [Deleted.table_split, Deleted.table_split]
    exact parsers_fold rs _ _ ht
  have w := fun l => hl _ (place_whole l)
  have m := fun l => hl _ (place_more l)
  have hleads : ∀ l, Leads (qs ++ rs) l ↔ Leads (ps ++ rs) l := fun l => by
    rw [leads_iff, leads_iff, same_some (w l), same_some (m l)]
  have hch : ∀ l, Chosen (qs ++ rs) text l ↔ Chosen (ps ++ rs) text l := fun l => by
    unfold Chosen
    simp only [hleads]
  refine outcome_same hu hcol (fun p hp => hu p (hsub p hp)) (noCollision_sub hcol hsub) hx (fun r h => ⟨fun hno => ?_, fun l hc => ?_⟩) ?_
  · rw [← ht]
    exact h.1 fun l g => hno l ((hleads l).mp g)
  · obtain ⟨k1, k2⟩ := h.2 l ((hch l).mpr hc)
    refine ⟨fun hp => ⟨fun p g => (k1 hp).1 p ((w l p).mpr g), fun hno => (k1 hp).2 fun p g e => ?_⟩,
      fun hp => ⟨fun p g => (k2 hp).1 p ((m l p).mpr g), fun hno => (k2 hp).2 fun p g rest hr e => ?_⟩⟩
    · exact hno p (hsub p g) e
    · exact hno p (hsub p g) rest hr e
  · unfold SuffixTrouble
    simp only [hleads, hch, ht, m]

/-- C147, suffix array, without further additions. -/
theorem C147_suffix_array (sip : Bytes → UInt64) (ps : List Pattern) (hu : ∀ p ∈ ps, Utf8Lits p) (hcol : NoCollision sip ps) :
    ∃ qs, Choice ps qs ∧ ∀ text, Utf8 text →
      (SuffixTable.build sip qs >>= fun t => t.parse text) = (SuffixTable.build sip ps >>= fun t => t.parse text) := by
  obtain ⟨qs, h1, h2⟩ := C147_suffix_array_later sip ps
  refine ⟨qs, h1, fun text hx => ?_⟩
  have := h2 [] (by simpa using hu) (by simpa using hcol) text hx
  simpa using this

/-- C147: how many patterns such a choice can have. -/
theorem C147_bound (ps qs : List Pattern) (h : Choice ps qs) (lits : List Bytes) (pars : List Parser)
    (hps : ∀ p ∈ ps, (∃ l ∈ lits, p.pattern.head? = some (.literal l)) ∨ ∃ a ∈ pars, p.pattern.head? = some (.parser a)) :
    qs.length ≤ 2 * lits.length + pars.length := by
  let key : Pattern → Option Token × Bool := fun p => (p.pattern.head?, match p.pattern with | [.literal _] => true | _ => false)
  have hk : ∀ p : Pattern, (∃ l, p.pattern.head? = some (.literal l)) → ((key p).2 = true ↔ p.pattern.length = 1) := by
    rintro p ⟨l, hl⟩
    obtain ⟨rest, e⟩ := head_literal hl
    simp only [key, e]
    cases rest <;> simp
  have hnd : (qs.map key).Nodup := by
    unfold List.Nodup
    rw [List.pairwise_map]
    refine h.2.imp fun {p q} g e => g ?_
    have e1 : p.pattern.head? = q.pattern.head? := congrArg Prod.fst e
    have e2 : (key p).2 = (key q).2 := congrArg Prod.snd e
    refine ⟨e1, fun hl => ?_⟩
    rw [← hk p hl, ← hk q (e1 ▸ hl), e2]
  have hsub : qs.map key ⊆ (lits.flatMap fun l => [(some (.literal l), true), (some (.literal l), false)]) ++ pars.map fun a => (some (Token.parser a), false) := by
    intro k hk
    obtain ⟨q, hq, rfl⟩ := List.mem_map.mp hk
    rcases hps q (h.1 q hq) with ⟨l, hl, e⟩ | ⟨a, ha, e⟩
    · refine List.mem_append.mpr (.inl (List.mem_flatMap.mpr ⟨l, hl, ?_⟩))
      cases g : (key q).2 with
      | true => exact List.mem_cons.mpr (.inl (Prod.ext e g))
      | false => exact List.mem_cons.mpr (.inr (List.mem_cons.mpr (.inl (Prod.ext e g))))
    · refine List.mem_append.mpr (.inr (List.mem_map.mpr ⟨a, ha, (Prod.ext e ?_).symm⟩))
      show (match q.pattern with | [.literal _] => true | _ => false) = false
      cases g : q.pattern with
      | nil => rfl
      | cons t rest =>
        rw [g] at e
        simp at e
        rw [e]
  have := hnd.length_le_of_subset hsub
  simp only [List.length_map, List.length_append, List.length_flatMap] at this
  have hs : (lits.map fun _ : Bytes => 2).sum = 2 * lits.length := by
    clear this hsub hps
    induction lits with
    | nil => rfl
    | cons a L ih => simp only [List.map_cons, List.sum_cons, ih, List.length_cons]; omega
  have this : qs.length ≤ (lits.map fun _ : Bytes => 2).sum + pars.length := this
  omega

/-! A history of five patterns, the first of which is replaced and the second removed: three patterns are enough. Two for one literal are needed. -/

def compactSample : List Pattern := [Samples.pat 1 [.literal b!"ab", .parser (Samples.int b!"x")], Samples.pat 2 [.literal b!"abc"],
  Samples.pat 3 [.literal b!"ab", .parser (Samples.greedy b!"y" none)], Samples.pat 4 [.literal b!"ab"], Samples.pat 5 [.parser (Samples.int b!"z")]]

theorem compactSample_plain : Plain Samples.sip compactSample := by
  refine ⟨?_, ?_, ?_, ?_⟩
  · intro p hp l hl
    simp [compactSample] at hp
    rcases hp with rfl | rfl | rfl | rfl | rfl <;> simp [Samples.pat] at hl <;> subst hl <;> decide
  · intro p hp l hl
    simp [compactSample] at hp
    rcases hp with rfl | rfl | rfl | rfl | rfl <;> simp [Samples.pat] at hl <;> subst hl <;> decide
  · intro p hp l rest e l'
    simp [compactSample] at hp
    rcases hp with rfl | rfl | rfl | rfl | rfl <;> simp [Samples.pat] at e <;> first | (rw [← e.2]; simp) | (rw [e.2]; simp)
  · refine Deleted.one_parser (Samples.int b!"z") ?_
    intro p hp b e
    simp [compactSample] at hp
    rcases hp with rfl | rfl | rfl | rfl | rfl <;> simp [Samples.pat] at e
    exact e.symm

example : ∃ qs, qs.length ≤ 5 ∧ ∀ text, Utf8 text →
    (SuffixTree.build Samples.sip qs >>= fun t => t.parse text) =
      (SuffixTree.build Samples.sip (List.replicate 1000 compactSample).flatten >>= fun t => t.parse text) := by
  obtain ⟨qs, h1, h2⟩ := C147_trie Samples.sip _ (Fewer.plain_sub compactSample_plain (copies_mem compactSample 1000))
  refine ⟨qs, C147_bound _ _ h1 [b!"ab", b!"abc"] [Samples.int b!"z"] ?_, h2⟩
  intro p hp
  have hp := copies_mem compactSample 1000 p hp
  simp [compactSample] at hp
  rcases hp with rfl | rfl | rfl | rfl | rfl <;> simp [Samples.pat]

/-- C147: two patterns for a literal can be needed. -/
theorem C147_two_count : ∃ p q : Pattern, p ≠ q ∧ p.pattern.head? = q.pattern.head? ∧ Plain Samples.sip [p, q] ∧ ∀ qs, (∀ s ∈ qs, s ∈ [p, q]) → qs.length < 2 →
    ¬ ∀ text, Utf8 text → (SuffixTree.build Samples.sip qs >>= fun t => t.parse text) = (SuffixTree.build Samples.sip [p, q] >>= fun t => t.parse text) := by
  refine ⟨Samples.pat 3 [.literal b!"ab", .parser (Samples.greedy b!"y" none)], Samples.pat 4 [.literal b!"ab"], by decide, rfl,
    Fewer.plain_sub compactSample_plain (by intro s hs; simp at hs; rcases hs with rfl | rfl <;> simp [compactSample]), ?_⟩
  intro qs hq hl h
  have h1 := h b!"ab" (ascii_utf8 (by decide))
  have h2 := h b!"ab7" (ascii_utf8 (by decide))
  match qs, hq, hl with
  | [], _, _ => revert h1; decide +kernel
  | [s], hq, _ =>
    have := hq s (by simp)
    simp at this
    rcases this with rfl | rfl
    · revert h1; decide +kernel
    · revert h2; decide +kernel

example : (SuffixTree.build Samples.sip [compactSample[2], compactSample[3], compactSample[4]] >>= fun t => t.parse b!"abc") =
    (SuffixTree.build Samples.sip compactSample >>= fun t => t.parse b!"abc") := by decide +kernel

example : ∃ qs, Choice compactSample qs ∧ ∀ text, Utf8 text →
    (SuffixTable.build Samples.sip qs >>= fun t => t.parse text) = (SuffixTable.build Samples.sip compactSample >>= fun t => t.parse text) :=
  C147_suffix_array Samples.sip _ compactSample_plain.proper.utf8 compactSample_plain.hashes

example : ∃ qs, Choice compactSample qs ∧ ∀ text, Utf8 text →
    (SuffixTree.build Samples.sip (qs ++ compactSample) >>= fun t => t.parse text) =
      (SuffixTree.build Samples.sip (compactSample ++ compactSample) >>= fun t => t.parse text) := by
  obtain ⟨qs, h1, h2⟩ := C147_trie_later Samples.sip compactSample
  exact ⟨qs, h1, h2 compactSample (Fewer.plain_sub compactSample_plain fun q h => (List.mem_append.mp h).elim id id)⟩

end Verif
