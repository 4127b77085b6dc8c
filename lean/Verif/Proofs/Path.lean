import Verif.Spec.Paths
import Verif.Rust.Path
import Verif.Proofs.Utf8
/-! Proofs about paths. -/
namespace Verif
open Spec

theorem splitSlash_ne (s : Bytes) : splitSlash s ≠ [] := by
  cases s with
  | nil => simp [splitSlash]
  | cons c s =>
    unfold splitSlash
    split
    · simp
    · split <;> simp

theorem splitSlash_append (a b : Bytes) : splitSlash (a ++ 47 :: b) = splitSlash a ++ splitSlash b := by
  induction a with
  | nil => simp [splitSlash]
  | cons c a ih =>
    rw [List.cons_append]
    simp only [splitSlash]
    rw [ih]
    by_cases hc : c = 47
    · simp [hc]
    · simp only [hc, if_false]
      cases h : splitSlash a with
      | nil => exact absurd h (splitSlash_ne a)
      | cons x xs => simp

theorem splitSlash_none {x : Bytes} (h : (47 : UInt8) ∉ x) : splitSlash x = [x] := by
  induction x with
  | nil => rfl
  | cons c x ih =>
    simp only [List.mem_cons, not_or] at h
    simp only [splitSlash, ih h.2, if_neg (Ne.symm h.1)]

theorem splitSlash_free (s : Bytes) : ∀ c ∈ splitSlash s, (47 : UInt8) ∉ c := by
  induction s with
  | nil => intro c hc; simp [splitSlash] at hc; subst hc; simp
  | cons a s ih =>
    intro c hc
    simp only [splitSlash] at hc
    by_cases ha : a = 47
    · simp only [ha, if_true, List.mem_cons] at hc
      rcases hc with rfl | hc
      · simp
      · exact ih c hc
    · simp only [ha, if_false] at hc
      cases h : splitSlash s with
      | nil => exact absurd h (splitSlash_ne s)
      | cons x xs =>
        rw [h] at hc ih
        simp only [List.mem_cons] at hc
        rcases hc with rfl | hc
        · simp only [List.mem_cons, not_or]; exact ⟨Ne.symm ha, ih x (by simp)⟩
        · exact ih c (by simp [hc])

/-- Join with slashes. -/
def joinSlash : List Bytes → Bytes
  | [] => []
  | [x] => x
  | x :: y :: xs => x ++ 47 :: joinSlash (y :: xs)

theorem joinSlash_split (s : Bytes) : joinSlash (splitSlash s) = s := by
  induction s with
  | nil => rfl
  | cons c s ih =>
    simp only [splitSlash]
    cases h : splitSlash s with
    | nil => exact absurd h (splitSlash_ne s)
    | cons x xs =>
      rw [h] at ih
      by_cases hc : c = 47
      · simp only [hc, if_true, joinSlash, List.nil_append]; rw [ih]
      · simp only [hc, if_false]
        cases xs with
        | nil => simp only [joinSlash] at ih ⊢; rw [ih]
        | cons y ys => simp only [joinSlash, List.cons_append] at ih ⊢; rw [ih]

theorem joinSlash_append (A : List Bytes) (hA : A ≠ []) (c : Bytes) (B : List Bytes) :
    joinSlash (A ++ c :: B) = joinSlash A ++ 47 :: joinSlash (c :: B) := by
  induction A with
  | nil => exact absurd rfl hA
  | cons x A ih =>
    cases A with
    | nil => simp [joinSlash]
    | cons y A =>
      have := ih (by simp)
      simp only [List.cons_append, joinSlash] at this ⊢
      rw [this]; simp

theorem joinSlash_tail (c : Bytes) (B : List Bytes) (hB : ∀ b ∈ B, b = [] ∨ b = b!".") : ∃ tail, joinSlash (c :: B) = c ++ tail ∧ Trailing tail := by
  induction B generalizing c with
  | nil => exact ⟨[], by simp [joinSlash], .nil⟩
  | cons b B ih =>
    obtain ⟨t, h1, h2⟩ := ih b (fun x hx => hB x (by simp [hx]))
    simp only [joinSlash]
    rw [h1]
    rcases hB b (by simp) with rfl | rfl
    · exact ⟨_, rfl, .slash t h2⟩
    · exact ⟨_, rfl, .dot t h2⟩

theorem splitSlash_trailing {t : Bytes} (h : Trailing t) : ∀ x : Bytes, (47 : UInt8) ∉ x →
    ∃ B, splitSlash (x ++ t) = x :: B ∧ ∀ b ∈ B, b = [] ∨ b = b!"." := by
  induction h with
  | nil => intro x hx; exact ⟨[], by simp [splitSlash_none hx], by simp⟩
  | slash t _ ih =>
    intro x hx
    obtain ⟨B, h1, h2⟩ := ih [] (by simp)
    refine ⟨[] :: B, ?_, ?_⟩
    · rw [show x ++ (b!"/" ++ t) = x ++ 47 :: t from rfl, splitSlash_append, splitSlash_none hx]
      rw [List.nil_append] at h1
      rw [h1]; rfl
    · intro b hb
      rcases List.mem_cons.mp hb with rfl | hb
      · exact .inl rfl
      · exact h2 b hb
  | dot t _ ih =>
    intro x hx
    obtain ⟨B, h1, h2⟩ := ih b!"." (by decide)
    refine ⟨b!"." :: B, ?_, ?_⟩
    · rw [show x ++ (b!"/." ++ t) = x ++ 47 :: (b!"." ++ t) from rfl, splitSlash_append, splitSlash_none hx, h1]; rfl
    · intro b hb
      rcases List.mem_cons.mp hb with rfl | hb
      · exact .inr rfl
      · exact h2 b hb

theorem filter_getLast {α : Type} (p : α → Bool) : ∀ (l : List α) (c : α), (l.filter p).getLast? = some c ↔ ∃ A B, l = A ++ c :: B ∧ p c = true ∧ ∀ b ∈ B, p b = false := by
  intro l c
  generalize hl : l.reverse = r
  have : l = r.reverse := by rw [← hl, List.reverse_reverse]
  subst this
  clear hl
  rw [List.filter_reverse, List.getLast?_reverse]
  induction r with
  | nil => simp
  | cons x r ih =>
    rw [List.filter_cons]
    split
    · rename_i hx
      simp only [List.head?_cons, Option.some.injEq, List.reverse_cons]
      constructor
      · rintro rfl; exact ⟨r.reverse, [], rfl, hx, by simp⟩
      · rintro ⟨A, B, h1, h2, h3⟩
        cases hB : B.reverse with
        | nil =>
          have : B = [] := by simpa using hB
          subst this
          have := congrArg List.reverse h1
          simp at this
          exact this.1
        | cons y ys =>
          have h4 := congrArg List.reverse h1
          simp only [List.reverse_append, List.reverse_cons, hB] at h4
          simp at h4
          have := h3 y (by rw [← List.mem_reverse, hB]; simp)
          rw [← h4.1, hx] at this; simp at this
    · rename_i hx
      refine Iff.trans ih ?_
      simp only [List.reverse_cons]
      constructor
      · rintro ⟨A, B, h1, h2, h3⟩
        refine ⟨A, B ++ [x], by rw [h1]; simp, h2, ?_⟩
        intro b hb
        simp at hb
        rcases hb with hb | rfl
        · exact h3 b hb
        · simpa using hx
      · rintro ⟨A, B, h1, h2, h3⟩
        cases hB : B.reverse with
        | nil =>
          have : B = [] := by simpa using hB
          subst this
          have := congrArg List.reverse h1
          simp at this
          rw [this.1] at hx; exact absurd h2 hx
        | cons y ys =>
          have hB' : B = ys.reverse ++ [y] := by have := congrArg List.reverse hB; simpa using this
          subst hB'
          have h4 := congrArg List.reverse h1
          simp at h4
          refine ⟨A, ys.reverse, ?_, h2, fun b hb => h3 b (by simp at hb ⊢; exact .inl hb)⟩
          rw [h4.2]; simp

theorem pathFileName_iff (path name : Bytes) : pathFileName path = some name ↔ FileName path name := by
  unfold pathFileName
  have hcase : (match ((splitSlash path).filter fun c => c ≠ [] ∧ c ≠ b!".").getLast? with
      | some c => if c = b!".." then none else some c
      | none => none) = some name ↔
      ((splitSlash path).filter fun c => c ≠ [] ∧ c ≠ b!".").getLast? = some name ∧ name ≠ b!".." := by
    cases ((splitSlash path).filter fun c => c ≠ [] ∧ c ≠ b!".").getLast? with
    | none => simp
    | some c =>
      simp only [Option.some.injEq]
      by_cases hc : c = b!".."
      · rw [if_pos hc]
        simp only [reduceCtorEq, false_iff, not_and, Decidable.not_not]
        rintro rfl; exact hc
      · rw [if_neg hc]
        simp only [Option.some.injEq]
        exact ⟨fun h => ⟨h, by rw [← h]; exact hc⟩, fun h => h.1⟩
  refine Iff.trans hcase ?_
  rw [filter_getLast]
  constructor
  · rintro ⟨⟨A, B, h1, h2, h3⟩, h4⟩
    have hB : ∀ b ∈ B, b = [] ∨ b = b!"." := by
      intro b hb
      have := h3 b hb
      simp only [decide_eq_false_iff_not, not_and, Decidable.not_not] at this
      by_cases hb0 : b = []
      · exact .inl hb0
      · exact .inr (this hb0)
    obtain ⟨tail, e, ht⟩ := joinSlash_tail name B hB
    have hfree := splitSlash_free path name (by rw [h1]; simp)
    have hj := joinSlash_split path
    rw [h1] at hj
    simp only [decide_eq_true_eq] at h2
    by_cases hA : A = []
    · subst hA
      rw [List.nil_append, e] at hj
      exact ⟨[], tail, by rw [← hj]; simp, .inl rfl, ht, hfree, h2.1, h2.2, h4⟩
    · rw [joinSlash_append A hA, e] at hj
      exact ⟨joinSlash A ++ b!"/", tail, by rw [← hj]; simp, .inr ⟨_, rfl⟩, ht, hfree, h2.1, h2.2, h4⟩
  · rintro ⟨dir, tail, rfl, hdir, ht, h1, h2, h3, h4⟩
    refine ⟨?_, h4⟩
    obtain ⟨B, e, hB⟩ := splitSlash_trailing ht name h1
    have hB' : ∀ b ∈ B, (decide (b ≠ [] ∧ b ≠ b!".")) = false := by
      intro b hb
      rcases hB b hb with rfl | rfl <;> decide
    rcases hdir with rfl | ⟨up, rfl⟩
    · exact ⟨[], B, by simpa using e, by simp [h2, h3], hB'⟩
    · refine ⟨splitSlash up, B, ?_, by simp [h2, h3], hB'⟩
      rw [show up ++ b!"/" ++ name ++ tail = up ++ 47 :: (name ++ tail) by simp, splitSlash_append, e]

theorem splitLastDot_iff (s a b : Bytes) : splitLastDot s = some (a, b) ↔ s = a ++ b!"." ++ b ∧ (46 : UInt8) ∉ b := by
  induction s generalizing a b with
  | nil => simp [splitLastDot]
  | cons c s ih =>
    unfold splitLastDot
    cases h : splitLastDot s with
    | none =>
      have hno : (46 : UInt8) ∉ s := by
        intro hm
        have : ∀ s : Bytes, (46 : UInt8) ∈ s → splitLastDot s ≠ none := by
          intro s
          induction s with
          | nil => simp
          | cons c s ih =>
            intro hm
            unfold splitLastDot
            cases h2 : splitLastDot s with
            | none =>
              have := mt (ih) (by rw [h2]; simp)
              rcases List.mem_cons.mp hm with rfl | hm
              · simp
              · exact absurd hm this
            | some x => simp
        exact this s hm h
      by_cases hc : c = 46
      · subst hc
        simp only [if_true, Option.some.injEq, Prod.mk.injEq]
        constructor
        · rintro ⟨rfl, rfl⟩; exact ⟨rfl, hno⟩
        · rintro ⟨h1, h2⟩
          cases a with
          | nil => simp at h1; exact ⟨rfl, h1⟩
          | cons x a =>
            simp at h1
            exact absurd (by rw [h1.2]; simp) hno
      · simp only [if_neg hc, reduceCtorEq, false_iff, not_and]
        intro h1
        cases a with
        | nil => simp at h1; exact absurd h1.1 hc
        | cons x a => simp at h1; exact absurd (by rw [h1.2]; simp) hno
    | some x =>
      obtain ⟨a', b'⟩ := x
      simp only [Option.some.injEq, Prod.mk.injEq]
      have h' := (ih a' b').mp h
      constructor
      · rintro ⟨rfl, rfl⟩
        exact ⟨by rw [h'.1]; simp, h'.2⟩
      · rintro ⟨h1, h2⟩
        cases a with
        | nil =>
          simp at h1
          rw [h'.1] at h1
          exact absurd (by rw [← h1.2]; simp) h2
        | cons x a =>
          simp at h1
          have := (ih a b).mpr ⟨by rw [h1.2]; simp, h2⟩
          rw [h] at this; simp at this
          exact ⟨by rw [h1.1, this.1], this.2⟩

theorem pathExtension_iff (path ext : Bytes) : pathExtension path = some ext ↔ HasExt path ext := by
  unfold pathExtension HasExt
  constructor
  · intro h
    cases hn : pathFileName path with
    | none => rw [hn] at h; simp at h
    | some name =>
      rw [hn] at h; simp only at h
      cases hs : splitLastDot name with
      | none => rw [hs] at h; simp at h
      | some x =>
        obtain ⟨a, b⟩ := x
        rw [hs] at h; simp only at h
        split at h
        · simp at h
        · rename_i ha
          simp at h; subst h
          obtain ⟨rfl, h2⟩ := (splitLastDot_iff _ _ _).mp hs
          exact ⟨a, (pathFileName_iff _ _).mp hn, ha, h2⟩
  · rintro ⟨stem, h1, h2, h3⟩
    rw [(pathFileName_iff _ _).mpr h1]
    simp only
    rw [(splitLastDot_iff _ _ _).mpr ⟨rfl, h3⟩]
    simp [h2]

theorem hasExt_unique {path e e' : Bytes} (h : HasExt path e) (h' : HasExt path e') : e = e' := by
  rw [← pathExtension_iff] at h h'
  rw [h] at h'; simpa using h'

/-- In UTF-8, what follows an ASCII byte is UTF-8, and so is what precedes it. -/
theorem utf8_split_ascii {a b : Bytes} {c : UInt8} (hc : c.toNat < 128) (h : Utf8 (a ++ c :: b)) : Utf8 a ∧ Utf8 b := by
  have hb : isCharBoundary (a ++ c :: b) a.length = true := by
    unfold isCharBoundary
    by_cases h0 : a.length = 0
    · simp [h0]
    · simp [not_cont_of_ascii hc]
  obtain ⟨h1, h2⟩ := boundary_split h hb
  simp at h1 h2
  refine ⟨h1, ?_⟩
  have hc' : Utf8 [c] := ascii_utf8 (by intro x hx; simp at hx; subst hx; exact hc)
  exact utf8_cancel hc' (by simpa using h2)

theorem hasExt_utf8 {path ext : Bytes} (hp : Utf8 path) (h : HasExt path ext) : Utf8 ext := by
  obtain ⟨stem, ⟨dir, tail, rfl, hdir, ht, hfree, _⟩, _, _⟩ := h
  have : dir ++ (stem ++ b!"." ++ ext) ++ tail = (dir ++ stem) ++ 46 :: (ext ++ tail) := by simp
  rw [this] at hp
  have h2 := (utf8_split_ascii (by decide) hp).2
  cases ht with
  | nil => simpa using h2
  | slash t _ => exact (utf8_split_ascii (c := 47) (by decide) h2).1
  | dot t _ => exact (utf8_split_ascii (c := 47) (by decide) h2).1

end Verif
