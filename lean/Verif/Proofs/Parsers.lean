import Verif.Spec.Parsers
import Verif.Proofs.Utf8
/-! Helper lemmas on the parsers. -/
namespace Verif
open Spec

theorem cmpU8_eq {a b : UInt8} : cmpU8 a b = .eq ↔ a = b := by
  unfold cmpU8
  rw [← UInt8.toNat_inj]
  split
  · simp; omega
  · split <;> simp <;> omega
theorem cmpU8_lt {a b : UInt8} : cmpU8 a b = .lt ↔ a.toNat < b.toNat := by
  unfold cmpU8; split
  · simpa
  · split <;> simp <;> omega
theorem cmpU8_gt {a b : UInt8} : cmpU8 a b = .gt ↔ b.toNat < a.toNat := by
  unfold cmpU8; split
  · simp; omega
  · split <;> simp <;> omega

theorem mem_bsetInsert {x y : UInt8} {l : List UInt8} : y ∈ bsetInsert x l ↔ y = x ∨ y ∈ l := by
  induction l with
  | nil => simp [bsetInsert]
  | cons z l ih =>
    unfold bsetInsert
    split
    · simp
    · rename_i h; rw [cmpU8_eq] at h; subst h; simp
    · rw [List.mem_cons, ih, List.mem_cons]
      constructor
      · rintro (h | h | h) <;> simp [h]
      · rintro (h | h | h) <;> simp [h]

theorem bsetInsert_sorted {x : UInt8} {l : List UInt8} (h : StrictlySorted l) : StrictlySorted (bsetInsert x l) := by
  induction l with
  | nil => simp [bsetInsert, StrictlySorted]
  | cons z l ih =>
    unfold StrictlySorted at *
    rw [List.pairwise_cons] at h
    unfold bsetInsert
    split
    · rename_i hc
      rw [cmpU8_lt] at hc
      rw [List.pairwise_cons]
      refine ⟨?_, List.pairwise_cons.mpr h⟩
      intro w hw
      rw [List.mem_cons] at hw
      rcases hw with rfl | hw
      · exact hc
      · have := h.1 w hw; omega
    · exact List.pairwise_cons.mpr h
    · rename_i hc
      rw [cmpU8_gt] at hc
      rw [List.pairwise_cons]
      refine ⟨?_, ih h.2⟩
      intro w hw
      rw [mem_bsetInsert] at hw
      rcases hw with rfl | hw
      · exact hc
      · exact h.1 w hw

theorem foldl_bset (l : List UInt8) (s : List UInt8) (hs : StrictlySorted s) :
    StrictlySorted (l.foldl (fun s x => bsetInsert x s) s) ∧
    ∀ y, y ∈ l.foldl (fun s x => bsetInsert x s) s ↔ y ∈ s ∨ y ∈ l := by
  induction l generalizing s with
  | nil => simp [hs]
  | cons x l ih =>
    obtain ⟨h1, h2⟩ := ih (bsetInsert x s) (bsetInsert_sorted hs)
    refine ⟨h1, fun y => ?_⟩
    rw [List.foldl_cons, h2, mem_bsetInsert, List.mem_cons]
    constructor
    · rintro ((h | h) | h) <;> simp [h]
    · rintro (h | h | h) <;> simp [h]

theorem mem_bsetFromIter {y : UInt8} {l : List UInt8} : y ∈ bsetFromIter l ↔ y ∈ l := by
  have := (foldl_bset l [] (by simp [StrictlySorted])).2 y
  simpa [bsetFromIter] using this

theorem bsetFromIter_sorted (l : List UInt8) : StrictlySorted (bsetFromIter l) :=
  (foldl_bset l [] (by simp [StrictlySorted])).1

/-! SET -/

theorem calc_le (p : SetParser) (text : Bytes) : p.calculateMatchLength text ≤ text.length := by
  induction text with
  | nil => simp [SetParser.calculateMatchLength]
  | cons c t ih => unfold SetParser.calculateMatchLength; split <;> simp; omega

theorem calc_mem (p : SetParser) (text : Bytes) :
    ∀ b ∈ text.take (p.calculateMatchLength text), b ∈ p.characterSet := by
  induction text with
  | nil => simp
  | cons c t ih =>
    unfold SetParser.calculateMatchLength
    split
    · rename_i h
      intro b hb
      rw [List.take_succ_cons, List.mem_cons] at hb
      rcases hb with rfl | hb
      · simpa using h
      · exact ih b hb
    · simp

theorem calc_max (p : SetParser) (text : Bytes) (b : UInt8) (rest : Bytes)
    (h : text.drop (p.calculateMatchLength text) = b :: rest) : b ∉ p.characterSet := by
  induction text with
  | nil => simp at h
  | cons c t ih =>
    unfold SetParser.calculateMatchLength at h
    split at h
    · exact ih (by simpa using h)
    · rename_i hc
      simp at h
      rw [← h.1]; simpa using hc

/-- the run length is determined by its properties -/
theorem calc_unique (p : SetParser) (text v : Bytes) (h1 : v <+: text) (h2 : ∀ b ∈ v, b ∈ p.characterSet)
    (h3 : ∀ b rest, text = v ++ b :: rest → b ∉ p.characterSet) : p.calculateMatchLength text = v.length := by
  induction text generalizing v with
  | nil => simp at h1; simp [h1, SetParser.calculateMatchLength]
  | cons c t ih =>
    cases v with
    | nil =>
      have := h3 c t rfl
      unfold SetParser.calculateMatchLength
      rw [if_neg (by simpa using this)]; rfl
    | cons b v =>
      rw [List.cons_prefix_cons] at h1
      obtain ⟨rfl, h1⟩ := h1
      have hb := h2 b (by simp)
      unfold SetParser.calculateMatchLength
      rw [if_pos (by simpa using hb), ih v h1 (fun x hx => h2 x (by simp [hx]))]
      · simp
      · intro x rest hx
        exact h3 x rest (by rw [hx]; rfl)

theorem lengthOk_iff (p : SetParser) (n : Nat) : p.isMatchLengthOk n = true ↔
    0 < n ∧ (∀ m, p.minLength = some m → m ≤ n) ∧ (∀ m, p.maxLength = some m → n ≤ m) := by
  unfold SetParser.isMatchLengthOk SetParser.isMinLengthOk SetParser.isMaxLengthOk
  cases p.minLength <;> cases p.maxLength <;> simp [and_assoc]

theorem setMatch_iff (p : SetParser) (text v : Bytes) :
    SetMatch p.characterSet p.minLength p.maxLength text v ↔
    p.isMatchLengthOk (p.calculateMatchLength text) = true ∧ v = text.take (p.calculateMatchLength text) := by
  have hle := calc_le p text
  constructor
  · rintro ⟨h1, h2, h3, h4, h5, h6⟩
    have hc := calc_unique p text v h1 h3 h4
    rw [lengthOk_iff, hc]
    refine ⟨⟨List.length_pos_iff.mpr h2, h5, h6⟩, List.prefix_iff_eq_take.mp h1⟩
  · rintro ⟨h1, rfl⟩
    rw [lengthOk_iff] at h1
    have hlen : (text.take (p.calculateMatchLength text)).length = p.calculateMatchLength text := by
      simp; omega
    refine ⟨List.take_prefix _ _, ?_, calc_mem p text, ?_, ?_, ?_⟩
    · rw [← List.length_pos_iff, hlen]; exact h1.1
    · intro b rest h
      apply calc_max p text b rest
      exact List.append_cancel_left ((List.take_append_drop _ text).trans h)
    · rw [hlen]; exact h1.2.1
    · rw [hlen]; exact h1.2.2

theorem setParse_some (p : SetParser) (text v : Bytes) :
    p.parse text = .ok (some v) ↔
    SetMatch p.characterSet p.minLength p.maxLength text v ∧ isCharBoundary text v.length = true := by
  have hle := calc_le p text
  rw [setMatch_iff]
  unfold SetParser.parse
  simp only
  split
  · rename_i h
    unfold sliceTo
    constructor
    · intro hh
      split at hh
      · simp at hh
      · rename_i hs
        split at hs
        · simp at hh hs
          subst hh; subst hs
          refine ⟨⟨h, rfl⟩, ?_⟩
          rw [List.length_take, Nat.min_eq_left hle]; assumption
        · simp at hs
    · rintro ⟨⟨_, rfl⟩, hb⟩
      rw [List.length_take, Nat.min_eq_left hle] at hb
      simp [hb]
  · rename_i h
    simp [h]

theorem setParse_none (p : SetParser) (text : Bytes) :
    p.parse text = .ok none ↔ ¬∃ v, SetMatch p.characterSet p.minLength p.maxLength text v := by
  constructor
  · rintro h ⟨v, hv⟩
    rw [setMatch_iff] at hv
    unfold SetParser.parse at h
    simp only [hv.1, if_true] at h
    split at h <;> simp at h
  · intro h
    unfold SetParser.parse
    simp only
    split
    · rename_i hh
      exact absurd ⟨_, (setMatch_iff p text _).mpr ⟨hh, rfl⟩⟩ h
    · rfl

/-- a run of ASCII bytes ends on a boundary of a UTF-8 string -/
theorem ascii_prefix_boundary {v text : Bytes} (h : v <+: text) (hv : Ascii v) (ht : Utf8 text) :
    isCharBoundary text v.length = true := by
  rw [boundary_iff ht]
  refine ⟨h.length_le, ?_⟩
  rw [← List.prefix_iff_eq_take.mp h]
  exact ascii_utf8 hv

theorem setParse_no_panic (p : SetParser) (hp : Ascii p.characterSet) (text : Bytes) (ht : Utf8 text) :
    ∃ r, p.parse text = .ok r := by
  by_cases h : ∃ v, SetMatch p.characterSet p.minLength p.maxLength text v
  · obtain ⟨v, hv⟩ := h
    refine ⟨some v, (setParse_some p text v).mpr ⟨hv, ?_⟩⟩
    exact ascii_prefix_boundary hv.isPrefix (fun b hb => hp b (hv.inSet b hb)) ht
  · exact ⟨none, (setParse_none p text).mpr h⟩

theorem setMatch_unique {set : Bytes} {mn mx : Option Nat} {text v w : Bytes}
    (h1 : SetMatch set mn mx text v) (h2 : SetMatch set mn mx text w) : v = w := by
  have e1 := (setMatch_iff ⟨none, set, mn, mx⟩ text v).mp h1
  have e2 := (setMatch_iff ⟨none, set, mn, mx⟩ text w).mp h2
  rw [e1.2, e2.2]

/-! GREEDY -/

theorem strFind_some {hay needle : Bytes} {i : Nat} (h : strFind hay needle = some i) :
    i ≤ hay.length ∧ needle <+: hay.drop i ∧ ∀ j, j < i → ¬ needle <+: hay.drop j := by
  induction hay generalizing i with
  | nil =>
    unfold strFind at h
    split at h
    · rename_i hp
      simp at h; subst h
      rw [List.isPrefixOf_iff_prefix] at hp
      simpa using hp
    · simp at h
  | cons b t ih =>
    unfold strFind at h
    split at h
    · rename_i hp
      simp at h; subst h
      rw [List.isPrefixOf_iff_prefix] at hp
      simp [hp]
    · rename_i hp
      rw [List.isPrefixOf_iff_prefix] at hp
      cases hf : strFind t needle with
      | none => simp [hf] at h
      | some k =>
        simp [hf] at h; subst h
        obtain ⟨h1, h2, h3⟩ := ih hf
        refine ⟨by simpa using h1, by simpa using h2, ?_⟩
        intro j hj
        cases j with
        | zero => simpa using hp
        | succ j => simpa using h3 j (by omega)

theorem strFind_none {hay needle : Bytes} (h : strFind hay needle = none) :
    ∀ j, ¬ needle <+: hay.drop j := by
  induction hay with
  | nil =>
    unfold strFind at h
    split at h
    · simp at h
    · rename_i hp
      rw [List.isPrefixOf_iff_prefix] at hp
      simpa using hp
  | cons b t ih =>
    unfold strFind at h
    split at h
    · simp at h
    · rename_i hp
      rw [List.isPrefixOf_iff_prefix] at hp
      have := ih (by simpa using h)
      intro j
      cases j with
      | zero => simpa using hp
      | succ j => simpa using this j

theorem strFind_before {text e v : Bytes} : BeforeFirst e text v ↔ strFind text e = some v.length ∧ v <+: text := by
  constructor
  · rintro ⟨⟨r, hr⟩, hmin⟩
    refine ⟨?_, ⟨e ++ r, by rw [hr]; simp⟩⟩
    cases hf : strFind text e with
    | none =>
      exfalso
      apply strFind_none hf v.length
      rw [hr]; simp
    | some i =>
      obtain ⟨h1, ⟨r', h2⟩, h3⟩ := strFind_some hf
      have e1 := hmin (text.take i) r' (by rw [List.append_assoc, h2]; simp)
      rw [List.length_take] at e1
      have e2 : ¬ v.length < i := by
        intro hlt
        apply h3 v.length hlt
        rw [hr]; simp
      congr 1; omega
  · rintro ⟨hf, hv⟩
    obtain ⟨h1, ⟨r', h2⟩, h3⟩ := strFind_some hf
    have hv' := List.prefix_iff_eq_take.mp hv
    refine ⟨⟨r', ?_⟩, ?_⟩
    · rw [List.append_assoc, h2]
      conv => rhs; lhs; rw [hv']
      simp
    · intro v' r'' h
      apply Nat.le_of_not_lt
      intro hlt
      apply h3 v'.length hlt
      rw [h]; simp

theorem beforeFirst_unique {e text v w : Bytes} (h1 : BeforeFirst e text v) (h2 : BeforeFirst e text w) : v = w := by
  rw [strFind_before] at h1 h2
  have hl : v.length = w.length := by
    have := h1.1.symm.trans h2.1
    simpa using this
  rw [List.prefix_iff_eq_take.mp h1.2, List.prefix_iff_eq_take.mp h2.2, hl]

/-- an occurrence of a UTF-8 string in a UTF-8 string starts on a boundary -/
theorem occurrence_boundary {e text v r : Bytes} (he : Utf8 e) (hne : e ≠ [])
    (h : text = v ++ e ++ r) : isCharBoundary text v.length = true := by
  cases e with
  | nil => exact absurd rfl hne
  | cons b e =>
    unfold isCharBoundary
    split
    · rfl
    · rw [h]; simp [utf8_head he]

theorem greedyParse_some (p : GreedyParser) (text v : Bytes) :
    p.parse text = .ok (some v) ↔ ParserMatch (.greedy p) text v ∧ isCharBoundary text v.length = true := by
  obtain ⟨nm, es⟩ := p
  simp only [GreedyParser.parse, ParserMatch]
  cases es with
  | none =>
    simp only [Except.ok.injEq, Option.some.injEq]
    constructor
    · rintro rfl; exact ⟨rfl, isCharBoundary_length _⟩
    · rintro ⟨rfl, _⟩; rfl
  | some e =>
    simp only [strFind_before]
    cases hf : strFind text e with
    | none => simp
    | some i =>
      obtain ⟨hi, _⟩ := strFind_some hf
      simp only [Option.some.injEq]
      unfold sliceTo
      constructor
      · intro h
        split at h
        · simp at h
        · rename_i hs
          split at hs
          · simp at h hs
            subst h; subst hs
            simp [List.take_prefix, Nat.min_eq_left hi]; assumption
          · simp at hs
      · rintro ⟨⟨rfl, hp⟩, hb⟩
        rw [if_pos hb]
        simp only [Except.ok.injEq, Option.some.injEq]
        exact (List.prefix_iff_eq_take.mp hp).symm

theorem greedyParse_none (p : GreedyParser) (text : Bytes) :
    p.parse text = .ok none ↔ ¬∃ v, ParserMatch (.greedy p) text v := by
  obtain ⟨nm, es⟩ := p
  simp only [GreedyParser.parse, ParserMatch]
  cases es with
  | none => simp
  | some e =>
    simp only [strFind_before]
    cases hf : strFind text e with
    | none => simp
    | some i =>
      obtain ⟨hi, _⟩ := strFind_some hf
      simp only
      constructor
      · intro h; split at h <;> simp at h
      · intro h
        exfalso; apply h
        exact ⟨text.take i, by simp [Nat.min_eq_left hi], List.take_prefix _ _⟩

theorem parse_some (p : Parser) (text v : Bytes) :
    p.parse text = .ok (some v) ↔ ParserMatch p text v ∧ isCharBoundary text v.length = true := by
  cases p with
  | set p => exact setParse_some p text v
  | int p => exact setParse_some p text v
  | greedy p => exact greedyParse_some p text v

theorem parse_none (p : Parser) (text : Bytes) :
    p.parse text = .ok none ↔ ¬∃ v, ParserMatch p text v := by
  cases p with
  | set p => exact setParse_none p text
  | int p => exact setParse_none p text
  | greedy p => exact greedyParse_none p text

theorem parserMatch_prefix {p : Parser} {text v : Bytes} (h : ParserMatch p text v) : v <+: text := by
  cases p with
  | set p => exact SetMatch.isPrefix h
  | int p => exact SetMatch.isPrefix h
  | greedy p =>
    unfold ParserMatch at h
    cases he : p.endString with
    | none => simp [he] at h; rw [h]; exact List.prefix_refl _
    | some e =>
      simp only [he] at h
      exact (strFind_before.mp h).2

theorem parserMatch_unique {p : Parser} {text v w : Bytes} (h1 : ParserMatch p text v) (h2 : ParserMatch p text w) :
    v = w := by
  cases p with
  | set p => exact setMatch_unique h1 h2
  | int p => exact setMatch_unique h1 h2
  | greedy p =>
    unfold ParserMatch at h1 h2
    cases he : p.endString with
    | none => simp [he] at h1 h2; rw [h1, h2]
    | some e => simp only [he] at h1 h2; exact beforeFirst_unique h1 h2

theorem parserMatch_boundary {p : Parser} {text v : Bytes} (h : ParserMatch p text v) (ha : AsciiParser p)
    (hu : Utf8Parser p) (ht : Utf8 text) : isCharBoundary text v.length = true := by
  cases p with
  | set p => exact ascii_prefix_boundary (SetMatch.isPrefix h) (fun b hb => ha b (SetMatch.inSet h b hb)) ht
  | int p => exact ascii_prefix_boundary (SetMatch.isPrefix h) (fun b hb => ha b (SetMatch.inSet h b hb)) ht
  | greedy p =>
    unfold ParserMatch at h
    cases he : p.endString with
    | none => simp [he] at h; rw [h]; exact isCharBoundary_length _
    | some e =>
      simp only [he] at h
      by_cases hne : e = []
      · subst hne
        have := (strFind_before.mp h).1
        have h0 : strFind text [] = some 0 := by cases text <;> simp [strFind]
        rw [h0] at this
        simp at this
        rw [← this]; exact isCharBoundary_zero _
      · obtain ⟨r, hr⟩ := h.1
        exact occurrence_boundary (hu e he) hne hr

theorem parse_total {p : Parser} {text : Bytes} (ha : AsciiParser p) (hu : Utf8Parser p) (ht : Utf8 text) :
    ∃ r, p.parse text = .ok r := by
  by_cases h : ∃ v, ParserMatch p text v
  · obtain ⟨v, hv⟩ := h
    exact ⟨some v, (parse_some p text v).mpr ⟨hv, parserMatch_boundary hv ha hu ht⟩⟩
  · exact ⟨none, (parse_none p text).mpr h⟩

/-- on ASCII text nothing can panic, whatever the parser -/
theorem parse_total_ascii (p : Parser) {text : Bytes} (ht : Ascii text) : ∃ r, p.parse text = .ok r := by
  by_cases h : ∃ v, ParserMatch p text v
  · obtain ⟨v, hv⟩ := h
    exact ⟨some v, (parse_some p text v).mpr ⟨hv, ascii_boundary ht (parserMatch_prefix hv).length_le⟩⟩
  · exact ⟨none, (parse_none p text).mpr h⟩

end Verif
