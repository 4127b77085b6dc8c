import Verif.Props.C32_C39_Grammar
/-! C83: the line and column of a compilation error for all strings, also those with carriage returns. -/
namespace Verif
open Spec

/-- A line as `str::lines` returns it. -/
def stripCr (l : Bytes) : Bytes := if l.getLast? = some 13 then l.dropLast else l

theorem stripCr_cons {c d : UInt8} {l : Bytes} : stripCr (c :: d :: l) = c :: stripCr (d :: l) := by
  unfold stripCr
  rw [List.getLast?_cons_cons]
  split <;> simp

theorem normalLines_last {l : Bytes} (h : 10 ∉ l) (hne : l ≠ []) : normalLines l = stripCr l ++ [10] := by
  induction l with
  | nil => exact absurd rfl hne
  | cons c l ih =>
    simp at h
    cases l with
    | nil =>
      unfold normalLines
      by_cases hc : c = 13
      · subst hc; rfl
      · rw [if_neg (by rintro (e | e); exact h.1 e.symm; exact hc e)]
        simp [stripCr, hc]
    | cons d l =>
      simp at h
      unfold normalLines
      rw [if_neg (fun e => h.2.1 e.2.symm), ih (by simp [h]) (by simp), stripCr_cons]
      rfl

theorem normalLines_line {l t : Bytes} (h : 10 ∉ l) : normalLines (l ++ 10 :: t) = stripCr l ++ 10 :: normalLines t := by
  have h10 : ∀ t, normalLines (10 :: t) = 10 :: normalLines t := by
    intro t
    cases t with
    | nil => rfl
    | cons d t => rw [normalLines, if_neg (by simp)]
  induction l with
  | nil => simpa [stripCr] using h10 t
  | cons c l ih =>
    simp at h
    cases l with
    | nil =>
      rw [List.cons_append, List.nil_append]
      rw [normalLines]
      by_cases hc : c = 13
      · subst hc; rw [if_pos ⟨rfl, rfl⟩, h10]; rfl
      · rw [if_neg (fun e => hc e.1), h10]; simp [stripCr, hc]
    | cons d l =>
      have ih := ih h.2
      simp at h
      rw [List.cons_append, List.cons_append]
      rw [normalLines, if_neg (fun e => h.2.1 e.2.symm)]
      rw [List.cons_append] at ih
      rw [ih, stripCr_cons, List.cons_append]

theorem not_mem_strip {l : Bytes} (h : 10 ∉ l) : 10 ∉ stripCr l := by
  unfold stripCr
  split
  · exact fun h' => h (List.dropLast_subset _ h')
  · exact h

theorem strLines_normal (s : Bytes) : strLines s = splitLines (normalLines s) := by
  have key : ∀ n, ∀ s : Bytes, s.length ≤ n → strLines s = splitLines (normalLines s) := by
    intro n
    induction n with
    | zero =>
      intro s hs
      have : s = [] := List.eq_nil_of_length_eq_zero (by omega)
      subst this; rfl
    | succ n ih =>
      intro s hs
      rcases split_first_newline s with h | ⟨l, t, rfl, h⟩
      · by_cases hne : s = []
        · subst hne; rfl
        · rw [normalLines_last h hne, splitLines_some (not_mem_strip h), strLines, splitLines_none h, if_neg hne]
          rfl
      · simp at hs
        rw [normalLines_line h, splitLines_some (not_mem_strip h), ← ih t (by omega), strLines, splitLines_some h]
        rfl
  exact key _ s (Nat.le_refl _)

theorem normalLines_end (s : Bytes) : normalLines s = [] ∨ ∃ a, normalLines s = a ++ [10] := by
  have key : ∀ n, ∀ s : Bytes, s.length ≤ n → normalLines s = [] ∨ ∃ a, normalLines s = a ++ [10] := by
    intro n
    induction n with
    | zero =>
      intro s hs
      have : s = [] := List.eq_nil_of_length_eq_zero (by omega)
      subst this; exact .inl rfl
    | succ n ih =>
      intro s hs
      rcases split_first_newline s with h | ⟨l, t, rfl, h⟩
      · by_cases hne : s = []
        · subst hne; exact .inl rfl
        · exact .inr ⟨_, normalLines_last h hne⟩
      · simp at hs
        rw [normalLines_line h]
        rcases ih t (by omega) with e | ⟨a, e⟩
        · exact .inr ⟨stripCr l, by rw [e]⟩
        · exact .inr ⟨stripCr l ++ 10 :: a, by rw [e]; simp⟩
  exact key _ s (Nat.le_refl _)

/-- Behind the last line. -/
theorem posToLineLoop_behind : ∀ (n : Nat) {u : Bytes}, u.length ≤ n → (u = [] ∨ ∃ a, u = a ++ [10]) → ∀ (pos k : Nat), u.length ≤ pos →
    posToLineLoop (splitLines u) pos (k + 1) = (k + lineAfter u, columnAfter u + (pos - u.length)) := by
  intro n
  induction n with
  | zero =>
    intro u hu _ pos k _
    have : u = [] := List.eq_nil_of_length_eq_zero (by omega)
    subst this
    simp [splitLines, posToLineLoop, lineAfter, columnAfter]
    omega
  | succ n ih =>
    intro u hu he pos k hp
    rcases split_first_newline u with h | ⟨l, t, rfl, h⟩
    · rcases he with rfl | ⟨a, rfl⟩
      · simp [splitLines, posToLineLoop, lineAfter, columnAfter]
        omega
      · simp at h
    · simp at hu hp
      have ht : t = [] ∨ ∃ a, t = a ++ [10] := by
        rcases he with e | ⟨a, e⟩
        · simp at e
        · by_cases ht : t = []
          · exact .inl ht
          · right
            refine ⟨t.dropLast, ?_⟩
            have h1 : (l ++ 10 :: t).getLast? = some 10 := by rw [e]; simp
            rw [List.getLast?_append, List.getLast?_cons, List.getLast?_eq_some_getLast ht] at h1
            simp at h1
            rw [← h1, List.dropLast_concat_getLast]
      rw [splitLines_some h, posToLineLoop, if_neg (by omega), ih (by omega) ht _ (k + 1) (by omega), columnAfter_line]
      simp [lineAfter, List.count_append, List.count_eq_zero.mpr h]
      omega

/-- C83: the line and the column of a compilation error are those of its offset, counted in the text with normalised line ends; if the offset lies
behind the end of that text, the column is counted on. -/
theorem C83_position_partial (s : Bytes) (e : ParseError) (h : compile s = .ok (.error e)) :
    e.line = lineAfter ((normalLines s).take e.offset) ∧
    e.column = columnAfter ((normalLines s).take e.offset) + (e.offset - (normalLines s).length) := by
  have h3 : (e.line, e.column) = posToLine s e.offset := by
    unfold compile at h
    split at h
    · simp at h
    · split at h
      · split at h
        · simp at h
        · simp at h; rw [← h]
      · simp at h; rw [← h]
  rw [posToLine, strLines_normal] at h3
  by_cases hp : e.offset ≤ (normalLines s).length
  · rw [posToLineLoop_spec _ (Nat.le_refl _) _ 0 hp] at h3
    simp at h3
    rw [h3.1, h3.2]
    simp; omega
  · rw [posToLineLoop_behind _ (Nat.le_refl _) (normalLines_end s) _ 0 (by omega)] at h3
    simp at h3
    rw [List.take_of_length_le (by omega), h3.1, h3.2]
    simp

theorem normalLines_plain {s : Bytes} (h : ∀ a b, s ≠ a ++ 13 :: 10 :: b) (hl : s.getLast? ≠ some 13) :
    normalLines s = s ∨ normalLines s = s ++ [10] := by
  induction s with
  | nil => exact .inl rfl
  | cons c s ih =>
    cases s with
    | nil =>
      rw [normalLines]
      by_cases hc : c = 10
      · subst hc; exact .inl rfl
      · rw [if_neg (by rintro (e | e); exact hc e; exact hl (by rw [e]; rfl))]
        exact .inr rfl
    | cons d s =>
      rw [normalLines, if_neg (by rintro ⟨rfl, rfl⟩; exact h [] s rfl)]
      rcases ih (fun a b e => h (c :: a) b (by rw [e]; rfl)) (by rwa [List.getLast?_cons_cons] at hl) with e | e <;> rw [e]
      · exact .inl rfl
      · exact .inr rfl

/-- C83: in a string without `\r\n` and without a carriage return at the end, the line and column are those of the offset. -/
theorem C83_no_crlf_partial (s : Bytes) (hu : Utf8 s) (e : ParseError) (h : compile s = .ok (.error e)) (hc : ∀ a b, s ≠ a ++ 13 :: 10 :: b)
    (hl : s.getLast? ≠ some 13) : e.line = lineAfter (s.take e.offset) ∧ e.column = columnAfter (s.take e.offset) := by
  obtain ⟨h1, h2⟩ := C83_position_partial s e h
  have h3 := (C37_error_position s hu e h).1
  have h4 : (normalLines s).take e.offset = s.take e.offset := by
    rcases normalLines_plain hc hl with g | g <;> rw [g]
    exact List.take_append_of_le_length h3
  have h5 : e.offset - (normalLines s).length = 0 := by
    rcases normalLines_plain hc hl with g | g <;> rw [g] <;> (try simp) <;> omega
  rw [h4] at h1 h2
  rw [h5] at h2
  exact ⟨h1, h2⟩

/-- C83 is false in general: the error of the string `a\r\n%{` is at the end of its second line, and line 3 is reported. -/
theorem C83_refuted : ∃ (s : Bytes) (e : ParseError), Utf8 s ∧ compile s = .ok (.error e) ∧ e.offset = s.length ∧ lineAfter s = 2 ∧ e.line = 3 := by
  have h : (match compile b!"a\r\n%{" with
      | .ok (.error e) => decide (e.offset = 5 ∧ e.line = 3)
      | _ => false) = true := by decide +kernel
  revert h
  split
  · rename_i e he
    intro h
    have h := of_decide_eq_true h
    exact ⟨b!"a\r\n%{", e, ascii_utf8 (by decide), he, h.1, by decide, h.2⟩
  · simp

/-- An error in a string of three lines. -/
example : ∃ e, compile b!"a\nb\nc%{x" = .ok (.error e) ∧ e.line = 3 ∧ e.column = 4 := by
  have h : (match compile b!"a\nb\nc%{x" with
      | .ok (.error e) => decide (e.line = 3 ∧ e.column = 4)
      | _ => false) = true := by decide +kernel
  revert h
  split
  · rename_i e he
    intro h
    exact ⟨e, he, of_decide_eq_true h⟩
  · simp

end Verif
