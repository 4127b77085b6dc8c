import Verif.Rust.Str
/-! Helper lemmas on UTF-8 and character boundaries. -/
namespace Verif

/-- number of continuation bytes announced by a first byte -/
def contLen (b : UInt8) : Nat :=
  if b.toNat < 128 then 0 else if b.toNat < 224 then 1 else if b.toNat < 240 then 2 else 3

theorem enc_shape (c : Char) : ∃ b0 tl, String.utf8EncodeChar c = b0 :: tl ∧ isCont b0 = false ∧
    (∀ x ∈ tl, isCont x = true) ∧ tl.length = contLen b0 ∧ b0.toNat < 248 := by
  unfold String.utf8EncodeChar
  simp only
  generalize c.val.toNat = v
  split
  · refine ⟨_, _, rfl, ?_, ?_, ?_, ?_⟩ <;> simp [isCont, contLen, UInt8.toNat_ofNat'] <;> (repeat' split) <;> omega
  split
  · refine ⟨_, _, rfl, ?_, ?_, ?_, ?_⟩ <;> simp [isCont, contLen, UInt8.toNat_ofNat'] <;> (repeat' split) <;> omega
  split
  · refine ⟨_, _, rfl, ?_, ?_, ?_, ?_⟩ <;> simp [isCont, contLen, UInt8.toNat_ofNat'] <;> (repeat' split) <;> omega
  · refine ⟨_, _, rfl, ?_, ?_, ?_, ?_⟩ <;> simp [isCont, contLen, UInt8.toNat_ofNat'] <;> (repeat' split) <;> omega

theorem enc_ne_nil (c : Char) : String.utf8EncodeChar c ≠ [] := by
  obtain ⟨b0, tl, h, _⟩ := enc_shape c; simp [h]

theorem utf8_nil : Utf8 [] := ⟨[], rfl⟩

theorem utf8_append {a b : Bytes} (ha : Utf8 a) (hb : Utf8 b) : Utf8 (a ++ b) := by
  obtain ⟨x, rfl⟩ := ha
  obtain ⟨y, rfl⟩ := hb
  exact ⟨x ++ y, by simp⟩

theorem utf8_char (c : Char) : Utf8 (String.utf8EncodeChar c) := ⟨[c], by simp⟩

theorem utf8_cons {c : Char} {s : Bytes} (h : Utf8 s) : Utf8 (String.utf8EncodeChar c ++ s) :=
  utf8_append (utf8_char c) h

theorem utf8_cases {s : Bytes} (h : Utf8 s) :
    s = [] ∨ ∃ c s', s = String.utf8EncodeChar c ++ s' ∧ Utf8 s' := by
  obtain ⟨cs, rfl⟩ := h
  cases cs with
  | nil => exact .inl rfl
  | cons c cs => exact .inr ⟨c, _, by simp, ⟨cs, rfl⟩⟩

/-- first bytes are not continuation bytes -/
theorem utf8_head {b : UInt8} {s : Bytes} (h : Utf8 (b :: s)) : isCont b = false := by
  obtain h | ⟨c, s', h, _⟩ := utf8_cases h
  · simp at h
  · obtain ⟨b0, tl, h1, h2, _⟩ := enc_shape c
    rw [h1] at h; simp at h; rw [h.1]; exact h2

/-- the encoding is a prefix code -/
theorem enc_prefix {c d : Char} {x y : Bytes}
    (h : String.utf8EncodeChar c ++ x = String.utf8EncodeChar d ++ y) :
    String.utf8EncodeChar c = String.utf8EncodeChar d ∧ x = y := by
  obtain ⟨b0, tl, h1, _, _, h4, _⟩ := enc_shape c
  obtain ⟨b0', tl', h1', _, _, h4', _⟩ := enc_shape d
  rw [h1, h1'] at h ⊢
  simp only [List.cons_append, List.cons.injEq] at h
  obtain ⟨rfl, h⟩ := h
  have := List.append_inj h (by omega)
  simp [this]

theorem utf8_cancel {a b : Bytes} (ha : Utf8 a) (hab : Utf8 (a ++ b)) : Utf8 b := by
  obtain ⟨cs, rfl⟩ := ha
  induction cs with
  | nil => simpa using hab
  | cons c cs ih =>
    apply ih
    simp only [List.flatMap_cons, List.append_assoc] at hab
    obtain h | ⟨d, s', h, hs⟩ := utf8_cases hab
    · simp at h
    · rw [(enc_prefix h).2]; exact hs

theorem isCharBoundary_zero (s : Bytes) : isCharBoundary s 0 = true := by simp [isCharBoundary]
theorem isCharBoundary_length (s : Bytes) : isCharBoundary s s.length = true := by simp [isCharBoundary]

theorem isCharBoundary_le {s : Bytes} {n : Nat} (h : isCharBoundary s n = true) : n ≤ s.length := by
  unfold isCharBoundary at h
  split at h
  · omega
  · split at h
    · simp at h
    · rename_i hb
      have := (List.getElem?_eq_some_iff.mp hb).1
      omega

theorem isCharBoundary_append_right {a b : Bytes} (hb : Utf8 b) :
    isCharBoundary (a ++ b) a.length = true := by
  unfold isCharBoundary
  split
  · rfl
  · rename_i h
    cases b with
    | nil => simp at h
    | cons x b => simp [utf8_head hb]

theorem boundary_split {s : Bytes} (hs : Utf8 s) {n : Nat} (hb : isCharBoundary s n = true) :
    Utf8 (s.take n) ∧ Utf8 (s.drop n) := by
  obtain ⟨cs, rfl⟩ := hs
  induction cs generalizing n with
  | nil => simp [utf8_nil]
  | cons c cs ih =>
    simp only [List.flatMap_cons] at hb ⊢
    by_cases h0 : n = 0
    · subst h0; simp only [List.take_zero, List.drop_zero]
      exact ⟨utf8_nil, utf8_cons ⟨cs, rfl⟩⟩
    by_cases hlt : n < (String.utf8EncodeChar c).length
    · exfalso
      obtain ⟨b0, tl, h1, _, h3, _⟩ := enc_shape c
      rw [h1] at hb hlt
      unfold isCharBoundary at hb
      obtain ⟨m, rfl⟩ : ∃ m, n = m + 1 := ⟨n - 1, by omega⟩
      simp only [List.length_cons] at hlt
      rw [if_neg (by simp; omega)] at hb
      rw [List.cons_append, List.getElem?_cons_succ, List.getElem?_append_left (by omega),
        List.getElem?_eq_getElem (by omega)] at hb
      simp [h3 _ (List.getElem_mem (l := tl) (n := m) (by omega))] at hb
    · have hb' : isCharBoundary (cs.flatMap String.utf8EncodeChar) (n - (String.utf8EncodeChar c).length) = true := by
        unfold isCharBoundary at hb ⊢
        split
        · rfl
        · rename_i hh
          rw [if_neg (by simp at hh ⊢; omega), List.getElem?_append_right (by omega)] at hb
          exact hb
      obtain ⟨h1, h2⟩ := ih hb'
      rw [List.take_append, List.drop_append, List.take_of_length_le (by omega), List.drop_eq_nil_of_le (by omega)]
      exact ⟨utf8_append (utf8_char c) h1, by simpa using h2⟩

theorem boundary_iff {s : Bytes} (hs : Utf8 s) {n : Nat} :
    isCharBoundary s n = true ↔ n ≤ s.length ∧ Utf8 (s.take n) := by
  constructor
  · intro h; exact ⟨isCharBoundary_le h, (boundary_split hs h).1⟩
  · rintro ⟨hn, h⟩
    have h2 : Utf8 (s.drop n) := utf8_cancel h (by simpa using hs)
    have := isCharBoundary_append_right (a := s.take n) h2
    simpa [Nat.min_eq_left hn] using this

theorem sliceTo_ok {s : Bytes} {n : Nat} (h : isCharBoundary s n = true) : sliceTo s n = .ok (s.take n) := by
  simp [sliceTo, h]
theorem sliceFrom_ok {s : Bytes} {n : Nat} (h : isCharBoundary s n = true) : sliceFrom s n = .ok (s.drop n) := by
  simp [sliceFrom, h]

theorem sliceTo_eq_ok {s r : Bytes} {n : Nat} (h : sliceTo s n = .ok r) :
    isCharBoundary s n = true ∧ r = s.take n := by
  unfold sliceTo at h; split at h
  · rename_i hb; exact ⟨hb, by simpa using h.symm⟩
  · simp at h
theorem sliceFrom_eq_ok {s r : Bytes} {n : Nat} (h : sliceFrom s n = .ok r) :
    isCharBoundary s n = true ∧ r = s.drop n := by
  unfold sliceFrom at h; split at h
  · rename_i hb; exact ⟨hb, by simpa using h.symm⟩
  · simp at h

/-! ASCII -/

theorem ascii_nil : Ascii [] := by simp [Ascii]
theorem ascii_append {a b : Bytes} : Ascii (a ++ b) ↔ Ascii a ∧ Ascii b := by
  simp [Ascii, or_imp, forall_and]
theorem ascii_cons {a : UInt8} {b : Bytes} : Ascii (a :: b) ↔ a.toNat < 128 ∧ Ascii b := by
  simp [Ascii]
theorem ascii_take {s : Bytes} (h : Ascii s) (n : Nat) : Ascii (s.take n) :=
  fun x hx => h x (List.mem_of_mem_take hx)
theorem ascii_drop {s : Bytes} (h : Ascii s) (n : Nat) : Ascii (s.drop n) :=
  fun x hx => h x (List.mem_of_mem_drop hx)

theorem enc_ascii (b : UInt8) (h : b.toNat < 128) :
    String.utf8EncodeChar (Char.ofNat b.toNat) = [b] := by
  have h1 : (Char.ofNat b.toNat).val.toNat = b.toNat := by
    have hv : b.toNat.isValidChar := by simp [Nat.isValidChar]; omega
    simp only [Char.ofNat, hv, dif_pos, Char.ofNatAux]
    rfl
  unfold String.utf8EncodeChar
  simp only [h1]
  rw [if_pos (by omega)]
  simp

theorem ascii_utf8 {s : Bytes} (h : Ascii s) : Utf8 s := by
  refine ⟨s.map fun b => Char.ofNat b.toNat, ?_⟩
  induction s with
  | nil => rfl
  | cons b s ih =>
    rw [ascii_cons] at h
    rw [List.map_cons, List.flatMap_cons, enc_ascii b h.1, ← ih h.2]; rfl

theorem ascii_boundary {s : Bytes} (h : Ascii s) {n : Nat} (hn : n ≤ s.length) : isCharBoundary s n = true :=
  (boundary_iff (ascii_utf8 h)).2 ⟨hn, ascii_utf8 (ascii_take h n)⟩

theorem not_cont_of_ascii {b : UInt8} (h : b.toNat < 128) : isCont b = false := by
  simp [isCont]; omega

theorem utf8_ne_ff {s : Bytes} (h : Utf8 s) : (255 : UInt8) ∉ s := by
  obtain ⟨cs, rfl⟩ := h
  intro hm
  obtain ⟨c, _, hc⟩ := List.mem_flatMap.mp hm
  obtain ⟨b0, tl, h1, _, h3, _, h5⟩ := enc_shape c
  rw [h1, List.mem_cons] at hc
  rcases hc with rfl | hc
  · simp at h5
  · simpa [isCont] using h3 _ hc

theorem enc_inj {c d : Char} (h : String.utf8EncodeChar c = String.utf8EncodeChar d) : c = d := by
  have hc : c.val.toNat < 0x110000 := by
    rcases c.valid with h | h
    · have : c.val.toNat < 0xd800 := h
      omega
    · exact h.2
  have hd : d.val.toNat < 0x110000 := by
    rcases d.valid with h | h
    · have : d.val.toNat < 0xd800 := h
      omega
    · exact h.2
  have : c.val.toNat = d.val.toNat := by
    revert h hc hd
    unfold String.utf8EncodeChar
    simp only
    generalize c.val.toNat = v
    generalize d.val.toNat = w
    intro h hc hd
    split at h <;> split at h <;> (try split at h) <;> (try split at h) <;> (try split at h) <;> (try split at h) <;>
      simp [← UInt8.toNat_inj, UInt8.toNat_ofNat'] at h <;> omega
  exact Char.ext (UInt32.toNat_inj.mp this)

end Verif
