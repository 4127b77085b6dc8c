import Verif.Model.Grammar
import Verif.Spec.Grammar
import Verif.Spec.Expected
import Verif.Proofs.Utf8
/-! Positions in the input and lemmas on the templates of the generated parser. -/
namespace Verif
open Spec

/-- At position `p` (a character boundary) the remaining input is `rest`. -/
def At (inp : Bytes) (p : Nat) (rest : Bytes) : Prop := ∃ pre, inp = pre ++ rest ∧ p = pre.length ∧ Utf8 pre ∧ Utf8 rest

theorem At.start {inp : Bytes} (h : Utf8 inp) : At inp 0 inp := ⟨[], rfl, rfl, utf8_nil, h⟩

theorem At.step {inp w rest : Bytes} {p : Nat} (h : At inp p (w ++ rest)) (hw : Utf8 w) : At inp (p + w.length) rest := by
  obtain ⟨pre, rfl, rfl, h1, h2⟩ := h
  exact ⟨pre ++ w, by simp, by simp, utf8_append h1 hw, utf8_cancel hw h2⟩

theorem At.utf8 {inp rest : Bytes} {p : Nat} (h : At inp p rest) : Utf8 rest := by
  obtain ⟨pre, rfl, rfl, h1, h2⟩ := h; exact h2

theorem At.length {inp rest : Bytes} {p : Nat} (h : At inp p rest) : inp.length = p + rest.length := by
  obtain ⟨pre, rfl, rfl, h1, h2⟩ := h; simp

theorem At.drop {inp rest : Bytes} {p : Nat} (h : At inp p rest) : inp.drop p = rest := by
  obtain ⟨pre, rfl, rfl, h1, h2⟩ := h; simp

theorem At.take {inp rest : Bytes} {p : Nat} (h : At inp p rest) : inp = inp.take p ++ rest := by
  obtain ⟨pre, rfl, rfl, h1, h2⟩ := h; simp

theorem At.take_step {inp w rest : Bytes} {p : Nat} (h : At inp p (w ++ rest)) : inp.take (p + w.length) = inp.take p ++ w := by
  obtain ⟨pre, rfl, rfl, h1, h2⟩ := h
  rw [List.take_append_of_le_length (Nat.le_refl _), List.take_length, ← List.append_assoc, ← List.length_append, List.take_left']
  rfl

theorem At.boundary {inp rest : Bytes} {p : Nat} (h : At inp p rest) : isCharBoundary inp p = true := by
  obtain ⟨pre, rfl, rfl, h1, h2⟩ := h
  exact isCharBoundary_append_right h2

theorem At.slice {inp w rest : Bytes} {p : Nat} (h : At inp p (w ++ rest)) (hw : Utf8 w) : slice inp p (p + w.length) = .ok w := by
  have h1 := h.boundary
  have h2 := (h.step hw).boundary
  have h3 := h.take_step
  obtain ⟨pre, rfl, rfl, _, _⟩ := h
  simp only [Verif.slice, h1, h2]
  rw [if_pos ⟨by omega, by simp, by simp⟩, h3]
  simp

/-! ### Single characters -/

theorem utf8_first {s : Bytes} (h : Utf8 s) : s = [] ∨ ∃ b tl r, s = (b :: tl) ++ r ∧ Utf8 (b :: tl) ∧ Utf8 r ∧ charLen b = (b :: tl).length ∧
    (∀ x ∈ tl, 128 ≤ x.toNat) ∧ (b.toNat < 128 → tl = []) := by
  obtain h | ⟨c, s', h, h'⟩ := utf8_cases h
  · exact .inl h
  · obtain ⟨b, tl, h1, h2, h3, h4, _⟩ := enc_shape c
    refine .inr ⟨b, tl, s', by rw [h, h1], by rw [← h1]; exact utf8_char c, h', ?_, ?_, ?_⟩
    · simp only [charLen, List.length_cons, h4, contLen]
      repeat' split
      all_goals omega
    · intro x hx
      have := h3 x hx
      simp [isCont] at this
      omega
    · intro hb
      simp [contLen, hb] at h4
      exact List.eq_nil_of_length_eq_zero (by simpa using h4)

theorem charRangeAt_run {inp tl r : Bytes} {b : UInt8} {p : Nat} (h : At inp p ((b :: tl) ++ r)) : charRangeAt inp p = .ok (b, p + charLen b) := by
  rw [charRangeAt, sliceFrom_ok h.boundary, h.drop]
  rfl

theorem anyChar_run {inp tl r : Bytes} {b : UInt8} {p : Nat} (h : At inp p ((b :: tl) ++ r)) (hl : charLen b = (b :: tl).length) (st : PState) :
    anyChar inp st p = .ok (some (p + (b :: tl).length, ()), st) := by
  have := h.length
  rw [anyChar, if_pos (by simp at this; omega), charRangeAt_run h, hl]

theorem anyChar_end {inp : Bytes} {p : Nat} (h : At inp p []) (st : PState) :
    anyChar inp st p = .ok (none, st.markFailure p b!"<character>") := by
  have := h.length
  rw [anyChar, if_neg (by simp at this; omega)]

/-- The class only contains ASCII characters. -/
def AsciiClass (cls : UInt8 → Bool) : Prop := ∀ b, cls b = true → b.toNat < 128

theorem charClass_yes {inp r : Bytes} {b : UInt8} {p : Nat} (h : At inp p (b :: r)) {cls : UInt8 → Bool} (hb : cls b = true) (ha : AsciiClass cls)
    (name : Bytes) (st : PState) : charClass cls name inp st p = .ok (some (p + 1, ()), st) := by
  have := h.length
  rw [charClass, if_pos (by simp at this; omega), charRangeAt_run (tl := []) h]
  simp [hb, charLen, ha b hb]

theorem charClass_no {inp rest : Bytes} {p : Nat} (h : At inp p rest) {cls : UInt8 → Bool} (hn : ∀ b t, rest = b :: t → cls b = false)
    (name : Bytes) (st : PState) : charClass cls name inp st p = .ok (none, st.markFailure p name) := by
  have hl := h.length
  rw [charClass]
  cases rest with
  | nil => rw [if_neg (by simp at hl; omega)]
  | cons b t =>
    rw [if_pos (by simp at hl; omega), charRangeAt_run (tl := []) h]
    simp [hn b t rfl]

theorem sliceEq_yes {inp m r : Bytes} {p : Nat} (h : At inp p (m ++ r)) (st : PState) : sliceEq m inp st p = .ok (some (p + m.length, ()), st) := by
  have hl := h.length
  rw [sliceEq, if_pos ⟨by simp at hl; omega, by rw [h.drop]; simp⟩]

theorem sliceEq_no {inp m rest : Bytes} {p : Nat} (h : At inp p rest) (hn : ¬ m <+: rest) (st : PState) :
    sliceEq m inp st p = .ok (none, st.markFailure p m) := by
  rw [sliceEq, if_neg]
  rintro ⟨_, h2⟩
  rw [h.drop] at h2
  exact hn (by rw [← h2]; exact List.take_prefix _ _)

/-! ### Failure positions -/

theorem mark_cases (st : PState) (p : Nat) (m : Bytes) :
    ((st.markFailure p m).maxErrPos = p ∨ (st.markFailure p m).maxErrPos = st.maxErrPos) ∧
    st.maxErrPos ≤ (st.markFailure p m).maxErrPos ∧ p ≤ (st.markFailure p m).maxErrPos := by
  simp only [PState.markFailure]
  (repeat' split) <;> simp <;> (try simp at *) <;> omega

/-- `V` holds of the error position and every entry of the `expected` set. -/
def OK (V : Nat → Bytes → Prop) (st : PState) : Prop := ∀ m ∈ st.expected, V st.maxErrPos m

theorem mark_V {V : Nat → Bytes → Prop} {st : PState} (h : OK V st) {p : Nat} {m : Bytes} (hp : V p m) : OK V (st.markFailure p m) := by
  unfold PState.markFailure
  by_cases hg : p > st.maxErrPos
  · simp only [if_pos hg]
    intro x hx
    simp at hx
    subst hx; simpa using hp
  · simp only [if_neg hg]
    by_cases he : p = st.maxErrPos
    · subst he
      simp only [if_true]
      split
      · exact h
      · intro x hx
        simp at hx
        rcases hx with hx | rfl
        · exact h x hx
        · exact hp
    · rw [if_neg he]; exact h

theorem mark_le (st : PState) (p : Nat) (m : Bytes) : st.maxErrPos ≤ (st.markFailure p m).maxErrPos := (mark_cases st p m).2.1

/-! ### Running a rule in an arbitrary way -/

/-- Whatever the outcome of the rule at `p` (remaining input `rest`) is, failures are recorded at positions and with entries satisfying `V`, a match is described
by `L`, `N` holds if there is no match, and if it panics it is an `unwrap` and `O` holds. -/
def Sat {α : Type} (V : Nat → Bytes → Prop) (r : Rule α) (inp : Bytes) (p : Nat) (rest : Bytes) (L : Bytes → α → Bytes → Prop) (N O : Prop) : Prop :=
  ∀ st : PState, OK V st →
    match r inp st p with
    | .ok (some (q, v), st') => OK V st' ∧ st.maxErrPos ≤ st'.maxErrPos ∧
        ∃ w rest', rest = w ++ rest' ∧ q = p + w.length ∧ Utf8 w ∧ L w v rest'
    | .ok (none, st') => OK V st' ∧ st.maxErrPos ≤ st'.maxErrPos ∧ N
    | .error e => e = .unwrap ∧ O

variable {α β : Type} {V : Nat → Bytes → Prop} {inp rest : Bytes} {p : Nat}

theorem Sat.mono {r : Rule α} {L L' : Bytes → α → Bytes → Prop} {N N' O O' : Prop} (h : Sat V r inp p rest L N O)
    (hL : ∀ w v rest', rest = w ++ rest' → Utf8 w → L w v rest' → L' w v rest') (hN : N → N') (hO : O → O') : Sat V r inp p rest L' N' O' := by
  intro st hst
  have := h st hst
  split at this
  · obtain ⟨h1, h2, w, r', h3, h4, h5, h6⟩ := this
    exact ⟨h1, h2, w, r', h3, h4, h5, hL w _ r' h3 h5 h6⟩
  · exact ⟨this.1, this.2.1, hN this.2.2⟩
  · exact ⟨this.1, hO this.2⟩

theorem sliceEq_sat (h : At inp p rest) {m : Bytes} (hm : Ascii m) (hV : ¬ m <+: rest → V p m) :
    Sat V (sliceEq m) inp p rest (fun w _ _ => w = m) (¬ m <+: rest) False := by
  intro st hst
  by_cases hp : m <+: rest
  · obtain ⟨r, rfl⟩ := hp
    rw [sliceEq_yes h]
    exact ⟨hst, Nat.le_refl _, m, r, rfl, rfl, ascii_utf8 hm, rfl⟩
  · rw [sliceEq_no h hp]
    exact ⟨mark_V hst (hV hp), mark_le _ _ _, hp⟩

theorem charClass_sat (h : At inp p rest) {cls : UInt8 → Bool} (ha : AsciiClass cls) {name : Bytes}
    (hV : (∀ b t, rest = b :: t → cls b = false) → V p name) :
    Sat V (charClass cls name) inp p rest (fun w _ _ => ∃ b, w = [b] ∧ cls b = true) (∀ b t, rest = b :: t → cls b = false) False := by
  intro st hst
  cases rest with
  | nil =>
    rw [charClass_no h (by simp)]
    exact ⟨mark_V hst (hV (by simp)), mark_le _ _ _, by simp⟩
  | cons b t =>
    by_cases hb : cls b = true
    · rw [charClass_yes h hb ha]
      refine ⟨hst, Nat.le_refl _, [b], t, rfl, rfl, ascii_utf8 ?_, b, rfl, hb⟩
      intro x hx; simp at hx; subst hx; exact ha _ hb
    · have hb' : ∀ b' t', b :: t = b' :: t' → cls b' = false := by
        rintro _ _ ⟨rfl, rfl⟩; simpa using hb
      rw [charClass_no h hb']
      exact ⟨mark_V hst (hV hb'), mark_le _ _ _, hb'⟩

theorem anyChar_sat (h : At inp p rest) (hV : rest = [] → V p b!"<character>") :
    Sat V anyChar inp p rest (fun w _ _ => ∃ b tl, w = b :: tl ∧ (∀ x ∈ tl, 128 ≤ x.toNat) ∧ (b.toNat < 128 → tl = [])) (rest = []) False := by
  intro st hst
  rcases utf8_first h.utf8 with rfl | ⟨b, tl, r, rfl, h1, h2, h3, h4, h5⟩
  · rw [anyChar_end h]
    exact ⟨mark_V hst (hV rfl), mark_le _ _ _, rfl⟩
  · rw [anyChar_run h h3]
    exact ⟨hst, Nat.le_refl _, b :: tl, r, rfl, rfl, h1, b, tl, rfl, h4, h5⟩

theorem pure_sat (v : α) {L : Bytes → α → Bytes → Prop} {N O : Prop} (hL : L [] v rest) :
    Sat V (fun _ state pos => .ok (some (pos, v), state)) inp p rest L N O := by
  intro st hst
  exact ⟨hst, Nat.le_refl _, [], rest, rfl, rfl, utf8_nil, hL⟩

theorem seq_sat {r : Rule α} {k : α → Rule β} (h : At inp p rest) {L1 : Bytes → α → Bytes → Prop} {L : Bytes → β → Bytes → Prop} {N1 N O : Prop}
    (h1 : Sat V r inp p rest L1 N1 O) (hN : N1 → N)
    (h2 : ∀ w v rest', rest = w ++ rest' → Utf8 w → At inp (p + w.length) rest' → L1 w v rest' →
      Sat V (k v) inp (p + w.length) rest' (fun w2 u r => L (w ++ w2) u r) N O) :
    Sat V (r.seq k) inp p rest L N O := by
  intro st hst
  have := h1 st hst
  unfold Rule.seq
  split at this
  · rename_i q v st' heq
    obtain ⟨g1, g2, w, r', g3, g4, g5, g6⟩ := this
    rw [heq]
    simp only
    subst g4 g3
    have h3 := h2 w v r' rfl g5 (h.step g5) g6 st' g1
    split at h3
    · obtain ⟨f1, f2, w2, r2, f3, f4, f5, f6⟩ := h3
      exact ⟨f1, Nat.le_trans g2 f2, w ++ w2, r2, by rw [f3]; simp, by rw [f4]; simp; omega, utf8_append g5 f5, f6⟩
    · exact ⟨h3.1, Nat.le_trans g2 h3.2.1, h3.2.2⟩
    · exact h3
  · rename_i st' heq
    rw [heq]
    exact ⟨this.1, this.2.1, hN this.2.2⟩
  · rename_i e heq
    rw [heq]
    exact this

theorem action_sat {r : Rule α} {f : Bytes → α → M β} (h : At inp p rest) {L1 : Bytes → α → Bytes → Prop} {L : Bytes → β → Bytes → Prop} {N O : Prop}
    (h1 : Sat V r inp p rest L1 N O)
    (h2 : ∀ w v rest', rest = w ++ rest' → Utf8 w → L1 w v rest' →
      match f w v with
      | .ok u => L w u rest'
      | .error e => e = .unwrap ∧ O) :
    Sat V (r.action f) inp p rest L N O := by
  intro st hst
  have := h1 st hst
  unfold Rule.action
  split at this
  · rename_i q v st' heq
    obtain ⟨g1, g2, w, r', g3, g4, g5, g6⟩ := this
    rw [heq]
    simp only
    subst g4 g3
    rw [h.slice g5]
    simp only
    have h3 := h2 w v r' rfl g5 g6
    cases hf : f w v with
    | error e => rw [hf] at h3; exact h3
    | ok u => rw [hf] at h3; exact ⟨g1, g2, w, r', rfl, rfl, g5, h3⟩
  · rename_i st' heq
    rw [heq]
    exact this
  · rename_i e heq
    rw [heq]
    exact this

theorem orElse_sat {a b : Rule α} {L : Bytes → α → Bytes → Prop} {N1 N O : Prop} (h1 : Sat V a inp p rest L N1 O)
    (h2 : N1 → Sat V b inp p rest L N O) : Sat V (a.orElse b) inp p rest L N O := by
  intro st hst
  have := h1 st hst
  unfold Rule.orElse
  split at this
  · rename_i q v st' heq
    rw [heq]; exact this
  · rename_i st' heq
    rw [heq]
    simp only
    have h3 := h2 this.2.2 st' this.1
    split at h3
    · exact ⟨h3.1, Nat.le_trans this.2.1 h3.2.1, h3.2.2⟩
    · exact ⟨h3.1, Nat.le_trans this.2.1 h3.2.1, h3.2.2⟩
    · exact h3
  · rename_i e heq
    rw [heq]
    exact this

theorem opt_sat {r : Rule α} {L : Bytes → α → Bytes → Prop} {N O : Prop} (h : Sat V r inp p rest L N O) :
    Sat V r.opt inp p rest (fun w v rest' => (v = none ∧ w = [] ∧ N) ∨ ∃ u, v = some u ∧ L w u rest') False O := by
  intro st hst
  have := h st hst
  unfold Rule.opt
  split at this
  · rename_i q v st' heq
    obtain ⟨g1, g2, w, r', g3, g4, g5, g6⟩ := this
    rw [heq]; exact ⟨g1, g2, w, r', g3, g4, g5, .inr ⟨v, rfl, g6⟩⟩
  · rename_i st' heq
    rw [heq]
    exact ⟨this.1, this.2.1, [], rest, rfl, rfl, utf8_nil, .inl ⟨rfl, rfl, this.2.2⟩⟩
  · rename_i e heq
    rw [heq]
    exact this

theorem notP_sat {r : Rule α} {L : Bytes → α → Bytes → Prop} {N O : Prop} (h : Sat V r inp p rest L N O) :
    Sat V r.notP inp p rest (fun w _ _ => w = [] ∧ N) (∃ w v rest', rest = w ++ rest' ∧ L w v rest') O := by
  intro st hst
  have := h st hst
  unfold Rule.notP
  split at this
  · rename_i q v st' heq
    obtain ⟨g1, g2, w, r', g3, g4, g5, g6⟩ := this
    rw [heq]; exact ⟨g1, g2, w, v, r', g3, g6⟩
  · rename_i st' heq
    rw [heq]
    exact ⟨this.1, this.2.1, [], rest, rfl, rfl, utf8_nil, rfl, this.2.2⟩
  · rename_i e heq
    rw [heq]
    exact this

/-- The loops: `Inv` is the loop invariant on what was consumed, the values and what remains; `Done` what is known when the step failed. -/
theorem loop_sat {step : Rule α} {p0 : Nat} {rest0 : Bytes} {Inv Done : Bytes → List α → Bytes → Prop} {O : Prop}
    (hstep : ∀ w0 vs0 rest, rest0 = w0 ++ rest → Utf8 w0 → At inp (p0 + w0.length) rest → Inv w0 vs0 rest →
      Sat V step inp (p0 + w0.length) rest (fun w v r => w ≠ [] ∧ Inv (w0 ++ w) (vs0 ++ [v]) r) (Done w0 vs0 rest) O) :
    ∀ (n : Nat) (w0 : Bytes) (vs0 : List α) (rest : Bytes), rest.length ≤ n → rest0 = w0 ++ rest → Utf8 w0 → At inp (p0 + w0.length) rest →
      Inv w0 vs0 rest → ∀ st : PState, OK V st →
      match step.loop inp st (p0 + w0.length) with
      | .ok (q, vs, st') => OK V st' ∧ st.maxErrPos ≤ st'.maxErrPos ∧
          ∃ w rest', rest = w ++ rest' ∧ q = p0 + (w0 ++ w).length ∧ Utf8 w ∧ Inv (w0 ++ w) (vs0 ++ vs) rest' ∧ Done (w0 ++ w) (vs0 ++ vs) rest'
      | .error e => e = .unwrap ∧ O := by
  intro n
  induction n with
  | zero =>
    intro w0 vs0 rest hn h0 hu hat hinv st hst
    have hs := hstep w0 vs0 rest h0 hu hat hinv st hst
    rw [Rule.loop]
    split at hs
    · obtain ⟨_, _, w, r', g3, _, _, g6, _⟩ := hs
      exfalso
      have : rest = [] := List.eq_nil_of_length_eq_zero (by omega)
      rw [this] at g3
      simp at g3
      exact g6 g3.1
    · rename_i st' heq
      rw [heq]
      exact ⟨hs.1, hs.2.1, [], rest, rfl, by simp, utf8_nil, by simpa using hinv, by simpa using hs.2.2⟩
    · rename_i e heq
      rw [heq]; exact hs
  | succ n ih =>
    intro w0 vs0 rest hn h0 hu hat hinv st hst
    have hs := hstep w0 vs0 rest h0 hu hat hinv st hst
    rw [Rule.loop]
    split at hs
    · rename_i q v st' heq
      obtain ⟨g1, g2, w, r', g3, g4, g5, g6, g7⟩ := hs
      rw [heq]
      simp only
      subst g3 g4
      have hlen := hat.length
      have hwl : 0 < w.length := List.length_pos_iff.mpr g6
      have hat' := hat.step g5
      rw [if_pos ⟨by omega, by simp at hlen; omega⟩]
      have hih := ih (w0 ++ w) (vs0 ++ [v]) r' (by simp at hn; omega) (by rw [h0]; simp) (utf8_append hu g5)
        (by simpa [Nat.add_assoc] using hat') g7 st' g1
      rw [List.length_append, ← Nat.add_assoc] at hih
      split at hih
      · rename_i q2 vs2 st2 heq2
        obtain ⟨f1, f2, w2, r2, f3, f4, f5, f6, f7⟩ := hih
        rw [heq2]
        exact ⟨f1, Nat.le_trans g2 f2, w ++ w2, r2, by rw [f3]; simp, by rw [f4]; simp, utf8_append g5 f5, by simpa using f6, by simpa using f7⟩
      · rename_i e heq2
        rw [heq2]; exact hih
    · rename_i st' heq
      rw [heq]
      exact ⟨hs.1, hs.2.1, [], rest, rfl, by simp, utf8_nil, by simpa using hinv, by simpa using hs.2.2⟩
    · rename_i e heq
      rw [heq]; exact hs

theorem star_sat {step : Rule α} {Inv Done : Bytes → List α → Bytes → Prop} {N O : Prop} (h : At inp p rest) (h0 : Inv [] [] rest)
    (hstep : ∀ w0 vs0 rest', rest = w0 ++ rest' → Utf8 w0 → At inp (p + w0.length) rest' → Inv w0 vs0 rest' →
      Sat V step inp (p + w0.length) rest' (fun w v r => w ≠ [] ∧ Inv (w0 ++ w) (vs0 ++ [v]) r) (Done w0 vs0 rest') O) :
    Sat V step.star inp p rest (fun w vs r => Inv w vs r ∧ Done w vs r) N O := by
  intro st hst
  have := loop_sat hstep rest.length [] [] rest (Nat.le_refl _) rfl utf8_nil h h0 st hst
  unfold Rule.star
  simp only [List.length_nil, Nat.add_zero, List.nil_append] at this
  split at this
  · rename_i q vs st' heq
    rw [heq]; exact this
  · rename_i e heq
    rw [heq]; exact this

theorem plus_sat {step : Rule α} {Inv Done : Bytes → List α → Bytes → Prop} {O : Prop} (h : At inp p rest) (h0 : Inv [] [] rest)
    (hstep : ∀ w0 vs0 rest', rest = w0 ++ rest' → Utf8 w0 → At inp (p + w0.length) rest' → Inv w0 vs0 rest' →
      Sat V step inp (p + w0.length) rest' (fun w v r => w ≠ [] ∧ Inv (w0 ++ w) (vs0 ++ [v]) r) (Done w0 vs0 rest') O) :
    Sat V step.plus inp p rest (fun w vs r => vs ≠ [] ∧ Inv w vs r ∧ Done w vs r)
      (∃ w r, rest = w ++ r ∧ Inv w [] r ∧ Done w [] r) O := by
  intro st hst
  have := loop_sat hstep rest.length [] [] rest (Nat.le_refl _) rfl utf8_nil h h0 st hst
  unfold Rule.plus
  simp only [List.length_nil, Nat.add_zero, List.nil_append] at this
  split at this
  · rename_i q vs st' heq
    rw [heq]
    simp only
    obtain ⟨f1, f2, w2, r2, f3, f4, f5, f6, f7⟩ := this
    by_cases hvs : vs = []
    · subst hvs
      exact ⟨f1, f2, w2, r2, f3, f6, f7⟩
    · rw [if_pos (show vs.length ≥ 1 from List.length_pos_iff.mpr hvs)]
      exact ⟨f1, f2, w2, r2, f3, f4, f5, hvs, f6, f7⟩
  · rename_i e heq
    rw [heq]; exact this

theorem begins_append {m z z' : Bytes} (h : Begins m z) : Begins m (z ++ z') := by
  cases h with
  | text m t h => rw [List.append_assoc]; exact .text m _ h
  | character c t => exact .character c _
  | nameStart c t h => exact .nameStart c _ h
  | nameChar c t h => exact .nameChar c _ h
  | dash t => exact .dash _
  | digit c t h => exact .digit c _ h

theorem unreliable_append {a x m : Bytes} (h : Unreliable x m) : Unreliable (a ++ x) m := by
  rcases h with h | ⟨h, b, c, rfl, hc⟩ | ⟨h, b, rfl⟩
  · exact .inl h
  · exact .inr (.inl ⟨h, a ++ b, c, by simp, hc⟩)
  · exact .inr (.inr ⟨h, a ++ b, by simp⟩)

/-- `V` holds at every position up to which the remaining input is the beginning of a word of the language, for the entries with which the word
goes on. -/
def VOn (V : Nat → Bytes → Prop) (p : Nat) (rest : Bytes) (Lang : Bytes → Prop) : Prop :=
  ∀ x r m z, rest = x ++ r → Utf8 x → (Begins m z ∨ Unreliable x m) → Lang (x ++ z) → V (p + x.length) m

theorem VOn.here {Lang : Bytes → Prop} {m : Bytes} (h : VOn V p rest Lang) (hz : ∃ z, Begins m z ∧ Lang z) : V p m := by
  obtain ⟨z, hb, hz⟩ := hz
  exact h [] rest m z rfl utf8_nil (.inl hb) hz

/-- the entry is a text -/
theorem VOn.text {Lang : Bytes → Prop} {m : Bytes} (h : VOn V p rest Lang) (hm : m ∈ expectedTexts) (hz : ∃ z, Lang (m ++ z)) : V p m := by
  obtain ⟨z, hz⟩ := hz
  exact h.here ⟨_, .text m z hm, hz⟩

theorem VOn.after {Lang : Bytes → Prop} {w rest' : Bytes} (h : VOn V p (w ++ rest') Lang) (hw : Utf8 w) :
    VOn V (p + w.length) rest' (fun y => Lang (w ++ y)) := by
  intro x r m z hx hu hb hl
  have := h (w ++ x) r m z (by rw [hx]; simp) (utf8_append hw hu) (hb.imp id unreliable_append) (by simpa using hl)
  simpa [Nat.add_assoc] using this

theorem VOn.mono {Lang Lang' : Bytes → Prop} (h : VOn V p rest Lang) (hl : ∀ y, Lang' y → ∃ z, Lang (y ++ z)) : VOn V p rest Lang' := by
  intro x r m z hx hu hb hz
  obtain ⟨z', hz'⟩ := hl _ hz
  exact h x r m (z ++ z') hx hu (hb.imp begins_append id) (by simpa using hz')

end Verif
