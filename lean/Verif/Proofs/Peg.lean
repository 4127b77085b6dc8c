import Verif.Spec.Peg
import Verif.Proofs.GrammarTop
/-! The templates of the generated parser implement parsing expressions. -/
namespace Verif
open Spec

theorem utf8Of_append (a b : List Char) : encode (a ++ b) = encode a ++ encode b := by simp [encode]

theorem utf8Of_cons (c : Char) (b : List Char) : encode (c :: b) = String.utf8EncodeChar c ++ encode b := by simp [encode]

theorem utf8Of_utf8 (a : List Char) : Utf8 (encode a) := ⟨a, rfl⟩

theorem utf8Of_prefix {a b : List Char} : encode a <+: encode b ↔ a <+: b := by
  constructor
  · intro h
    induction a generalizing b with
    | nil => exact List.nil_prefix
    | cons c a ih =>
      cases b with
      | nil =>
        obtain ⟨x, hx⟩ := h
        rw [utf8Of_cons] at hx
        obtain ⟨b0, tl, h1, _⟩ := enc_shape c
        rw [h1] at hx
        simp [encode] at hx
      | cons d b =>
        obtain ⟨x, hx⟩ := h
        rw [utf8Of_cons, utf8Of_cons, List.append_assoc] at hx
        obtain ⟨h1, h2⟩ := enc_prefix hx
        have := enc_inj h1
        subst this
        exact List.cons_prefix_cons.mpr ⟨rfl, ih ⟨x, h2⟩⟩
  · rintro ⟨x, rfl⟩
    exact ⟨encode x, by rw [utf8Of_append]⟩

/-- At position `p` the characters `cs` are left. -/
def AtC (inp : Bytes) (p : Nat) (cs : List Char) : Prop := ∃ pre, inp = encode (pre ++ cs) ∧ p = (encode pre).length

theorem AtC.at {inp : Bytes} {p : Nat} {cs : List Char} (h : AtC inp p cs) : At inp p (encode cs) := by
  obtain ⟨pre, rfl, rfl⟩ := h
  exact ⟨encode pre, by rw [utf8Of_append], rfl, utf8Of_utf8 _, utf8Of_utf8 _⟩

theorem AtC.step {inp : Bytes} {p : Nat} {w cs : List Char} (h : AtC inp p (w ++ cs)) : AtC inp (p + (encode w).length) cs := by
  obtain ⟨pre, rfl, rfl⟩ := h
  exact ⟨pre ++ w, by simp, by rw [utf8Of_append]; simp⟩

/-- Wherever the rule is run, its result is an outcome of the expression. -/
def Impl {α : Type} (r : Rule α) (g : Peg α) : Prop := ∀ inp p cs st, AtC inp p cs →
  match r inp st p with
  | .ok (some (q, v), _) => ∃ w t, cs = w ++ t ∧ q = p + (encode w).length ∧ g cs (.matched v t)
  | .ok (none, _) => g cs .failed
  | .error e => e = .unwrap ∧ g cs .panicked

/-- The expression has at most one outcome. -/
def Det {α : Type} (g : Peg α) : Prop := ∀ cs a b, g cs a → g cs b → a = b

/-- A match consumes something. -/
def Progress {α : Type} (g : Peg α) : Prop := ∀ cs v t, g cs (.matched v t) → t.length < cs.length

/-- A match leaves an end of the text. -/
def Shrinks {α : Type} (g : Peg α) : Prop := ∀ cs v t, g cs (.matched v t) → t.length ≤ cs.length

variable {α β : Type}

/-! ### At most one outcome -/

theorem det_text (s : List Char) : Det (Peg.text s) := by
  intro cs a b ha hb
  cases ha with
  | yes t =>
    generalize hx : s ++ t = x at hb
    cases hb with
    | yes t' => rw [List.append_cancel_left hx]
    | no cs h => exact absurd ⟨t, hx⟩ h
  | no cs h =>
    cases hb with
    | yes t => exact absurd ⟨t, rfl⟩ h
    | no => rfl

theorem det_oneOf (rs : List (Char × Char)) : Det (Peg.oneOf rs) := by
  intro cs a b ha hb
  cases ha with
  | yes c t r h1 h2 h3 =>
    cases hb with
    | yes => rfl
    | no c t h => exact absurd ⟨h2, h3⟩ (h r h1)
  | no c t h =>
    cases hb with
    | yes c t r h1 h2 h3 => exact absurd ⟨h2, h3⟩ (h r h1)
    | no => rfl
  | atEnd => cases hb; rfl

theorem det_any : Det Peg.any := by
  intro cs a b ha hb
  cases ha <;> cases hb <;> rfl

theorem det_done (v : α) : Det (Peg.done v) := by
  intro cs a b ha hb
  cases ha; cases hb; rfl

theorem det_seq {g : Peg α} {k : α → Peg β} (h1 : Det g) (h2 : ∀ x, Det (k x)) : Det (Peg.seq g k) := by
  intro cs a b ha hb
  cases ha with
  | both x cs t o ha1 ha2 =>
    cases hb with
    | both x' cs t' o' hb1 hb2 =>
      have := h1 _ _ _ ha1 hb1
      injection this with e1 e2
      subst e1 e2
      exact h2 _ _ _ _ ha2 hb2
    | failed _ hb1 => exact absurd (h1 _ _ _ ha1 hb1) (by simp)
    | panicked _ hb1 => exact absurd (h1 _ _ _ ha1 hb1) (by simp)
  | failed _ ha1 =>
    cases hb with
    | both x' cs t' o' hb1 hb2 => exact absurd (h1 _ _ _ ha1 hb1) (by simp)
    | failed _ hb1 => rfl
    | panicked _ hb1 => exact absurd (h1 _ _ _ ha1 hb1) (by simp)
  | panicked _ ha1 =>
    cases hb with
    | both x' cs t' o' hb1 hb2 => exact absurd (h1 _ _ _ ha1 hb1) (by simp)
    | failed _ hb1 => exact absurd (h1 _ _ _ ha1 hb1) (by simp)
    | panicked _ hb1 => rfl

theorem det_alt {g k : Peg α} (h1 : Det g) (h2 : Det k) : Det (Peg.alt g k) := by
  intro cs a b ha hb
  cases ha with
  | first _ _ ha1 ha2 =>
    cases hb with
    | first _ _ hb1 hb2 => exact h1 _ _ _ ha1 hb1
    | second _ _ hb1 hb2 => exact absurd (h1 _ _ _ ha1 hb1) ha2
  | second _ _ ha1 ha2 =>
    cases hb with
    | first _ _ hb1 hb2 => exact absurd (h1 _ _ _ hb1 ha1) hb2
    | second _ _ hb1 hb2 => exact h2 _ _ _ ha2 hb2

theorem det_opt {g : Peg α} (h : Det g) : Det (Peg.opt g) := by
  intro cs a b ha hb
  cases ha with
  | present x _ t h1 =>
    cases hb with
    | present x' _ t' h2 => have := h _ _ _ h1 h2; injection this with e1 e2; subst e1 e2; rfl
    | absent _ h2 => exact absurd (h _ _ _ h1 h2) (by simp)
    | panicked _ h2 => exact absurd (h _ _ _ h1 h2) (by simp)
  | absent _ h1 =>
    cases hb with
    | present x' _ t' h2 => exact absurd (h _ _ _ h1 h2) (by simp)
    | absent _ h2 => rfl
    | panicked _ h2 => exact absurd (h _ _ _ h1 h2) (by simp)
  | panicked _ h1 =>
    cases hb with
    | present x' _ t' h2 => exact absurd (h _ _ _ h1 h2) (by simp)
    | absent _ h2 => exact absurd (h _ _ _ h1 h2) (by simp)
    | panicked _ h2 => rfl

theorem det_not {g : Peg α} (h : Det g) : Det (Peg.not g) := by
  intro cs a b ha hb
  cases ha with
  | present x _ t h1 =>
    cases hb with
    | present x' _ t' h2 => rfl
    | absent _ h2 => exact absurd (h _ _ _ h1 h2) (by simp)
    | panicked _ h2 => exact absurd (h _ _ _ h1 h2) (by simp)
  | absent _ h1 =>
    cases hb with
    | present x' _ t' h2 => exact absurd (h _ _ _ h1 h2) (by simp)
    | absent _ h2 => rfl
    | panicked _ h2 => exact absurd (h _ _ _ h1 h2) (by simp)
  | panicked _ h1 =>
    cases hb with
    | present x' _ t' h2 => exact absurd (h _ _ _ h1 h2) (by simp)
    | absent _ h2 => exact absurd (h _ _ _ h1 h2) (by simp)
    | panicked _ h2 => rfl

theorem det_star {g : Peg α} (h : Det g) : Det (Peg.star g) := by
  intro cs a b ha
  induction ha generalizing b with
  | stop _ h1 =>
    intro hb
    cases hb with
    | stop _ h2 => rfl
    | more x xs _ t u h2 h3 => exact absurd (h _ _ _ h1 h2) (by simp)
    | panicked _ h2 => exact absurd (h _ _ _ h1 h2) (by simp)
    | morePanicked x _ t h2 h3 => exact absurd (h _ _ _ h1 h2) (by simp)
  | more x xs _ t u h1 _ ih =>
    intro hb
    cases hb with
    | stop _ h2 => exact absurd (h _ _ _ h1 h2) (by simp)
    | more x' xs' _ t' u' h2 h3 =>
      have := h _ _ _ h1 h2; injection this with e1 e2; subst e1 e2
      have := ih _ h3; injection this with e1 e2; subst e1 e2
      rfl
    | panicked _ h2 => exact absurd (h _ _ _ h1 h2) (by simp)
    | morePanicked x' _ t' h2 h3 =>
      have := h _ _ _ h1 h2; injection this with e1 e2; subst e1 e2
      exact absurd (ih _ h3) (by simp)
  | panicked _ h1 =>
    intro hb
    cases hb with
    | stop _ h2 => exact absurd (h _ _ _ h1 h2) (by simp)
    | more x xs _ t u h2 h3 => exact absurd (h _ _ _ h1 h2) (by simp)
    | panicked _ h2 => rfl
    | morePanicked x _ t h2 h3 => rfl
  | morePanicked x _ t h1 _ ih =>
    intro hb
    cases hb with
    | stop _ h2 => exact absurd (h _ _ _ h1 h2) (by simp)
    | more x' xs' _ t' u' h2 h3 =>
      have := h _ _ _ h1 h2; injection this with e1 e2; subst e1 e2
      exact absurd (ih _ h3) (by simp)
    | panicked _ h2 => rfl
    | morePanicked x' _ t' h2 h3 => rfl

theorem det_plus {g : Peg α} (h : Det g) : Det (Peg.plus g) := det_seq h fun _ => det_seq (det_star h) fun _ => det_done _

theorem det_sepBy {g : Peg α} {s : Peg β} (h : Det g) (hs : Det s) : Det (Peg.sepBy g s) :=
  det_seq (det_opt (det_seq h fun _ => det_seq (det_star (det_seq hs fun _ => h)) fun _ => det_done _)) fun _ => det_done _

/-- An outcome of an action, without the index of the text. -/
theorem act_cases {g : Peg α} {f : Bytes → α → Option β} {cs : List Char} {o : Outcome β} (h : Peg.act g f cs o) :
    (∃ x y m t, cs = m ++ t ∧ g cs (.matched x t) ∧ f (encode m) x = some y ∧ o = .matched y t) ∨
    (∃ x m t, cs = m ++ t ∧ g cs (.matched x t) ∧ f (encode m) x = none ∧ o = .panicked) ∨
    (g cs .failed ∧ o = .failed) ∨ (g cs .panicked ∧ o = .panicked) := by
  cases h with
  | matched x y m t h1 h2 => exact .inl ⟨x, y, m, t, rfl, h1, h2, rfl⟩
  | bad x m t h1 h2 => exact .inr (.inl ⟨x, m, t, rfl, h1, h2, rfl⟩)
  | failed _ h => exact .inr (.inr (.inl ⟨h, rfl⟩))
  | panicked _ h => exact .inr (.inr (.inr ⟨h, rfl⟩))

theorem det_act {g : Peg α} (f : Bytes → α → Option β) (h : Det g) : Det (Peg.act g f) := by
  intro cs a b ha hb
  rcases act_cases ha with ⟨x, y, m, t, e1, e2, e3, e4⟩ | ⟨x, m, t, e1, e2, e3, e4⟩ | ⟨e2, e4⟩ | ⟨e2, e4⟩ <;>
    rcases act_cases hb with ⟨x', y', m', t', f1, f2, f3, f4⟩ | ⟨x', m', t', f1, f2, f3, f4⟩ | ⟨f2, f4⟩ | ⟨f2, f4⟩ <;>
    rw [e4, f4] <;> have hx := h _ _ _ e2 f2 <;> simp at hx
  · obtain ⟨rfl, rfl⟩ := hx
    rw [e1] at f1
    rw [List.append_cancel_right f1] at e3
    rw [e3] at f3
    simp at f3
    rw [f3]
  · obtain ⟨rfl, rfl⟩ := hx
    rw [e1] at f1
    rw [List.append_cancel_right f1] at e3
    rw [e3] at f3
    simp at f3
  · obtain ⟨rfl, rfl⟩ := hx
    rw [e1] at f1
    rw [List.append_cancel_right f1] at e3
    rw [e3] at f3
    simp at f3

/-! ### Progress -/

theorem shrinks_text (s : List Char) : Shrinks (Peg.text s) := by
  intro cs v t h; cases h; simp

theorem progress_text {s : List Char} (hs : s ≠ []) : Progress (Peg.text s) := by
  intro cs v t h
  cases h
  have := List.length_pos_iff.mpr hs
  simp; omega

theorem progress_oneOf (rs : List (Char × Char)) : Progress (Peg.oneOf rs) := by
  intro cs v t h; cases h; simp

theorem progress_any : Progress Peg.any := by
  intro cs v t h; cases h; simp

theorem Progress.shrinks {g : Peg α} (h : Progress g) : Shrinks g := fun cs v t h' => Nat.le_of_lt (h cs v t h')

theorem shrinks_done (v : α) : Shrinks (Peg.done v) := by
  intro cs v t h; cases h; exact Nat.le_refl _

theorem shrinks_seq {g : Peg α} {k : α → Peg β} (h1 : Shrinks g) (h2 : ∀ x, Shrinks (k x)) : Shrinks (Peg.seq g k) := by
  intro cs v t h
  cases h with
  | both x _ t' _ ha hb => exact Nat.le_trans (h2 _ _ _ _ hb) (h1 _ _ _ ha)

theorem progress_seq_left {g : Peg α} {k : α → Peg β} (h1 : Progress g) (h2 : ∀ x, Shrinks (k x)) : Progress (Peg.seq g k) := by
  intro cs v t h
  cases h with
  | both x _ t' _ ha hb => exact Nat.lt_of_le_of_lt (h2 _ _ _ _ hb) (h1 _ _ _ ha)

theorem progress_seq_right {g : Peg α} {k : α → Peg β} (h1 : Shrinks g) (h2 : ∀ x, Progress (k x)) : Progress (Peg.seq g k) := by
  intro cs v t h
  cases h with
  | both x _ t' _ ha hb => exact Nat.lt_of_lt_of_le (h2 _ _ _ _ hb) (h1 _ _ _ ha)

theorem shrinks_not (g : Peg α) : Shrinks (Peg.not g) := by
  intro cs v t h; cases h; exact Nat.le_refl _

theorem shrinks_opt {g : Peg α} (hg : Shrinks g) : Shrinks (Peg.opt g) := by
  intro cs v t h
  cases h with
  | present x _ _ h => exact hg _ _ _ h
  | absent _ h => exact Nat.le_refl _

theorem progress_alt {g k : Peg α} (h1 : Progress g) (h2 : Progress k) : Progress (Peg.alt g k) := by
  intro cs v t h
  cases h with
  | first _ _ h _ => exact h1 _ _ _ h
  | second _ _ _ h => exact h2 _ _ _ h

theorem shrinks_star {g : Peg α} (hg : Shrinks g) : Shrinks (Peg.star g) := by
  have : ∀ cs o, Peg.star g cs o → ∀ v t, o = .matched v t → t.length ≤ cs.length := by
    intro cs o h
    induction h with
    | stop _ h => intro v t e; injection e with e1 e2; subst e2; exact Nat.le_refl _
    | more x xs _ t u h1 _ ih =>
      intro v t' e
      injection e with e1 e2
      subst e2
      exact Nat.le_trans (ih _ _ rfl) (hg _ _ _ h1)
    | panicked => intro v t e; simp at e
    | morePanicked => intro v t e; simp at e
  exact fun cs v t h => this cs _ h v t rfl

theorem progress_plus {g : Peg α} (hg : Progress g) : Progress (Peg.plus g) :=
  progress_seq_left hg fun _ => shrinks_seq (shrinks_star hg.shrinks) fun _ => shrinks_done _

theorem shrinks_sepBy {g : Peg α} {s : Peg β} (h : Shrinks g) (hs : Shrinks s) : Shrinks (Peg.sepBy g s) :=
  shrinks_seq (shrinks_opt (shrinks_seq h fun _ => shrinks_seq (shrinks_star (shrinks_seq hs fun _ => h)) fun _ => shrinks_done _))
    fun _ => shrinks_done _

theorem progress_act {g : Peg α} (f : Bytes → α → Option β) (hg : Progress g) : Progress (Peg.act g f) := by
  intro cs v t h
  rcases act_cases h with ⟨x, y, m, t', e1, e2, e3, e4⟩ | ⟨x, m, t', e1, e2, e3, e4⟩ | ⟨e2, e4⟩ | ⟨e2, e4⟩
  · injection e4 with e5 e6
    subst e6
    exact hg _ _ _ e2
  all_goals simp at e4

theorem shrinks_act {g : Peg α} (f : Bytes → α → Option β) (hg : Shrinks g) : Shrinks (Peg.act g f) := by
  intro cs v t h
  rcases act_cases h with ⟨x, y, m, t', e1, e2, e3, e4⟩ | ⟨x, m, t', e1, e2, e3, e4⟩ | ⟨e2, e4⟩ | ⟨e2, e4⟩
  · injection e4 with e5 e6
    subst e6
    exact hg _ _ _ e2
  all_goals simp at e4

/-! ### The templates -/

theorem impl_text {m : Bytes} (s : List Char) (hm : encode s = m) : Impl (sliceEq m) (Peg.text s) := by
  subst hm
  intro inp p cs st h
  by_cases hp : s <+: cs
  · obtain ⟨t, rfl⟩ := hp
    have := h.at
    rw [utf8Of_append] at this
    rw [sliceEq_yes this]
    exact ⟨s, t, rfl, rfl, .yes t⟩
  · rw [sliceEq_no h.at (fun hx => hp (utf8Of_prefix.mp hx))]
    exact .no _ hp

theorem impl_any : Impl anyChar Peg.any := by
  intro inp p cs st h
  have h1 := h.at
  cases cs with
  | nil => rw [anyChar_end h1]; exact .no
  | cons c t =>
    rw [utf8Of_cons] at h1
    obtain ⟨b, tl, e1, _, _, e4, _⟩ := enc_shape c
    rw [e1] at h1
    rw [anyChar_run h1 (by simp only [charLen, List.length_cons, e4, contLen]; (repeat' split) <;> omega)]
    exact ⟨[c], t, rfl, by rw [utf8Of_cons, e1]; simp [encode], .yes c t⟩

/-- The class on first bytes is the class on characters. -/
def SameClass (cls : UInt8 → Bool) (rs : List (Char × Char)) : Prop :=
  (∀ b, cls b = true → b.toNat < 128) ∧ ∀ c : Char, (∃ r ∈ rs, r.1 ≤ c ∧ c ≤ r.2) ↔ c.toNat < 128 ∧ cls c.toNat.toUInt8 = true

theorem enc_first_ascii {c : Char} {b : UInt8} {tl : Bytes} (h : String.utf8EncodeChar c = b :: tl) (hb : b.toNat < 128) :
    tl = [] ∧ c.toNat < 128 ∧ c.toNat.toUInt8 = b := by
  obtain ⟨b', tl', e1, _, _, e4, _⟩ := enc_shape c
  rw [h] at e1
  injection e1 with e1 e2
  subst e1 e2
  have : tl = [] := List.eq_nil_of_length_eq_zero (by rw [e4]; simp [contLen, hb])
  subst this
  have h2 := enc_ascii b hb
  have h3 := enc_inj (h.trans h2.symm)
  subst h3
  have hv : b.toNat.isValidChar := by simp [Nat.isValidChar]; omega
  have : (Char.ofNat b.toNat).toNat = b.toNat := by
    simp [Char.ofNat, hv, Char.toNat, Char.ofNatAux]
  rw [this]
  exact ⟨rfl, hb, by simp⟩

theorem enc_of_ascii {c : Char} (h : c.toNat < 128) : String.utf8EncodeChar c = [c.toNat.toUInt8] := by
  have h1 : c.toNat.toUInt8.toNat = c.toNat := by simp; omega
  have := enc_ascii c.toNat.toUInt8 (by omega)
  rw [h1] at this
  rwa [Char.ofNat_toNat] at this

theorem impl_oneOf {cls : UInt8 → Bool} {rs : List (Char × Char)} (h : SameClass cls rs) (name : Bytes) :
    Impl (charClass cls name) (Peg.oneOf rs) := by
  intro inp p cs st hat
  have h1 := hat.at
  cases cs with
  | nil => rw [charClass_no h1 (by simp [encode])]; exact .atEnd
  | cons c t =>
    by_cases hc : ∃ r ∈ rs, r.1 ≤ c ∧ c ≤ r.2
    · obtain ⟨h2, h3⟩ := (h.2 c).mp hc
      rw [utf8Of_cons, enc_of_ascii h2] at h1
      rw [charClass_yes h1 h3 h.1]
      obtain ⟨r, hr, h4, h5⟩ := hc
      exact ⟨[c], t, rfl, by rw [utf8Of_cons, enc_of_ascii h2]; simp [encode], .yes c t r hr h4 h5⟩
    · rw [charClass_no h1]
      · exact .no c t fun r hr hx => hc ⟨r, hr, hx⟩
      · intro b t' e
        rw [utf8Of_cons] at e
        obtain ⟨b', tl, e1, _⟩ := enc_shape c
        rw [e1] at e
        injection e with e2 e3
        subst e2
        by_cases hb : cls b' = true
        · have hb' := h.1 _ hb
          obtain ⟨_, g2, g3⟩ := enc_first_ascii e1 hb'
          exact absurd ((h.2 c).mpr ⟨g2, by rw [g3]; exact hb⟩) hc
        · simpa using hb

theorem impl_done (v : α) : Impl (fun _ state pos => .ok (some (pos, v), state)) (Peg.done v) := by
  intro inp p cs st h
  exact ⟨[], cs, rfl, by simp [encode], .mk cs⟩

theorem impl_seq {r : Rule α} {k : α → Rule β} {g : Peg α} {l : α → Peg β} (h1 : Impl r g) (h2 : ∀ x, Impl (k x) (l x)) :
    Impl (r.seq k) (Peg.seq g l) := by
  intro inp p cs st h
  have a := h1 inp p cs st h
  unfold Rule.seq
  split at a
  · rename_i q v st' heq
    obtain ⟨w, t, rfl, rfl, a1⟩ := a
    simp only [heq]
    have b := h2 v inp _ t st' h.step
    split at b
    · rename_i heq2
      obtain ⟨w2, t2, rfl, rfl, b1⟩ := b
      exact ⟨w ++ w2, t2, by simp, by rw [utf8Of_append]; simp; omega, .both v _ _ _ a1 b1⟩
    · exact .both v _ _ _ a1 b
    · exact ⟨b.1, .both v _ _ _ a1 b.2⟩
  · rename_i heq
    simp only [heq]
    exact .failed _ a
  · rename_i heq
    simp only [heq]
    exact ⟨a.1, .panicked _ a.2⟩

theorem impl_action {r : Rule α} {f : Bytes → α → M β} {g : Peg α} {f' : Bytes → α → Option β} (h1 : Impl r g)
    (hf : ∀ m x, match f m x with | .ok y => f' m x = some y | .error e => e = .unwrap ∧ f' m x = none) :
    Impl (r.action f) (Peg.act g f') := by
  intro inp p cs st h
  have a := h1 inp p cs st h
  unfold Rule.action
  split at a
  · rename_i q v st' heq
    obtain ⟨w, t, rfl, rfl, a1⟩ := a
    have h3 := h.at
    rw [utf8Of_append] at h3
    simp only [heq, h3.slice (utf8Of_utf8 w)]
    have h4 := hf (encode w) v
    cases hx : f (encode w) v with
    | ok y => rw [hx] at h4; exact ⟨w, t, rfl, rfl, .matched v y w t a1 h4⟩
    | error e => rw [hx] at h4; exact ⟨h4.1, .bad v w t a1 h4.2⟩
  · rename_i heq
    simp only [heq]
    exact .failed _ a
  · rename_i heq
    simp only [heq]
    exact ⟨a.1, .panicked _ a.2⟩

theorem impl_alt {r k : Rule α} {g l : Peg α} (h1 : Impl r g) (h2 : Impl k l) : Impl (r.orElse k) (Peg.alt g l) := by
  intro inp p cs st h
  have a := h1 inp p cs st h
  unfold Rule.orElse
  split at a
  · rename_i heq
    obtain ⟨w, t, e1, e2, a1⟩ := a
    simp only [heq]
    exact ⟨w, t, e1, e2, .first _ _ a1 (by simp)⟩
  · rename_i st' heq
    simp only [heq]
    have b := h2 inp p cs st' h
    split at b
    · obtain ⟨w, t, e1, e2, a1⟩ := b
      exact ⟨w, t, e1, e2, .second _ _ a a1⟩
    · exact .second _ _ a b
    · exact ⟨b.1, .second _ _ a b.2⟩
  · rename_i heq
    simp only [heq]
    exact ⟨a.1, .first _ _ a.2 (by simp)⟩

theorem impl_opt {r : Rule α} {g : Peg α} (h1 : Impl r g) : Impl r.opt (Peg.opt g) := by
  intro inp p cs st h
  have a := h1 inp p cs st h
  unfold Rule.opt
  split at a
  · rename_i heq
    obtain ⟨w, t, e1, e2, a1⟩ := a
    simp only [heq]
    exact ⟨w, t, e1, e2, .present _ _ _ a1⟩
  · rename_i st' heq
    simp only [heq]
    exact ⟨[], cs, rfl, by simp [encode], .absent _ a⟩
  · rename_i heq
    simp only [heq]
    exact ⟨a.1, .panicked _ a.2⟩

theorem impl_not {r : Rule α} {g : Peg α} (h1 : Impl r g) : Impl r.notP (Peg.not g) := by
  intro inp p cs st h
  have a := h1 inp p cs st h
  unfold Rule.notP
  split at a
  · rename_i heq
    obtain ⟨w, t, e1, e2, a1⟩ := a
    simp only [heq]
    exact .present _ _ _ a1
  · rename_i st' heq
    simp only [heq]
    exact ⟨[], cs, rfl, by simp [encode], .absent _ a⟩
  · rename_i heq
    simp only [heq]
    exact ⟨a.1, .panicked _ a.2⟩

theorem utf8Of_length_pos {w : List Char} (h : w ≠ []) : 0 < (encode w).length := by
  cases w with
  | nil => exact absurd rfl h
  | cons c w =>
    rw [utf8Of_cons]
    have := List.length_pos_iff.mpr (enc_ne_nil c)
    rw [List.length_append]; omega

theorem impl_loop {r : Rule α} {g : Peg α} (h1 : Impl r g) (hp : Progress g) (n : Nat) : ∀ inp p cs st, cs.length < n → AtC inp p cs →
    match r.loop inp st p with
    | .ok (q, vs, _) => ∃ w t, cs = w ++ t ∧ q = p + (encode w).length ∧ Peg.star g cs (.matched vs t)
    | .error e => e = .unwrap ∧ Peg.star g cs .panicked := by
  induction n with
  | zero => intro _ _ _ _ h; omega
  | succ n ih =>
    intro inp p cs st hn h
    have a := h1 inp p cs st h
    rw [Rule.loop]
    split at a
    · rename_i q v st' heq
      obtain ⟨w, t, rfl, rfl, a1⟩ := a
      simp only [heq]
      have h3 := hp _ _ _ a1
      have hw : w ≠ [] := by rintro rfl; simp at h3
      have h4 := utf8Of_length_pos hw
      have h5 := h.at.length
      rw [utf8Of_append] at h5
      rw [if_pos ⟨by omega, by simp at h5; omega⟩]
      have b := ih inp _ t st' (by omega) h.step
      split at b
      · rename_i heq2
        obtain ⟨w2, t2, rfl, rfl, b1⟩ := b
        simp only [heq2]
        exact ⟨w ++ w2, t2, by simp, by rw [utf8Of_append]; simp; omega, .more v _ _ _ _ a1 b1⟩
      · rename_i heq2
        simp only [heq2]
        exact ⟨b.1, .morePanicked v _ _ a1 b.2⟩
    · rename_i heq
      simp only [heq]
      exact ⟨[], cs, rfl, by simp [encode], .stop _ a⟩
    · rename_i heq
      simp only [heq]
      exact ⟨a.1, .panicked _ a.2⟩

theorem impl_star {r : Rule α} {g : Peg α} (h1 : Impl r g) (hp : Progress g) : Impl r.star (Peg.star g) := by
  intro inp p cs st h
  have a := impl_loop h1 hp (cs.length + 1) inp p cs st (by omega) h
  unfold Rule.star
  split at a
  · rename_i heq; simp only [heq]; exact a
  · rename_i heq; simp only [heq]; exact a

theorem impl_plus {r : Rule α} {g : Peg α} (h1 : Impl r g) (hp : Progress g) : Impl r.plus (Peg.plus g) := by
  intro inp p cs st h
  have a := impl_loop h1 hp (cs.length + 1) inp p cs st (by omega) h
  unfold Rule.plus
  split at a
  · rename_i q vs st' heq
    obtain ⟨w, t, e1, e2, a1⟩ := a
    simp only [heq]
    cases a1 with
    | stop _ h => simp only [List.length_nil]; exact .failed _ h
    | more x xs _ t' _ h3 h4 =>
      rw [if_pos (by simp)]
      exact ⟨w, t, e1, e2, .both x _ _ _ h3 (.both xs _ _ _ h4 (.mk _))⟩
  · rename_i heq
    simp only [heq]
    refine ⟨a.1, ?_⟩
    cases a.2 with
    | panicked _ h => exact .panicked _ h
    | morePanicked x _ t h3 h4 => exact .both x _ _ _ h3 (.panicked _ h4)

theorem impl_sepBy {r : Rule α} {s : Rule β} {g : Peg α} {l : Peg β} (h1 : Impl r g) (h2 : Impl s l) (hp : Progress (Peg.seq l fun _ => g)) :
    Impl (r.sepBy s) (Peg.sepBy g l) := by
  intro inp p cs st h
  have a := h1 inp p cs st h
  unfold Rule.sepBy
  split at a
  · rename_i q v st' heq
    obtain ⟨w, t, rfl, rfl, a1⟩ := a
    simp only [heq]
    have b := impl_loop (impl_seq h2 fun _ => h1) hp (t.length + 1) inp _ t st' (by omega) h.step
    split at b
    · rename_i heq2
      obtain ⟨w2, t2, rfl, rfl, b1⟩ := b
      simp only [heq2]
      exact ⟨w ++ w2, t2, by simp, by rw [utf8Of_append]; simp; omega,
        .both _ _ _ _ (.present _ _ _ (.both _ _ _ _ a1 (.both _ _ _ _ b1 (.mk _)))) (.mk _)⟩
    · rename_i heq2
      simp only [heq2]
      exact ⟨b.1, .panicked _ (.panicked _ (.both _ _ _ _ a1 (.panicked _ b.2)))⟩
  · rename_i heq
    simp only [heq]
    exact ⟨[], cs, rfl, by simp [encode], .both _ _ _ _ (.absent _ (.failed _ a)) (.mk _)⟩
  · rename_i heq
    simp only [heq]
    exact ⟨a.1, .panicked _ (.panicked _ (.panicked _ a.2))⟩

/-! ### The generated functions -/

theorem char_le (a c : Char) : a ≤ c ↔ a.toNat ≤ c.toNat := Iff.rfl

theorem toUInt8_eq {n : Nat} (h : n < 128) (b : UInt8) : n.toUInt8 = b ↔ n = b.toNat := by
  have h1 : n.toUInt8.toNat = n := by simp; omega
  constructor
  · rintro rfl; exact h1.symm
  · intro e; apply UInt8.toNat_inj.mp; omega

theorem same_digit : SameClass isDigit [('0', '9')] := by
  refine ⟨fun b h => by simp [isDigit] at h; omega, fun c => ?_⟩
  simp [isDigit, char_le]
  omega

theorem same_start : SameClass isIdentStart [('a', 'z'), ('A', 'Z'), ('_', '_'), ('.', '.')] := by
  refine ⟨fun b h => ?_, fun c => ?_⟩
  · simp [isIdentStart] at h
    rcases h with ((h | h) | rfl) | rfl
    · omega
    · omega
    · decide
    · decide
  · by_cases hc : c.toNat < 128
    · simp [isIdentStart, char_le, toUInt8_eq hc]
      omega
    · simp [char_le, hc]
      omega

theorem same_dash : SameClass (· = 45) [('-', '-')] := by
  refine ⟨fun b h => by simp at h; subst h; decide, fun c => ?_⟩
  by_cases hc : c.toNat < 128
  · simp [char_le, toUInt8_eq hc]
    omega
  · simp [char_le, hc]
    omega

theorem same_char : SameClass isIdentChar [('a', 'z'), ('-', '-'), ('A', 'Z'), ('0', '9'), ('_', '_'), ('.', '.')] := by
  refine ⟨fun b h => ?_, fun c => ?_⟩
  · simp only [isIdentChar, Bool.or_eq_true, decide_eq_true_eq] at h
    rcases h with (h | rfl) | h
    · exact same_start.1 b h
    · decide
    · exact same_digit.1 b h
  · by_cases hc : c.toNat < 128
    · simp [isIdentChar, isDigit, isIdentStart, char_le, toUInt8_eq hc]
      omega
    · simp [char_le, hc]
      omega

/-- What the generated function and the grammar rule have in common. -/
structure GoodRule (r : Rule α) (g : Peg α) : Prop where
  impl : Impl r g
  det : Det g
  progress : Progress g

theorem good_action {r : Rule α} {f : Bytes → α → M β} {g : Peg α} {f' : Bytes → α → β} (h : GoodRule r g) (hf : ∀ m x, f m x = .ok (f' m x)) :
    GoodRule (r.action f) (Peg.act g fun m x => some (f' m x)) :=
  ⟨impl_action h.impl fun m x => by rw [hf], det_act _ h.det, progress_act _ h.progress⟩

theorem good_text {m : Bytes} (s : List Char) (hm : encode s = m) (hs : s ≠ []) : GoodRule (sliceEq m) (Peg.text s) :=
  ⟨impl_text s hm, det_text s, progress_text hs⟩

theorem good_keyword {m : Bytes} (s : List Char) (hm : encode s = m) (hs : s ≠ []) :
    GoodRule ((sliceEq m).action fun matchStr _ => .ok matchStr) ((Peg.text s).act fun matchStr _ => some matchStr) :=
  good_action (good_text s hm hs) fun _ _ => rfl

/-- A sequence whose first part consumes something. -/
theorem good_seq {r : Rule α} {k : α → Rule β} {g : Peg α} {l : α → Peg β} (h : GoodRule r g) (h1 : ∀ x, Impl (k x) (l x)) (h2 : ∀ x, Det (l x))
    (h3 : ∀ x, Shrinks (l x)) : GoodRule (r.seq k) (Peg.seq g l) :=
  ⟨impl_seq h.impl h1, det_seq h.det h2, progress_seq_left h.progress h3⟩

/-- What the rest of a sequence needs. -/
structure FairRule (r : Rule α) (g : Peg α) : Prop where
  impl : Impl r g
  det : Det g
  shrinks : Shrinks g

theorem GoodRule.fair {r : Rule α} {g : Peg α} (h : GoodRule r g) : FairRule r g := ⟨h.impl, h.det, h.progress.shrinks⟩

theorem good_then {r : Rule α} {k : α → Rule β} {g : Peg α} {l : α → Peg β} (h : GoodRule r g) (h1 : ∀ x, FairRule (k x) (l x)) :
    GoodRule (r.seq k) (Peg.seq g l) := good_seq h (fun x => (h1 x).impl) (fun x => (h1 x).det) fun x => (h1 x).shrinks

theorem fair_then {r : Rule α} {k : α → Rule β} {g : Peg α} {l : α → Peg β} (h : FairRule r g) (h1 : ∀ x, FairRule (k x) (l x)) :
    FairRule (r.seq k) (Peg.seq g l) := ⟨impl_seq h.impl fun x => (h1 x).impl, det_seq h.det fun x => (h1 x).det, shrinks_seq h.shrinks fun x => (h1 x).shrinks⟩

theorem fair_done (v : α) : FairRule (fun _ state pos => .ok (some (pos, v), state)) (Peg.done v) := ⟨impl_done v, det_done v, shrinks_done v⟩

theorem fair_opt {r : Rule α} {g : Peg α} (h : GoodRule r g) : FairRule r.opt (Peg.opt g) :=
  ⟨impl_opt h.impl, det_opt h.det, shrinks_opt h.progress.shrinks⟩

theorem fair_not {r : Rule α} {g : Peg α} (h : GoodRule r g) : FairRule r.notP (Peg.not g) := ⟨impl_not h.impl, det_not h.det, shrinks_not g⟩

theorem fair_star {r : Rule α} {g : Peg α} (h : GoodRule r g) : FairRule r.star (Peg.star g) :=
  ⟨impl_star h.impl h.progress, det_star h.det, shrinks_star h.progress.shrinks⟩

theorem good_plus {r : Rule α} {g : Peg α} (h : GoodRule r g) : GoodRule r.plus (Peg.plus g) :=
  ⟨impl_plus h.impl h.progress, det_plus h.det, progress_plus h.progress⟩

theorem good_alt {r k : Rule α} {g l : Peg α} (h : GoodRule r g) (h' : GoodRule k l) : GoodRule (r.orElse k) (Peg.alt g l) :=
  ⟨impl_alt h.impl h'.impl, det_alt h.det h'.det, progress_alt h.progress h'.progress⟩

theorem fair_sepBy {r : Rule α} {s : Rule β} {g : Peg α} {l : Peg β} (h : GoodRule r g) (h' : GoodRule s l) : FairRule (r.sepBy s) (Peg.sepBy g l) :=
  ⟨impl_sepBy h.impl h'.impl (progress_seq_left h'.progress fun _ => h.progress.shrinks), det_sepBy h.det h'.det,
    shrinks_sepBy h.progress.shrinks h'.progress.shrinks⟩

theorem good_oneOf {cls : UInt8 → Bool} {rs : List (Char × Char)} (h : SameClass cls rs) (name : Bytes) : GoodRule (charClass cls name) (Peg.oneOf rs) :=
  ⟨impl_oneOf h name, det_oneOf rs, progress_oneOf rs⟩

theorem good_any : GoodRule anyChar Peg.any := ⟨impl_any, det_any, progress_any⟩

theorem good_not_any {r : Rule α} {g : Peg α} (h : GoodRule r g) : GoodRule (r.notP.seq fun _ => anyChar) (Peg.seq (Peg.not g) fun _ => Peg.any) :=
  ⟨impl_seq (impl_not h.impl) fun _ => impl_any, det_seq (det_not h.det) fun _ => det_any, progress_seq_right (shrinks_not g) fun _ => progress_any⟩

open RustPeg

theorem good_int : GoodRule parseInt RustPeg.int := by
  have h := good_plus (good_oneOf same_digit b!"[0-9]")
  exact ⟨impl_action h.impl fun m x => by unfold unwrap; cases usizeFromStr m <;> simp, det_act _ h.det, progress_act _ h.progress⟩

theorem good_comma : GoodRule parseComma comma := good_then (good_text _ (by decide) (by simp)) fun _ => fair_star (good_text _ (by decide) (by simp))

theorem good_quoted : GoodRule parseQuoted all_chars_until_quotation_mark :=
  good_action (good_plus (good_not_any (good_text _ (by decide) (by simp)))) fun _ _ => rfl

theorem good_begin : GoodRule parseParserBegin PARSER_BEGIN := good_text _ (by decide) (by simp)
theorem good_end : GoodRule parseParserEnd PARSER_END := good_text _ (by decide) (by simp)
theorem good_pbegin : GoodRule parseParamsBegin PARSER_PARAMS_BEGIN := good_text _ (by decide) (by simp)
theorem good_pend : GoodRule parseParamsEnd PARSER_PARAMS_END := good_text _ (by decide) (by simp)

theorem good_literal : GoodRule parseLiteral literal := good_action (good_plus (good_not_any good_begin)) fun _ _ => rfl

theorem good_string : GoodRule parseString RustPeg.string :=
  good_action (good_then (good_text _ (by decide) (by simp)) fun _ => (good_then good_quoted fun s =>
    (good_then (good_text _ (by decide) (by simp)) fun _ => fair_done s).fair).fair) fun _ _ => rfl

theorem good_identifier : GoodRule parseIdentifier identifier :=
  good_action (good_then (good_oneOf same_start _) fun _ => fair_star
    (good_then (good_oneOf same_char _) fun _ => fair_not (good_oneOf same_dash _))) fun _ _ => rfl

theorem good_name : GoodRule parseParserName parser_name :=
  good_action (good_then (good_text _ (by decide) (by simp)) fun _ => good_identifier.fair) fun _ _ => rfl

theorem good_min : GoodRule parseMinLen MIN_LEN := good_keyword _ (by decide) (by simp)
theorem good_max : GoodRule parseMaxLen MAX_LEN := good_keyword _ (by decide) (by simp)
theorem good_INT : GoodRule parseINT INT := good_keyword _ (by decide) (by simp)
theorem good_SET : GoodRule parseSET SET := good_keyword _ (by decide) (by simp)
theorem good_GREEDY : GoodRule parseGREEDY GREEDY := good_keyword _ (by decide) (by simp)

theorem good_param : GoodRule parseBaseOptionalParam parser_BASE_optional_param :=
  good_alt
    (good_action (good_then good_min fun _ => (good_then (good_text _ (by decide) (by simp)) fun _ =>
      (good_then good_int fun _ => fair_done _).fair).fair) fun _ _ => rfl)
    (good_action (good_then good_max fun _ => (good_then (good_text _ (by decide) (by simp)) fun _ =>
      (good_then good_int fun _ => fair_done _).fair).fair) fun _ _ => rfl)

theorem good_intParams : GoodRule parseIntOptionalParams parser_INT_optional_params :=
  good_action (good_then good_pbegin fun _ => fair_then (fair_sepBy good_param good_comma) fun _ => (good_then good_pend fun _ => fair_done _).fair)
    fun _ _ => rfl

theorem good_setParams : GoodRule parseSetOptionalParams parser_SET_optional_params :=
  good_action (good_then good_comma fun _ => fair_sepBy good_param good_comma) fun _ _ => rfl

theorem good_parserInt : GoodRule parseParserInt parser_INT :=
  good_action (good_then good_INT fun _ => fair_then (fair_opt good_intParams) fun _ => fair_then (fair_opt good_name) fun _ => fair_done _)
    fun _ _ => rfl

theorem good_parserSet : GoodRule parseParserSet parser_SET :=
  good_action (good_then good_SET fun _ => (good_then good_pbegin fun _ => (good_then good_string fun _ => fair_then (fair_opt good_setParams)
    fun _ => (good_then good_pend fun _ => fair_then (fair_opt good_name) fun _ => fair_done _).fair).fair).fair) fun _ _ => rfl

theorem good_parser : GoodRule parseParser RustPeg.parser := good_alt good_parserSet good_parserInt

theorem good_pieceParser : GoodRule parsePieceParser piece_parser :=
  good_action (good_then good_begin fun _ => (good_then good_parser fun _ => (good_then good_end fun _ => fair_done _).fair).fair) fun _ _ => rfl

theorem good_pieceLiteral : GoodRule parsePieceLiteral piece_literal := good_action good_literal fun _ _ => rfl

theorem good_greedy : GoodRule parseParserGreedy parser_GREEDY :=
  good_action (good_then good_begin fun _ => (good_then good_GREEDY fun _ => fair_then (fair_opt good_name) fun _ =>
    (good_then good_end fun _ => fair_then (fair_opt good_literal) fun _ => fair_done _).fair).fair)
    fun _ p => by cases h : p.2 <;> simp [greedyTokens, h]

theorem good_piece : GoodRule parsePatternPiece pattern_piece := good_alt good_greedy (good_alt good_pieceLiteral good_pieceParser)

theorem good_pattern : GoodRule parsePattern pattern := good_action (good_plus good_piece) fun _ _ => by rw [flattenVec_eq]

end Verif
