import Verif.Proofs.GrammarRun
import Verif.Spec.Render
import Verif.Proofs.Parsers
/-! The round trip, shapes of compiled patterns, escapes and positions. -/
namespace Verif
open Spec

/-! ### Escapes -/

/-- the text contains no `\%\{` -/
def NoEsc (w : Bytes) : Prop := ¬ b!"\\%\\{" <:+: w

theorem noEsc_tail {c : UInt8} {w : Bytes} (h : NoEsc (c :: w)) : NoEsc w := fun ⟨s, t, e⟩ => h ⟨c :: s, t, by rw [← e]; rfl⟩
theorem noBegin_tail {c : UInt8} {w : Bytes} (h : NoBegin (c :: w)) : NoBegin w := fun ⟨s, t, e⟩ => h ⟨c :: s, t, by rw [← e]; rfl⟩

theorem noEsc_head {s : Bytes} (h : NoEsc (92 :: 37 :: 92 :: 123 :: s)) : False := h ⟨[], s, rfl⟩
theorem noBegin_head {s : Bytes} (h : NoBegin (37 :: 123 :: s)) : False := h ⟨[], s, rfl⟩

theorem unescape_step {c : UInt8} {s : Bytes} (h : ∀ t, ¬ (c = 92 ∧ s = 37 :: 92 :: 123 :: t)) : unescape (c :: s) = c :: unescape s := by
  rw [unescape]
  rintro t rfl rfl
  exact h t ⟨rfl, rfl⟩

theorem escape_step {c : UInt8} {s : Bytes} (h : ∀ t, ¬ (c = 37 ∧ s = 123 :: t)) : escape (c :: s) = c :: escape s := by
  rw [escape]
  rintro t rfl rfl
  exact h t ⟨rfl, rfl⟩

/-- escaping keeps a first byte other than `%` -/
theorem escape_head {s t : Bytes} {c : UInt8} (h : escape s = c :: t) : (∃ u, s = c :: u ∧ (c ≠ 37 → t = escape u)) ∨ (∃ u, c = 92 ∧ s = 37 :: 123 :: u) := by
  match s with
  | [] => simp [escape] at h
  | 37 :: 123 :: s => simp [escape] at h; exact .inr ⟨s, h.1.symm, rfl⟩
  | d :: s =>
    by_cases hd : ∃ t, d = 37 ∧ s = 123 :: t
    · obtain ⟨t', rfl, rfl⟩ := hd
      simp [escape] at h; exact .inr ⟨t', h.1.symm, rfl⟩
    · rw [escape_step (fun t e => hd ⟨t, e⟩)] at h
      simp at h
      exact .inl ⟨s, by rw [h.1], fun _ => h.2.symm⟩

theorem escape_no_begin (s : Bytes) : NoBegin (escape s) := by
  have key : ∀ (s : Bytes) t, escape s ≠ 123 :: t ∨ ∃ u, s = 123 :: u := by
    intro s t
    by_cases h : escape s = 123 :: t
    · rcases escape_head h with ⟨u, rfl, _⟩ | ⟨u, hc, _⟩
      · exact .inr ⟨u, rfl⟩
      · simp at hc
    · exact .inl h
  have cons : ∀ (c : UInt8) (w : Bytes), NoBegin w → (c = 37 → ∀ t, w ≠ 123 :: t) → NoBegin (c :: w) := by
    rintro c w hw hc ⟨s, t, e⟩
    cases s with
    | nil => simp at e; exact hc e.1.symm t e.2.symm
    | cons x s => simp at e; exact hw ⟨s, t, by simpa using e.2⟩
  induction s using escape.induct with
  | case1 s ih =>
    rw [escape]
    refine cons _ _ (cons _ _ (cons _ _ (cons _ _ ih ?_) ?_) ?_) ?_ <;> simp
  | case2 c s hn ih =>
    rw [escape]
    · refine cons _ _ ih ?_
      rintro rfl t ht
      rcases key s t with h | ⟨u, rfl⟩
      · exact h ht
      · exact hn u rfl rfl
    · exact hn
  | case3 => rw [escape]; unfold NoBegin; decide

/-- escaped text does not start with the end of an escape sequence unless the text itself does -/
theorem escape_esc {s t : Bytes} {c : UInt8} (h : escape (c :: s) = 92 :: 37 :: 92 :: 123 :: t) (hn : NoEsc (c :: s)) :
    ∃ u, c = 37 ∧ s = 123 :: u := by
  rcases escape_head h with ⟨u, e, h1⟩ | ⟨u, _, e⟩
  · exfalso
    simp at e
    obtain ⟨rfl, rfl⟩ := e
    have h2 := (h1 (by decide)).symm
    rcases escape_head h2 with ⟨v, rfl, _⟩ | ⟨v, hc, _⟩
    · by_cases hv : ∃ w, v = 123 :: w
      · obtain ⟨w, rfl⟩ := hv
        simp [escape] at h2
      · rw [escape_step (by simpa using hv)] at h2
        simp at h2
        rcases escape_head h2 with ⟨w, rfl, h3⟩ | ⟨w, _, rfl⟩
        · have h4 := (h3 (by decide)).symm
          rcases escape_head h4 with ⟨x, rfl, _⟩ | ⟨x, hc, _⟩
          · exact noEsc_head hn
          · simp at hc
        · simp [escape] at h2
    · simp at hc
  · simp at e
    exact ⟨u, e.1, e.2⟩

theorem unescape_escape {s : Bytes} (h : NoEsc s) : unescape (escape s) = s := by
  induction s using escape.induct with
  | case1 s ih =>
    rw [escape, unescape, ih (noEsc_tail (noEsc_tail h))]
  | case2 c s hn ih =>
    have hs : ∀ t, ¬ (c = 37 ∧ s = 123 :: t) := fun t e => hn t e.1 e.2
    rw [escape_step hs, unescape_step, ih (noEsc_tail h)]
    rintro t ⟨rfl, ht⟩
    have h1 : escape (92 :: s) = 92 :: 37 :: 92 :: 123 :: t := by rw [escape_step hs, ht]
    obtain ⟨u, hc, _⟩ := escape_esc h1 h
    simp at hc
  | case3 => rfl

theorem unescape_ne {s : Bytes} (h : s ≠ []) : unescape s ≠ [] := by
  induction s using unescape.induct with
  | case1 s ih => simp [unescape]
  | case2 c s hn ih => rw [unescape]; simp; exact hn
  | case3 => exact absurd rfl h

theorem escape_ne {s : Bytes} (h : s ≠ []) : escape s ≠ [] := by
  induction s using escape.induct with
  | case1 s ih => simp [escape]
  | case2 c s hn ih => rw [escape]; simp; exact hn
  | case3 => exact absurd rfl h

/-- the first byte of unescaped text -/
theorem unescape_head {s t : Bytes} {c : UInt8} (h : unescape s = c :: t) :
    (∃ u, s = c :: u ∧ t = unescape u ∧ ∀ v, ¬ (c = 92 ∧ u = 37 :: 92 :: 123 :: v)) ∨ (∃ u, c = 37 ∧ s = 92 :: 37 :: 92 :: 123 :: u ∧ t = 123 :: unescape u) := by
  match s with
  | [] => simp [unescape] at h
  | d :: s =>
    by_cases hd : ∃ t, d = 92 ∧ s = 37 :: 92 :: 123 :: t
    · obtain ⟨u, rfl, rfl⟩ := hd
      simp [unescape] at h
      exact .inr ⟨u, h.1.symm, rfl, h.2.symm⟩
    · have hd' : ∀ t, ¬ (d = 92 ∧ s = 37 :: 92 :: 123 :: t) := fun t e => hd ⟨t, e⟩
      rw [unescape_step hd'] at h
      simp at h
      obtain ⟨rfl, rfl⟩ := h
      exact .inl ⟨s, rfl, rfl, hd'⟩

theorem unescape_noEsc (s : Bytes) : NoEsc (unescape s) := by
  have cons : ∀ (c : UInt8) (w : Bytes), NoEsc w → (∀ t, ¬ (c = 92 ∧ w = 37 :: 92 :: 123 :: t)) → NoEsc (c :: w) := by
    rintro c w hw hc ⟨s, t, e⟩
    cases s with
    | nil => simp at e; exact hc t ⟨e.1.symm, e.2.symm⟩
    | cons x s => simp at e; exact hw ⟨s, t, by simpa using e.2⟩
  induction s using unescape.induct with
  | case1 s ih =>
    rw [unescape]
    exact cons _ _ (cons _ _ ih (by simp)) (by simp)
  | case2 c s hn ih =>
    have hs : ∀ t, ¬ (c = 92 ∧ s = 37 :: 92 :: 123 :: t) := fun t e => hn t e.1 e.2
    rw [unescape_step hs]
    refine cons _ _ ih ?_
    rintro t ⟨rfl, ht⟩
    rcases unescape_head ht with ⟨u, rfl, h1, _⟩ | ⟨u, _, _, h1⟩
    · rcases unescape_head h1.symm with ⟨v, rfl, h2, _⟩ | ⟨v, hc, _⟩
      · rcases unescape_head h2.symm with ⟨w, rfl, _⟩ | ⟨w, hc, _⟩
        · exact hs w ⟨rfl, rfl⟩
        · simp at hc
      · simp at hc
    · simp at h1
  | case3 => rw [unescape]; unfold NoEsc; decide

theorem utf8_ascii_cons {c : UInt8} {s : Bytes} (hc : c.toNat < 128) (h : Utf8 s) : Utf8 (c :: s) :=
  utf8_append (ascii_utf8 (ascii_cons.mpr ⟨hc, ascii_nil⟩)) h

theorem utf8_ascii_tail {c : UInt8} {s : Bytes} (hc : c.toNat < 128) (h : Utf8 (c :: s)) : Utf8 s :=
  utf8_cancel (a := [c]) (ascii_utf8 (ascii_cons.mpr ⟨hc, ascii_nil⟩)) h

theorem unescape_high {tl s : Bytes} (h : ∀ x ∈ tl, 128 ≤ x.toNat) : unescape (tl ++ s) = tl ++ unescape s := by
  induction tl with
  | nil => rfl
  | cons c tl ih =>
    rw [List.cons_append, unescape_step, ih (fun x hx => h x (by simp [hx]))]
    · rfl
    · rintro t ⟨rfl, _⟩
      have := h 92 (by simp)
      revert this; decide

theorem escape_high {tl s : Bytes} (h : ∀ x ∈ tl, 128 ≤ x.toNat) : escape (tl ++ s) = tl ++ escape s := by
  induction tl with
  | nil => rfl
  | cons c tl ih =>
    rw [List.cons_append, escape_step, ih (fun x hx => h x (by simp [hx]))]
    · rfl
    · rintro t ⟨rfl, _⟩
      have := h 37 (by simp)
      revert this; decide

theorem unescape_utf8 : ∀ (n : Nat) {s : Bytes}, s.length ≤ n → Utf8 s → Utf8 (unescape s) := by
  intro n
  induction n with
  | zero =>
    intro s hs _
    have : s = [] := List.eq_nil_of_length_eq_zero (by omega)
    subst this; exact utf8_nil
  | succ n ih =>
    intro s hs hu
    rcases utf8_first hu with rfl | ⟨b, tl, r, rfl, h1, h2, h3, h4, h5⟩
    · exact utf8_nil
    · by_cases he : ∃ t, b = 92 ∧ tl ++ r = 37 :: 92 :: 123 :: t
      · obtain ⟨t, rfl, e⟩ := he
        rw [List.cons_append, e] at hu hs ⊢
        rw [unescape]
        have ht := utf8_ascii_tail (by decide) (utf8_ascii_tail (by decide) (utf8_ascii_tail (by decide) (utf8_ascii_tail (by decide) hu)))
        exact utf8_ascii_cons (by decide) (utf8_ascii_cons (by decide) (ih (by simp at hs; omega) ht))
      · rw [List.cons_append, unescape_step (fun t e => he ⟨t, e⟩), unescape_high h4]
        have := utf8_append h1 (ih (by simp at hs; omega) h2)
        simpa using this

theorem escape_utf8 : ∀ (n : Nat) {s : Bytes}, s.length ≤ n → Utf8 s → Utf8 (escape s) := by
  intro n
  induction n with
  | zero =>
    intro s hs _
    have : s = [] := List.eq_nil_of_length_eq_zero (by omega)
    subst this; exact utf8_nil
  | succ n ih =>
    intro s hs hu
    rcases utf8_first hu with rfl | ⟨b, tl, r, rfl, h1, h2, h3, h4, h5⟩
    · exact utf8_nil
    · by_cases he : ∃ t, b = 37 ∧ tl ++ r = 123 :: t
      · obtain ⟨t, rfl, e⟩ := he
        rw [List.cons_append, e] at hu hs ⊢
        rw [escape]
        have ht := utf8_ascii_tail (by decide) (utf8_ascii_tail (by decide) hu)
        exact utf8_ascii_cons (by decide) (utf8_ascii_cons (by decide) (utf8_ascii_cons (by decide) (utf8_ascii_cons (by decide)
          (ih (by simp at hs; omega) ht))))
      · rw [List.cons_append, escape_step (fun t e => he ⟨t, e⟩), escape_high h4]
        have := utf8_append h1 (ih (by simp at hs; omega) h2)
        simpa using this

theorem unescape_join {u v : Bytes} (h : NoEsc u) : unescape (u ++ (b!"\\%\\{" ++ v)) = u ++ (b!"%{" ++ unescape v) := by
  induction u with
  | nil => simp [unescape]
  | cons c u ih =>
    rw [List.cons_append, unescape_step, ih (noEsc_tail h)]
    · rfl
    · rintro t ⟨rfl, e⟩
      match u, e with
      | [], e => simp at e
      | [a], e => simp at e
      | [a, b], e => simp at e
      | a :: b :: d :: u, e =>
        simp at e
        obtain ⟨rfl, rfl, rfl, _⟩ := e
        exact noEsc_head h

theorem unescape_none {u : Bytes} (h : NoEsc u) : unescape u = u := by
  induction u with
  | nil => rfl
  | cons c u ih =>
    rw [unescape_step, ih (noEsc_tail h)]
    rintro t ⟨rfl, rfl⟩
    exact noEsc_head h

/-! ### Numbers -/

theorem digit_ofNat {k : Nat} (h : k < 10) : Digit (UInt8.ofNat (48 + k)) ∧ (UInt8.ofNat (48 + k)).toNat - 48 = k := by
  have : (UInt8.ofNat (48 + k)).toNat = 48 + k := by
    rw [UInt8.toNat_ofNat']; omega
  unfold Digit
  rw [this]; omega

theorem decimal_number (n : Nat) : Number (decimal n) n := by
  induction n using Nat.strongRecOn with
  | _ n ih =>
    rw [decimal]
    split
    · rename_i h
      obtain ⟨h1, h2⟩ := digit_ofNat h
      have := Number.one _ h1
      rw [h2] at this; exact this
    · rename_i h
      obtain ⟨h1, h2⟩ := digit_ofNat (Nat.mod_lt n (by omega : 10 > 0))
      have := Number.snoc _ _ _ (ih (n / 10) (by omega)) h1
      rw [h2] at this
      rw [show 10 * (n / 10) + n % 10 = n by omega] at this
      exact this

theorem number_lt {d : Bytes} {n : Nat} (h : Number d n) : n < 10 ^ d.length := by
  induction h with
  | one c hc => unfold Digit at hc; simp; omega
  | snoc d n c _ hc ih =>
    unfold Digit at hc
    simp only [List.length_append, List.length_cons, List.length_nil, Nat.pow_add]
    omega

/-! ### The round trip -/

theorem name_show {n : Option Bytes} (h : GoodName n) : NameText n (showName n) := by
  cases n with
  | none => exact .none
  | some n => exact .some n (h n rfl)

/-- the options in the order they are written -/
def optList (min max : Option Nat) : List LenOpt := (min.map LenOpt.min).toList ++ (max.map LenOpt.max).toList

theorem lastMin_optList (a b : Option Nat) : lastMin (optList a b) = a := by cases a <;> cases b <;> rfl
theorem lastMax_optList (a b : Option Nat) : lastMax (optList a b) = b := by cases a <;> cases b <;> rfl

theorem setOpts_show {a b : Option Nat} (ha : Fits a) (hb : Fits b) : SetOpts (optList a b) (showSetOpts a b) := by
  have omin : ∀ {n}, Fits (some n) → OptText (.min n) (b!"min_len=" ++ decimal n) := fun h => .min _ _ (decimal_number _) (h _ rfl)
  have omax : ∀ {n}, Fits (some n) → OptText (.max n) (b!"max_len=" ++ decimal n) := fun h => .max _ _ (decimal_number _) (h _ rfl)
  cases a with
  | none => cases b with
    | none => exact .absent
    | some m => simpa [showSetOpts, optList] using SetOpts.present _ _ _ comma_nil (OptList.cons _ [] _ [] (omax hb) .nil)
  | some n => cases b with
    | none => simpa [showSetOpts, optList] using SetOpts.present _ _ _ comma_nil (OptList.cons _ [] _ [] (omin ha) .nil)
    | some m =>
      simpa [showSetOpts, optList] using SetOpts.present _ _ _ comma_nil (OptList.cons _ _ _ _ (omin ha) (OptTail.cons _ [] _ _ [] comma_nil (omax hb) .nil))

theorem intOpts_show {a b : Option Nat} (ha : Fits a) (hb : Fits b) : IntOpts (optList a b) (showIntOpts a b) := by
  have omin : ∀ {n}, Fits (some n) → OptText (.min n) (b!"min_len=" ++ decimal n) := fun h => .min _ _ (decimal_number _) (h _ rfl)
  have omax : ∀ {n}, Fits (some n) → OptText (.max n) (b!"max_len=" ++ decimal n) := fun h => .max _ _ (decimal_number _) (h _ rfl)
  cases a with
  | none => cases b with
    | none => exact .absent
    | some m => simpa [showIntOpts, optList] using IntOpts.present _ _ (OptList.cons _ [] _ [] (omax hb) .nil)
  | some n => cases b with
    | none => simpa [showIntOpts, optList] using IntOpts.present _ _ (OptList.cons _ [] _ [] (omin ha) .nil)
    | some m =>
      have hc : Comma b!", " := ⟨1, rfl⟩
      simpa [showIntOpts, optList] using IntOpts.present _ _ (OptList.cons _ _ _ _ (omin ha) (OptTail.cons _ [] _ _ [] hc (omax hb) .nil))

theorem sorted_eq {l l' : Bytes} (h : l.Pairwise fun a b => a.toNat < b.toNat) (h' : l'.Pairwise fun a b => a.toNat < b.toNat)
    (hm : ∀ x, x ∈ l ↔ x ∈ l') : l = l' := by
  induction l generalizing l' with
  | nil =>
    cases l' with
    | nil => rfl
    | cons y t => exact absurd ((hm y).mpr (by simp)) (by simp)
  | cons x t ih =>
    cases l' with
    | nil => exact absurd ((hm x).mp (by simp)) (by simp)
    | cons y u =>
      rw [List.pairwise_cons] at h h'
      have hxy : x = y := by
        have h1 := (hm x).mp (by simp)
        have h2 := (hm y).mpr (by simp)
        simp at h1 h2
        rcases h1 with h1 | h1
        · exact h1
        · rcases h2 with h2 | h2
          · exact h2.symm
          · have := h.1 y h2; have := h'.1 x h1; omega
      subst hxy
      congr 1
      refine ih h.2 h'.2 (fun z => ?_)
      have hz := hm z
      simp at hz
      constructor
      · intro hz1
        rcases hz.mp (.inr hz1) with rfl | h3
        · have := h.1 z hz1; omega
        · exact h3
      · intro hz1
        rcases hz.mpr (.inr hz1) with rfl | h3
        · have := h'.1 z hz1; omega
        · exact h3

theorem parser_show {a : Parser} (h : GoodParser a) :
    ∃ e, ElemText e (showParser a) ∧ e.isLiteral = false ∧ (∀ es, tokens (e :: es) = .parser a :: tokens es) ∧ Utf8 (showParser a) := by
  have hn : ∀ {n}, GoodName n → Utf8 (showName n) := fun h => ascii_utf8 (nameText_utf8 (name_show h))
  cases a with
  | set p =>
    obtain ⟨name, cs, mn, mx⟩ := p
    obtain ⟨h1, h2, h3, h4, h5, h6, h7⟩ := h
    refine ⟨.set cs (optList mn mx) name, .set _ _ _ _ _ h4 h6 (setOpts_show h2 h3) (name_show h1), rfl, fun es => ?_, ?_⟩
    · have : bsetFromIter cs = cs := sorted_eq (bsetFromIter_sorted cs) h5 (fun x => mem_bsetFromIter)
      simp [tokens, setParser, lastMin_optList, lastMax_optList, this]
    · refine utf8_append (utf8_append (utf8_append (utf8_append (utf8_append (utf8_append ?_ ?_) ?_) ?_) ?_) ?_) ?_
      · exact ascii_utf8 (by decide)
      · exact ascii_utf8 h7
      · exact ascii_utf8 (by decide)
      · exact ascii_utf8 (setOpts_ascii (setOpts_show h2 h3))
      · exact ascii_utf8 (by decide)
      · exact hn h1
      · exact ascii_utf8 (by decide)
  | int p =>
    obtain ⟨name, cs, mn, mx⟩ := p
    obtain ⟨h1, h2, h3, h4⟩ := h
    refine ⟨.int (optList mn mx) name, .int _ _ _ _ (intOpts_show h2 h3) (name_show h1), rfl, fun es => ?_, ?_⟩
    · simp only at h4
      simp [tokens, intParser, lastMin_optList, lastMax_optList, h4]
    · refine utf8_append (utf8_append (utf8_append ?_ ?_) ?_) ?_
      · exact ascii_utf8 (by decide)
      · exact ascii_utf8 (intOpts_ascii (intOpts_show h2 h3))
      · exact hn h1
      · exact ascii_utf8 (by decide)
  | greedy p => exact h.elim

theorem greedy_show {n : Option Bytes} (o : Option Bytes) (h : GoodName n) :
    ElemText (.greedy n) (showParser (.greedy { name := n, endString := o })) ∧ Utf8 (showParser (.greedy { name := n, endString := o })) :=
  ⟨.greedy _ _ (name_show h), utf8_append (utf8_append (ascii_utf8 (by decide)) (ascii_utf8 (nameText_utf8 (name_show h)))) (ascii_utf8 (by decide))⟩

theorem showTokens_greedy {g : GreedyParser} {ts : List Token} (h : NoLiteralFirst ts) :
    showTokens (.parser (.greedy g) :: ts) = showParser (.greedy g) ++ showTokens ts := by
  cases ts with
  | nil => simp [showTokens]
  | cons t ts => cases t with
    | literal l => exact absurd rfl (h l ts)
    | parser a => simp [showTokens]

theorem show_written {ts : List Token} (h : WellFormed ts) :
    ∃ es, Written es (showTokens ts) ∧ tokens es = ts ∧ (es = [] ↔ ts = []) ∧ (NoLiteralFirst ts → startsLiteral es = false) ∧ Utf8 (showTokens ts) := by
  induction h with
  | nil => exact ⟨[], .nil, rfl, by simp, fun _ => rfl, utf8_nil⟩
  | greedyEnd n e ts h1 h2 h3 h4 _ h6 ih =>
    obtain ⟨es, i1, i2, i3, i4, i5⟩ := ih
    obtain ⟨g1, g2⟩ := greedy_show (some e) h1
    refine ⟨.greedy n :: .literal e :: es, ?_, by simp [tokens, i2], by simp, fun _ => rfl, ?_⟩
    · rw [showTokens, List.append_assoc]
      exact .cons _ _ _ _ g1 (.cons _ _ _ _ (.literal e h2 h4) i1 (fun _ => i4 h6)) (by simp [Elem.isLiteral])
    · rw [showTokens]
      exact utf8_append (utf8_append g2 h3) i5
  | greedy n ts h1 _ h3 ih =>
    obtain ⟨es, i1, i2, i3, i4, i5⟩ := ih
    obtain ⟨g1, g2⟩ := greedy_show none h1
    rw [showTokens_greedy h3]
    refine ⟨.greedy n :: es, .cons _ _ _ _ g1 i1 (by simp [Elem.isLiteral]), ?_, by simp, fun _ => rfl, utf8_append g2 i5⟩
    have := tokens_append (es := [.greedy n]) (es' := es) (fun _ => i4 h3)
    simpa [tokens, i2] using this
  | parser a ts h1 _ ih =>
    obtain ⟨es, i1, i2, i3, i4, i5⟩ := ih
    obtain ⟨e, g1, g2, g3, g4⟩ := parser_show h1
    have hs : showTokens (.parser a :: ts) = showParser a ++ showTokens ts := by
      cases a with
      | greedy p => exact h1.elim
      | set p => simp [showTokens]
      | int p => simp [showTokens]
    rw [hs]
    exact ⟨e :: es, .cons _ _ _ _ g1 i1 (by simp [g2]), by rw [g3, i2], by simp, fun _ => by simp [startsLiteral, g2], utf8_append g4 i5⟩
  | literal l ts h1 h2 h3 _ h5 ih =>
    obtain ⟨es, i1, i2, i3, i4, i5⟩ := ih
    rw [showTokens]
    refine ⟨.literal (escape l) :: es, .cons _ _ _ _ (.literal _ (escape_ne h1) (escape_no_begin l)) i1 (fun _ => i4 h5), ?_, by simp, ?_,
      utf8_append (escape_utf8 _ (Nat.le_refl _) h2) i5⟩
    · simp [tokens, i2, unescape_escape h3]
    · intro h; exact absurd rfl (h l ts)

/-! ### Compiled patterns can be written down again -/

theorem optTail_fits {os : List LenOpt} {w : Bytes} (h : OptTail os w) : ∀ o ∈ os, (∀ n, o = .min n → n < 2 ^ 64) ∧ (∀ n, o = .max n → n < 2 ^ 64) := by
  induction h with
  | nil => simp
  | cons o os c w t hc hw _ ih =>
    intro x hx
    simp at hx
    rcases hx with rfl | hx
    · cases hw with
      | min d n _ h => exact ⟨by rintro _ ⟨rfl⟩; exact h, by simp⟩
      | max d n _ h => exact ⟨by simp, by rintro _ ⟨rfl⟩; exact h⟩
    · exact ih x hx

theorem optList_fits {os : List LenOpt} {w : Bytes} (h : OptList os w) : ∀ o ∈ os, (∀ n, o = .min n → n < 2 ^ 64) ∧ (∀ n, o = .max n → n < 2 ^ 64) := by
  cases h with
  | nil => simp
  | cons o os w t hw ht =>
    have := optTail_fits (OptTail.cons o os _ w t comma_nil hw ht)
    exact this

theorem last_fits {os : List LenOpt} (h : ∀ o ∈ os, (∀ n, o = .min n → n < 2 ^ 64) ∧ (∀ n, o = .max n → n < 2 ^ 64)) :
    Fits (lastMin os) ∧ Fits (lastMax os) := by
  constructor
  · intro n hn
    obtain ⟨o, h1, h2⟩ := List.exists_of_findSome?_eq_some hn
    have := h o (by simpa using h1)
    cases o with
    | min m => simp at h2; subst h2; exact this.1 _ rfl
    | max m => simp at h2
  · intro n hn
    obtain ⟨o, h1, h2⟩ := List.exists_of_findSome?_eq_some hn
    have := h o (by simpa using h1)
    cases o with
    | max m => simp at h2; subst h2; exact this.2 _ rfl
    | min m => simp at h2

theorem setOpts_fits {os : List LenOpt} {w : Bytes} (h : SetOpts os w) : Fits (lastMin os) ∧ Fits (lastMax os) := by
  cases h with
  | absent => exact last_fits (by simp)
  | present os c t _ ht => exact last_fits (optList_fits ht)

theorem intOpts_fits {os : List LenOpt} {w : Bytes} (h : IntOpts os w) : Fits (lastMin os) ∧ Fits (lastMax os) := by
  cases h with
  | absent => exact last_fits (by simp)
  | present os t ht => exact last_fits (optList_fits ht)

theorem nameText_good {n : Option Bytes} {x : Bytes} (h : NameText n x) : GoodName n := by
  cases h with
  | none => intro m hm; simp at hm
  | some n hn => intro m hm; simp at hm; subst hm; exact hn

theorem tokens_noLiteral {es : List Elem} (h : startsLiteral es = false) : NoLiteralFirst (tokens es) := by
  intro l ts he
  match es with
  | [] => simp [tokens] at he
  | .literal raw :: es => simp [startsLiteral, Elem.isLiteral] at h
  | .int os n :: es => simp [tokens] at he
  | .set cs os n :: es => simp [tokens] at he
  | [.greedy n] => simp [tokens] at he
  | .greedy n :: .literal raw :: es => simp [tokens] at he
  | .greedy n :: .int os m :: es => simp [tokens] at he
  | .greedy n :: .set cs os m :: es => simp [tokens] at he
  | .greedy n :: .greedy m :: es => simp [tokens] at he

theorem written_wellFormed : ∀ (k : Nat) {es : List Elem} {s : Bytes}, es.length ≤ k → Written es s → Utf8 s → AsciiSets (tokens es) → WellFormed (tokens es) := by
  intro k
  induction k with
  | zero =>
    intro es s hk _ _ _
    have : es = [] := List.eq_nil_of_length_eq_zero (by omega)
    subst this
    simpa [tokens] using WellFormed.nil
  | succ k ih =>
    intro es s hk h hu ha
    cases h with
    | nil => simpa [tokens] using WellFormed.nil
    | cons e es' w s' hw hs' hc =>
      have hk' : es'.length ≤ k := by simpa using hk
      cases hw with
      | literal raw g1 g2 =>
        have hst : Stop s' := by simpa using written_stop (rest := []) hs' (hc rfl) (.inl rfl)
        have hur := utf8_left_stop hu hst
        have htl : AsciiSets (tokens es') := fun p hp => ha p (by simp [tokens, hp])
        rw [tokens]
        exact .literal _ _ (unescape_ne g1) (unescape_utf8 _ (Nat.le_refl _) hur) (unescape_noEsc _) (ih hk' hs' (utf8_cancel hur hu) htl)
          (tokens_noLiteral (hc rfl))
      | int os n w x g1 g2 =>
        have hut : Utf8 s' := utf8_cancel (ascii_utf8 (ascii_append.mpr ⟨ascii_append.mpr ⟨ascii_append.mpr ⟨by decide, intOpts_ascii g1⟩, nameText_utf8 g2⟩, by decide⟩)) hu
        have htl : AsciiSets (tokens es') := fun p hp => ha p (by simp [tokens, hp])
        rw [tokens]
        exact .parser _ _ ⟨nameText_good g2, (intOpts_fits g1).1, (intOpts_fits g1).2, rfl⟩ (ih hk' hs' hut htl)
      | set cs os n w x g1 g2 g3 g4 =>
        have htl : AsciiSets (tokens es') := fun p hp => ha p (by simp [tokens, hp])
        have hcs : Ascii (bsetFromIter cs) := ha _ (by simp [tokens, setParser]; left; rfl)
        have hcs' : Ascii cs := fun x hx => hcs x (mem_bsetFromIter.mpr hx)
        have hut : Utf8 s' := utf8_cancel (ascii_utf8 (ascii_append.mpr ⟨ascii_append.mpr ⟨ascii_append.mpr ⟨ascii_append.mpr ⟨ascii_append.mpr
          ⟨ascii_append.mpr ⟨by decide, hcs'⟩, by decide⟩, setOpts_ascii g3⟩, by decide⟩, nameText_utf8 g4⟩, by decide⟩)) hu
        rw [tokens]
        refine .parser _ _ ⟨nameText_good g4, (setOpts_fits g3).1, (setOpts_fits g3).2, ?_, bsetFromIter_sorted cs, ?_, hcs⟩ (ih hk' hs' hut htl)
        · cases cs with
          | nil => exact absurd rfl g1
          | cons c t => exact List.ne_nil_of_mem (mem_bsetFromIter.mpr (by simp : c ∈ c :: t))
        · simpa [mem_bsetFromIter] using g2
      | greedy n x g1 =>
        have hau : Utf8 (b!"%{GREEDY" ++ x ++ b!"}") := ascii_utf8 (ascii_append.mpr ⟨ascii_append.mpr ⟨by decide, nameText_utf8 g1⟩, by decide⟩)
        have hut := utf8_cancel hau hu
        by_cases hl : startsLiteral es' = true
        · cases hs' with
          | nil => simp [startsLiteral] at hl
          | cons e2 es2 w2 s2 hw2 hs2 hc2 =>
            cases hw2 with
            | literal raw f1 f2 =>
              have hst : Stop s2 := by simpa using written_stop (rest := []) hs2 (hc2 rfl) (.inl rfl)
              have hur := utf8_left_stop hut hst
              have htl : AsciiSets (tokens es2) := fun p hp => ha p (by simp [tokens, hp])
              rw [tokens]
              exact .greedyEnd _ _ _ (nameText_good g1) f1 hur f2 (ih (by simp at hk'; omega) hs2 (utf8_cancel hur hut) htl) (tokens_noLiteral (hc2 rfl))
            | _ => simp [startsLiteral, Elem.isLiteral] at hl
        · have hl' : startsLiteral es' = false := by simpa using hl
          have ht : tokens (.greedy n :: es') = .parser (.greedy { name := n, endString := none }) :: tokens es' := by
            have := tokens_append (es := [.greedy n]) (es' := es') (fun _ => hl')
            simpa [tokens] using this
          rw [ht] at ha ⊢
          exact .greedy _ _ (nameText_good g1) (ih hk' hs' hut (fun p hp => ha p (by simp [hp]))) (tokens_noLiteral hl')

/-! ### Shapes -/

/-- the shape of token lists from the grammar -/
inductive Shape : List Token → Prop
  | nil : Shape []
  | greedyEnd (n : Option Bytes) (e : Bytes) (ts : List Token) : e ≠ [] → Shape ts → NoLiteralFirst ts →
      Shape (.parser (.greedy { name := n, endString := some e }) :: .literal e :: ts)
  | greedy (n : Option Bytes) (ts : List Token) : Shape ts → NoLiteralFirst ts →
      Shape (.parser (.greedy { name := n, endString := none }) :: ts)
  | parser (a : Parser) (ts : List Token) : (∀ g, a ≠ .greedy g) → Shape ts → Shape (.parser a :: ts)
  | literal (l : Bytes) (ts : List Token) : l ≠ [] → Shape ts → NoLiteralFirst ts → Shape (.literal l :: ts)

theorem written_shape : ∀ (k : Nat) {es : List Elem} {s : Bytes}, es.length ≤ k → Written es s → Shape (tokens es) := by
  intro k
  induction k with
  | zero =>
    intro es s hk _
    have : es = [] := List.eq_nil_of_length_eq_zero (by omega)
    subst this
    simpa [tokens] using Shape.nil
  | succ k ih =>
    intro es s hk h
    cases h with
    | nil => simpa [tokens] using Shape.nil
    | cons e es' w s' hw hs' hc =>
      have hk' : es'.length ≤ k := by simpa using hk
      cases hw with
      | literal raw g1 g2 =>
        rw [tokens]
        exact .literal _ _ (unescape_ne g1) (ih hk' hs') (tokens_noLiteral (hc rfl))
      | int os n w x g1 g2 =>
        rw [tokens]
        exact .parser _ _ (by intro g; simp [intParser]) (ih hk' hs')
      | set cs os n w x g1 g2 g3 g4 =>
        rw [tokens]
        exact .parser _ _ (by intro g; simp [setParser]) (ih hk' hs')
      | greedy n x g1 =>
        by_cases hl : startsLiteral es' = true
        · cases hs' with
          | nil => simp [startsLiteral] at hl
          | cons e2 es2 w2 s2 hw2 hs2 hc2 =>
            cases hw2 with
            | literal raw f1 f2 =>
              rw [tokens]
              exact .greedyEnd _ _ _ f1 (ih (by simp at hk'; omega) hs2) (tokens_noLiteral (hc2 rfl))
            | _ => simp [startsLiteral, Elem.isLiteral] at hl
        · have hl' : startsLiteral es' = false := by simpa using hl
          have ht : tokens (.greedy n :: es') = .parser (.greedy { name := n, endString := none }) :: tokens es' := by
            have := tokens_append (es := [.greedy n]) (es' := es') (fun _ => hl')
            simpa [tokens] using this
          rw [ht]
          exact .greedy _ _ (ih hk' hs') (tokens_noLiteral hl')

theorem shape_literals {ts : List Token} (h : Shape ts) : ∀ l, Token.literal l ∈ ts → l ≠ [] := by
  induction h with
  | nil => simp
  | greedyEnd n e ts h1 _ _ ih =>
    intro l hl
    simp at hl
    rcases hl with rfl | hl
    · exact h1
    · exact ih l hl
  | greedy n ts _ _ ih => intro l hl; simp at hl; exact ih l hl
  | parser a ts _ _ ih => intro l hl; simp at hl; exact ih l hl
  | literal l ts h1 _ _ ih =>
    intro l' hl
    simp at hl
    rcases hl with rfl | hl
    · exact h1
    · exact ih l' hl

theorem shape_adjacent {ts : List Token} (h : Shape ts) : ∀ pre l l' post, ts ≠ pre ++ .literal l :: .literal l' :: post := by
  induction h with
  | nil => intro pre l l' post e; cases pre <;> simp at e
  | greedyEnd n e ts _ _ h3 ih =>
    intro pre l l' post he
    match pre, he with
    | [], he => simp at he
    | [x], he => simp at he; exact h3 l' post he.2.2
    | x :: y :: pre, he => simp at he; exact ih pre l l' post he.2.2
  | greedy n ts _ _ ih =>
    intro pre l l' post he
    cases pre with
    | nil => simp at he
    | cons x pre => simp at he; exact ih pre l l' post he.2
  | parser a ts _ _ ih =>
    intro pre l l' post he
    cases pre with
    | nil => simp at he
    | cons x pre => simp at he; exact ih pre l l' post he.2
  | literal l ts _ _ h3 ih =>
    intro pre l1 l' post he
    cases pre with
    | nil => simp at he; exact h3 l' post he.2
    | cons x pre => simp at he; exact ih pre l1 l' post he.2

theorem shape_greedy {ts : List Token} (h : Shape ts) : ∀ pre g post, ts = pre ++ .parser (.greedy g) :: post →
    ∀ e, g.endString = some e ↔ ∃ post', post = .literal e :: post' := by
  induction h with
  | nil => intro pre l post e; cases pre <;> simp at e
  | greedyEnd n e ts _ _ h3 ih =>
    intro pre g post he e'
    match pre, he with
    | [], he => simp at he; obtain ⟨rfl, rfl⟩ := he; simp
    | [x], he => simp at he
    | x :: y :: pre, he => simp at he; exact ih pre g post he.2.2 e'
  | greedy n ts _ h2 ih =>
    intro pre g post he e'
    cases pre with
    | nil =>
      simp at he; obtain ⟨rfl, rfl⟩ := he
      simp only [reduceCtorEq, false_iff, not_exists]
      exact fun p' hp => h2 _ _ hp
    | cons x pre => simp at he; exact ih pre g post he.2 e'
  | parser a ts h1 _ ih =>
    intro pre g post he e'
    cases pre with
    | nil => simp at he; exact absurd he.1 (h1 g)
    | cons x pre => simp at he; exact ih pre g post he.2 e'
  | literal l ts _ _ h3 ih =>
    intro pre g post he e'
    cases pre with
    | nil => simp at he
    | cons x pre => simp at he; exact ih pre g post he.2 e'

/-! ### Lines and columns -/

theorem split_first_newline (s : Bytes) : 10 ∉ s ∨ ∃ l t, s = l ++ 10 :: t ∧ 10 ∉ l := by
  induction s with
  | nil => exact .inl (by simp)
  | cons c s ih =>
    by_cases hc : c = 10
    · subst hc; exact .inr ⟨[], s, rfl, by simp⟩
    · rcases ih with h | ⟨l, t, rfl, h⟩
      · exact .inl (by simp [h]; exact fun e => hc e.symm)
      · exact .inr ⟨c :: l, t, rfl, by simp [h]; exact fun e => hc e.symm⟩

theorem splitLines_none {s : Bytes} (h : 10 ∉ s) : splitLines s = if s = [] then [] else [s] := by
  induction s with
  | nil => rfl
  | cons c s ih =>
    simp at h
    rw [splitLines, if_neg (fun e => h.1 e.symm), ih h.2]
    by_cases hs : s = []
    · subst hs; simp
    · simp [hs]

theorem splitLines_some {l t : Bytes} (h : 10 ∉ l) : splitLines (l ++ 10 :: t) = l :: splitLines t := by
  induction l with
  | nil => simp [splitLines]
  | cons c l ih =>
    simp at h
    rw [List.cons_append, splitLines, if_neg (fun e => h.1 e.symm), ih h.2]

theorem strLines_eq {s : Bytes} (h : 13 ∉ s) : strLines s = splitLines s := by
  have key : ∀ l ∈ splitLines s, 13 ∉ l := by
    induction s with
    | nil => simp [splitLines]
    | cons c s ih =>
      simp at h
      have ih := ih h.2
      rw [splitLines]
      split
      · simpa using ih
      · split
        · simpa using h.1
        · rename_i l ls hl
          rw [hl] at ih
          simp at ih ⊢
          exact ⟨⟨h.1, ih.1⟩, ih.2⟩
  unfold strLines
  conv => rhs; rw [← List.map_id (splitLines s)]
  apply List.map_congr_left
  intro l hl
  rw [if_neg]
  · rfl
  · intro e
    exact key l hl (List.mem_of_getLast? e)

theorem columnAfter_short {l : Bytes} (h : 10 ∉ l) : columnAfter l = 1 + l.length := by
  unfold columnAfter
  have : ∀ u : Bytes, 10 ∉ u → u.takeWhile (· ≠ 10) = u := by
    intro u hu
    induction u with
    | nil => rfl
    | cons c u ih =>
      simp at hu
      rw [List.takeWhile_cons, if_pos (by simpa using fun e => hu.1 e.symm), ih hu.2]
  rw [this _ (by simpa using h)]
  simp

theorem columnAfter_line {l t : Bytes} : columnAfter (l ++ 10 :: t) = columnAfter t := by
  unfold columnAfter
  congr 2
  rw [List.reverse_append, List.reverse_cons, List.append_assoc]
  generalize t.reverse = u
  induction u with
  | nil => simp
  | cons c u ih =>
    by_cases hc : c = 10
    · subst hc; simp
    · simp only [List.cons_append, List.takeWhile_cons]
      simp only [List.singleton_append] at ih ⊢
      simp [hc] at ih ⊢
      exact ih

theorem posToLineLoop_spec : ∀ (n : Nat) {s : Bytes}, s.length ≤ n → ∀ (pos k : Nat), pos ≤ s.length →
    posToLineLoop (splitLines s) pos (k + 1) = (k + lineAfter (s.take pos), columnAfter (s.take pos)) := by
  intro n
  induction n with
  | zero =>
    intro s hs pos k hp
    have : s = [] := List.eq_nil_of_length_eq_zero (by omega)
    subst this
    simp at hp; subst hp
    rfl
  | succ n ih =>
    intro s hs pos k hp
    rcases split_first_newline s with h | ⟨l, t, rfl, h⟩
    · rw [splitLines_none h]
      have h2 : 10 ∉ s.take pos := fun h' => h (List.mem_of_mem_take h')
      have h3 : posToLineLoop (if s = [] then [] else [s]) pos (k + 1) = (k + 1, pos + 1) := by
        by_cases hs0 : s = []
        · rw [if_pos hs0]; rfl
        · rw [if_neg hs0, posToLineLoop, if_pos (by omega)]
      rw [h3, columnAfter_short h2, lineAfter, List.count_eq_zero.mpr h2]
      simp; omega
    · rw [splitLines_some h, posToLineLoop]
      simp at hs hp
      split
      · rename_i hlt
        have h2 : (l ++ 10 :: t).take pos = l.take pos := by
          rw [List.take_append_of_le_length (by omega)]
        have h3 : 10 ∉ l.take pos := fun h' => h (List.mem_of_mem_take h')
        rw [h2, columnAfter_short h3, lineAfter, List.count_eq_zero.mpr h3]
        simp; omega
      · rename_i hge
        have h2 : (l ++ 10 :: t).take pos = l ++ 10 :: t.take (pos - (l.length + 1)) := by
          rw [List.take_append, List.take_of_length_le (by omega), show pos - l.length = (pos - (l.length + 1)) + 1 by omega, List.take_succ_cons]
        rw [h2, ih (by omega) (pos - (l.length + 1)) (k + 1) (by omega), columnAfter_line]
        simp [lineAfter, List.count_append, List.count_eq_zero.mpr h]
        omega

theorem posToLine_spec {s : Bytes} (h : 13 ∉ s) {pos : Nat} (hp : pos ≤ s.length) :
    posToLine s pos = (lineAfter (s.take pos), columnAfter (s.take pos)) := by
  rw [posToLine, strLines_eq h, posToLineLoop_spec _ (Nat.le_refl _) pos 0 hp]
  simp

theorem posToLineLoop_pos (ls : List Bytes) (pos k : Nat) : k ≤ (posToLineLoop ls pos k).1 ∧ 1 ≤ (posToLineLoop ls pos k).2 := by
  induction ls generalizing pos k with
  | nil => simp [posToLineLoop]
  | cons l ls ih =>
    rw [posToLineLoop]
    split
    · simp
    · have := ih (pos - (l.length + 1)) (k + 1); omega

/-! ### How far the error position is -/

theorem loop_end {α : Type} {step : Rule α} {inp : Bytes} (n : Nat) : ∀ {st st' : PState} {p q : Nat} {vs : List α}, inp.length - p ≤ n →
    step.loop inp st p = .ok (q, vs, st') → (∃ st1, step inp st1 q = .ok (none, st')) ∧ p ≤ q ∧ (vs ≠ [] → p < q) := by
  induction n with
  | zero =>
    intro st st' p q vs hn h
    rw [Rule.loop] at h
    cases hs : step inp st p with
    | error e => rw [hs] at h; simp at h
    | ok x =>
      rw [hs] at h
      obtain ⟨o, st1⟩ := x
      cases o with
      | none => simp at h; obtain ⟨rfl, rfl, rfl⟩ := h; exact ⟨⟨st, hs⟩, Nat.le_refl _, by simp⟩
      | some y =>
        obtain ⟨q1, v⟩ := y
        simp only at h
        rw [if_neg (by omega)] at h
        simp at h
  | succ n ih =>
    intro st st' p q vs hn h
    rw [Rule.loop] at h
    cases hs : step inp st p with
    | error e => rw [hs] at h; simp at h
    | ok x =>
      rw [hs] at h
      obtain ⟨o, st1⟩ := x
      cases o with
      | none => simp at h; obtain ⟨rfl, rfl, rfl⟩ := h; exact ⟨⟨st, hs⟩, Nat.le_refl _, by simp⟩
      | some y =>
        obtain ⟨q1, v⟩ := y
        simp only at h
        split at h
        · rename_i hc
          cases hl : step.loop inp st1 q1 with
          | error e => rw [hl] at h; simp at h
          | ok z =>
            rw [hl] at h
            obtain ⟨q2, vs2, st2⟩ := z
            simp at h
            obtain ⟨rfl, rfl, rfl⟩ := h
            obtain ⟨h1, h2, _⟩ := ih (by omega) hl
            exact ⟨h1, by omega, fun _ => by omega⟩
        · simp at h

theorem greedy_marks {inp rest : Bytes} {p : Nat} {st st' : PState} (h : At inp p rest) (hf : parseParserGreedy inp st p = .ok (none, st')) :
    p ≤ st'.maxErrPos ∧ (b!"%{" <+: rest → p + 2 ≤ st'.maxErrPos) := by
  have mk : ∀ (st : PState) q m, q ≤ (st.markFailure q m).maxErrPos := fun st q m => (mark_cases st q m).2.2
  unfold parseParserGreedy Rule.action at hf
  simp only [Rule.seq] at hf
  by_cases hb : b!"%{" <+: rest
  · suffices p + 2 ≤ st'.maxErrPos by exact ⟨by omega, fun _ => this⟩
    obtain ⟨r, rfl⟩ := hb
    have h1 := h.step (w := b!"%{") (ascii_utf8 (by decide))
    rw [show parseParserBegin = sliceEq b!"%{" from rfl, sliceEq_yes h] at hf
    simp only at hf
    by_cases hg : b!"GREEDY" <+: r
    · obtain ⟨r2, rfl⟩ := hg
      have h2 := h1.step (w := b!"GREEDY") (ascii_utf8 (by decide))
      have hk : parseGREEDY inp st (p + b!"%{".length) = .ok (some (p + b!"%{".length + b!"GREEDY".length, b!"GREEDY"), st) := by
        unfold parseGREEDY Rule.action
        rw [sliceEq_yes h1]; simp only; rw [h1.slice (ascii_utf8 (by decide))]
      rw [hk] at hf
      simp only at hf
      have hs := parserNameOpt_sat (V := fun _ _ => True) h2 (fun _ _ _ _ _ _ _ _ => trivial) st (fun _ _ => trivial)
      cases ho : parseParserName.opt inp st (p + b!"%{".length + b!"GREEDY".length) with
      | error e => rw [ho] at hf; simp at hf
      | ok x =>
        obtain ⟨o, st1⟩ := x
        rw [ho] at hf hs
        cases o with
        | none => simp only at hs; exact hs.2.2.elim
        | some y =>
          obtain ⟨q, n⟩ := y
          simp only at hs hf
          obtain ⟨_, _, w, r3, rfl, rfl, hw, _⟩ := hs
          have h3 := h2.step hw
          by_cases he : b!"}" <+: r3
          · exfalso
            obtain ⟨r4, rfl⟩ := he
            rw [show parseParserEnd = sliceEq b!"}" from rfl, sliceEq_yes h3] at hf
            simp only at hf
            have h4 := h3.step (w := b!"}") (ascii_utf8 (by decide))
            unfold Rule.opt at hf
            have hl := parseLiteral_sat (V := fun _ _ => True) h4 (fun _ _ _ _ _ _ => ⟨trivial, trivial⟩) st1 (fun _ _ => trivial)
            have hfin : ∀ q (v : Option Bytes × Option Bytes), (match (Except.ok (some (q, v), st1) : M (Option (Nat × _) × PState)) with
              | x => True) := fun _ _ => trivial
            cases hll : parseLiteral inp st1 (p + b!"%{".length + b!"GREEDY".length + w.length + b!"}".length) with
            | error e => rw [hll] at hl; simp at hl
            | ok x =>
              obtain ⟨o, st2⟩ := x
              rw [hll] at hf
              cases o <;> simp only at hf <;> split at hf <;> simp at hf
          · rw [show parseParserEnd = sliceEq b!"}" from rfl, sliceEq_no h3 he] at hf
            simp at hf
            rw [← hf]
            have := mk st1 (p + b!"%{".length + b!"GREEDY".length + w.length) b!"}"
            simp at this ⊢; omega
    · have hk : parseGREEDY inp st (p + b!"%{".length) = .ok (none, st.markFailure (p + b!"%{".length) b!"GREEDY") := by
        unfold parseGREEDY Rule.action
        rw [sliceEq_no h1 hg]
      rw [hk] at hf
      simp at hf
      rw [← hf]
      exact mk _ _ _
  · refine ⟨?_, fun hb' => absurd hb' hb⟩
    rw [show parseParserBegin = sliceEq b!"%{" from rfl, sliceEq_no h hb] at hf
    simp at hf
    rw [← hf]
    exact mk _ _ _

theorem piece_marks {inp rest : Bytes} {p : Nat} {st st' : PState} (h : At inp p rest) (hf : parsePatternPiece inp st p = .ok (none, st')) :
    p ≤ st'.maxErrPos ∧ (b!"%{" <+: rest → p + 2 ≤ st'.maxErrPos) := by
  unfold parsePatternPiece at hf
  rw [Rule.orElse] at hf
  cases hg : parseParserGreedy inp st p with
  | error e => rw [hg] at hf; simp at hf
  | ok x =>
    obtain ⟨o, st1⟩ := x
    rw [hg] at hf
    cases o with
    | some y => simp at hf
    | none =>
      simp only at hf
      have h1 := greedy_marks h hg
      have hs := orElse_sat (V := fun _ _ => True) (parsePieceLiteral_sat h (fun _ _ _ _ _ _ => ⟨trivial, trivial⟩) |>.mono (N' := True) (O' := True)
          (L' := fun _ _ _ => True) (fun _ _ _ _ _ _ => trivial) (fun _ => trivial) (fun _ => trivial))
        (fun _ => (parsePieceParser_sat h (fun _ _ _ _ _ _ _ _ => trivial)).mono (N' := True) (O' := True)
          (L' := fun _ _ _ => True) (fun _ _ _ _ _ _ => trivial) (fun _ => trivial) (fun _ => trivial)) st1 (fun _ _ => trivial)
      rw [hf] at hs
      simp only at hs
      exact ⟨by omega, fun hb => by have := h1.2 hb; omega⟩

theorem piece_plain {inp rest : Bytes} {p : Nat} (h : At inp p rest) :
    Sat (fun _ _ => True) parsePatternPiece inp p rest (fun w _ _ => b!"%{" <+: rest → 2 ≤ w.length) True True := by
  refine orElse_sat (N1 := True) ?_ (fun _ => orElse_sat (N1 := True) ?_ (fun _ => ?_))
  · refine (parseParserGreedy_sat h (fun _ _ _ _ _ _ _ _ => trivial) (fun _ _ _ _ _ _ _ _ _ _ => ⟨trivial, trivial⟩)).mono ?_ id (False.elim)
    rintro w v r _ _ ⟨n, y, hn, ⟨rfl, h1, rfl⟩ | ⟨e, h1, h2, h3, rfl, rfl⟩⟩ _ <;> simp
  · refine (parsePieceLiteral_sat h (fun _ _ _ _ _ _ => ⟨trivial, trivial⟩)).mono ?_ (fun _ => trivial) (False.elim)
    rintro w v r _ _ ⟨h1, h2, h3, h4, h5⟩ h6
    exact absurd h6 h4
  · refine (parsePieceParser_sat h (fun _ _ _ _ _ _ _ _ => trivial)).mono ?_ id (fun _ => trivial)
    rintro w v r _ _ ⟨a, y, ha, rfl, rfl⟩ _
    simp

theorem loop_at {α : Type} {step : Rule α} {inp : Bytes}
    (hstep : ∀ {p rest st q v st'}, At inp p rest → step inp st p = .ok (some (q, v), st') → ∃ r, At inp q r) (n : Nat) :
    ∀ {st st' : PState} {p q : Nat} {rest : Bytes} {vs : List α}, inp.length - p ≤ n → At inp p rest →
    step.loop inp st p = .ok (q, vs, st') → ∃ r, At inp q r := by
  induction n with
  | zero =>
    intro st st' p q rest vs hn hat h
    rw [Rule.loop] at h
    cases hs : step inp st p with
    | error e => rw [hs] at h; simp at h
    | ok x =>
      rw [hs] at h
      obtain ⟨o, st1⟩ := x
      cases o with
      | none => simp at h; obtain ⟨rfl, rfl, rfl⟩ := h; exact ⟨_, hat⟩
      | some y =>
        obtain ⟨q1, v⟩ := y
        simp only at h
        rw [if_neg (by omega)] at h
        simp at h
  | succ n ih =>
    intro st st' p q rest vs hn hat h
    rw [Rule.loop] at h
    cases hs : step inp st p with
    | error e => rw [hs] at h; simp at h
    | ok x =>
      rw [hs] at h
      obtain ⟨o, st1⟩ := x
      cases o with
      | none => simp at h; obtain ⟨rfl, rfl, rfl⟩ := h; exact ⟨_, hat⟩
      | some y =>
        obtain ⟨q1, v⟩ := y
        simp only at h
        split at h
        · rename_i hc
          cases hl : step.loop inp st1 q1 with
          | error e => rw [hl] at h; simp at h
          | ok z =>
            rw [hl] at h
            obtain ⟨q2, vs2, st2⟩ := z
            simp at h
            obtain ⟨rfl, rfl, rfl⟩ := h
            obtain ⟨r1, hr1⟩ := hstep hat hs
            exact ih (by omega) hr1 hl
        · simp at h

/-- the state of the error comes from a failed piece, after the pieces that matched -/
theorem compile_error_state {inp : Bytes} {e : ParseError} (h : compile inp = .ok (.error e)) :
    ∃ q vs st', parsePatternPiece.loop inp .new 0 = .ok (q, vs, st') ∧ e.offset = st'.maxErrPos := by
  unfold compile parsePattern Rule.action Rule.plus at h
  cases hl : parsePatternPiece.loop inp .new 0 with
  | error e => rw [hl] at h; simp at h
  | ok x =>
    obtain ⟨q, vs, st'⟩ := x
    refine ⟨q, vs, st', rfl, ?_⟩
    rw [hl] at h
    by_cases hv : vs.length ≥ 1
    · simp only [if_pos hv] at h
      cases hsl : slice inp 0 q with
      | error e => rw [hsl] at h; simp at h
      | ok w =>
        rw [hsl] at h
        simp only at h
        split at h
        · simp at h
        · simp at h; rw [← h]
    · simp only [if_neg hv] at h
      simp at h; rw [← h]

theorem compile_error_far {inp a b : Bytes} {es : List Elem} {e : ParseError} (hu : Utf8 inp) (h : compile inp = .ok (.error e))
    (hi : inp = a ++ (b!"%{" ++ b)) (hw : Written es a) : a.length + 2 ≤ e.offset := by
  obtain ⟨q, vs, st', hl, he⟩ := compile_error_state h
  have hat : At inp 0 (a ++ (b!"%{" ++ b)) := by rw [← hi]; exact At.start hu
  have hst : Stop (b!"%{" ++ b) := .inr ⟨b, rfl⟩
  have hua : Utf8 a := utf8_left_stop hat.utf8 hst
  obtain ⟨vs1, _, _, i3⟩ := pieces_loop hst _ (Nat.le_refl _) hw hat
  obtain ⟨st1, e1⟩ := i3 .new
  rw [hl] at e1
  have hat2 := hat.step hua
  rw [Nat.zero_add] at e1 hat2
  rw [he]
  cases hl2 : parsePatternPiece.loop inp st1 a.length with
  | error e => rw [hl2] at e1; simp at e1
  | ok x =>
    obtain ⟨q2, vs2, st2⟩ := x
    rw [hl2] at e1
    simp at e1
    obtain ⟨rfl, rfl, rfl⟩ := e1
    rw [Rule.loop] at hl2
    cases hp : parsePatternPiece inp st1 a.length with
    | error e => rw [hp] at hl2; simp at hl2
    | ok x =>
      obtain ⟨o, st2⟩ := x
      rw [hp] at hl2
      cases o with
      | none =>
        simp at hl2
        rw [← hl2.2.2]
        exact (piece_marks hat2 hp).2 ⟨b, rfl⟩
      | some y =>
        obtain ⟨q1, v⟩ := y
        simp only at hl2
        split at hl2
        · rename_i hc
          cases hl3 : parsePatternPiece.loop inp st2 q1 with
          | error e => rw [hl3] at hl2; simp at hl2
          | ok z =>
            rw [hl3] at hl2
            obtain ⟨q3, vs3, st3⟩ := z
            simp at hl2
            obtain ⟨rfl, _, rfl⟩ := hl2
            obtain ⟨⟨st4, h4⟩, h5, _⟩ := loop_end _ (Nat.le_refl _) hl3
            have hpp := piece_plain hat2 st1 (fun _ _ => trivial)
            rw [hp] at hpp
            simp only at hpp
            obtain ⟨_, _, w, r, hw1, hw2, hw3, hw4⟩ := hpp
            have hw5 := hw4 ⟨b, rfl⟩
            rw [hw1] at hat2
            have hat3 := hat2.step hw3
            rw [← hw2] at hat3
            obtain ⟨r5, hr5⟩ := loop_at (fun {p rest st q v st'} hat hh => by
              have := piece_plain hat st (fun _ _ => trivial)
              rw [hh] at this
              obtain ⟨_, _, w, r, g1, g2, g3, _⟩ := this
              rw [g1] at hat
              exact ⟨r, g2 ▸ hat.step g3⟩) _ (Nat.le_refl _) hat3 hl3
            have := (piece_marks hr5 h4).1
            omega
        · simp at hl2

end Verif
