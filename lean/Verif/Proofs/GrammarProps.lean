import Verif.Proofs.GrammarShow
/-! Lemmas for the theorems about pattern strings in `Verif.Props.C32_C39_Grammar`. -/
namespace Verif
open Spec

/-! ### Concatenation -/

theorem endsClosed_tail {t u : Token} {ts : List Token} (h : EndsClosed (t :: u :: ts)) : EndsClosed (u :: ts) := by
  intro pre x e
  exact h (t :: pre) x (by rw [e]; rfl)

theorem tokens_ne {e : Elem} {es : List Elem} : tokens (e :: es) ≠ [] := by
  match e, es with
  | .greedy n, .literal raw :: es => simp [tokens]
  | .greedy n, [] => simp [tokens]
  | .greedy n, .int _ _ :: es => simp [tokens]
  | .greedy n, .set _ _ _ :: es => simp [tokens]
  | .greedy n, .greedy _ :: es => simp [tokens]
  | .literal raw, es => simp [tokens]
  | .int _ _, es => simp [tokens]
  | .set _ _ _, es => simp [tokens]

theorem closed_takes : ∀ (k : Nat) {es : List Elem}, es.length ≤ k → EndsClosed (tokens es) → takesLiteral es = false := by
  intro k
  induction k with
  | zero =>
    intro es hk _
    have : es = [] := List.eq_nil_of_length_eq_zero (by omega)
    subst this; rfl
  | succ k ih =>
    intro es hk h
    have tail : ∀ {e : Elem} {e2 : Elem} {es : List Elem}, takesLiteral (e2 :: es) = false → takesLiteral (e :: e2 :: es) = false := by
      intro e e2 es h
      simpa [takesLiteral] using h
    have tl : ∀ {t : Token} {e2 : Elem} {es : List Elem}, EndsClosed (t :: tokens (e2 :: es)) → EndsClosed (tokens (e2 :: es)) := by
      intro t e2 es h
      cases hx : tokens (e2 :: es) with
      | nil => exact absurd hx tokens_ne
      | cons u ts => rw [hx] at h; exact endsClosed_tail h
    match es with
    | [] => rfl
    | [.literal raw] => obtain ⟨a, h1, _⟩ := h [] (.literal (unescape raw)) rfl; simp at h1
    | [.int os n] => rfl
    | [.set cs os n] => rfl
    | [.greedy n] => obtain ⟨a, h1, h2⟩ := h [] _ rfl; simp at h1; exact absurd h1.symm (h2 _)
    | .literal raw :: e2 :: es => exact tail (ih (by simp at hk ⊢; omega) (tl (by simpa only [tokens] using h)))
    | .int os n :: e2 :: es => exact tail (ih (by simp at hk ⊢; omega) (tl (by simpa only [tokens] using h)))
    | .set cs os n :: e2 :: es => exact tail (ih (by simp at hk ⊢; omega) (tl (by simpa only [tokens] using h)))
    | .greedy n :: .int os m :: es => exact tail (ih (by simp at hk ⊢; omega) (tl (t := .parser (.greedy { name := n, endString := none })) (by simpa only [tokens] using h)))
    | .greedy n :: .set cs os m :: es => exact tail (ih (by simp at hk ⊢; omega) (tl (t := .parser (.greedy { name := n, endString := none })) (by simpa only [tokens] using h)))
    | .greedy n :: .greedy m :: es =>
      refine tail (ih (by simp at hk ⊢; omega) (tl (t := .parser (.greedy { name := n, endString := none })) ?_))
      rwa [tokens] at h
      simp
    | [.greedy n, .literal raw] => obtain ⟨a, h1, _⟩ := h [.parser (.greedy { name := n, endString := some raw })] (.literal raw) rfl; simp at h1
    | .greedy n :: .literal raw :: e3 :: es =>
      refine tail (tail (ih (by simp at hk ⊢; omega) (tl (t := .literal raw) ?_)))
      rw [tokens] at h
      exact endsClosed_tail h

theorem noLiteral_starts {es : List Elem} (h : NoLiteralFirst (tokens es)) : startsLiteral es = false := by
  match es with
  | [] => rfl
  | .literal raw :: es => rw [tokens] at h; exact absurd rfl (h _ _)
  | .int os n :: es => rfl
  | .set cs os n :: es => rfl
  | .greedy n :: es => rfl

/-- `s` is empty and stands for no tokens, or it compiles to the tokens `ts`. -/
def CompilesTo (s : Bytes) (ts : List Token) : Prop := (s = [] ∧ ts = []) ∨ compile s = .ok (.ok ts)

theorem compilesTo_written {s : Bytes} {ts : List Token} (hu : Utf8 s) (h : CompilesTo s ts) : ∃ es, Written es s ∧ tokens es = ts := by
  rcases h with ⟨rfl, rfl⟩ | h
  · exact ⟨[], .nil, rfl⟩
  · obtain ⟨es, _, h1, h2⟩ := (compile_ok_iff hu).mp h
    exact ⟨es, h1, h2⟩

theorem written_compiles {s : Bytes} {es : List Elem} (hu : Utf8 s) (hn : es ≠ []) (h : Written es s) : compile s = .ok (.ok (tokens es)) :=
  (compile_ok_iff hu).mpr ⟨es, hn, h, rfl⟩

theorem written_ne {s : Bytes} {es : List Elem} (h : Written es s) (hs : s ≠ []) : es ≠ [] := by
  rintro rfl; cases h; exact hs rfl

theorem takes_closed {es : List Elem} (h : takesLiteral es = true) : ¬ EndsClosed (tokens es) := by
  intro h'
  rw [closed_takes _ (Nat.le_refl _) h'] at h
  simp at h

theorem concat_compiles {a b : Bytes} {ta tb : List Token} (ha : Utf8 a) (hb : Utf8 b) (hca : CompilesTo a ta) (hcb : CompilesTo b tb)
    (hn : EndsClosed ta ∨ NoLiteralFirst tb) : CompilesTo (a ++ b) (ta ++ tb) := by
  obtain ⟨ea, a1, rfl⟩ := compilesTo_written ha hca
  obtain ⟨eb, b1, rfl⟩ := compilesTo_written hb hcb
  have hs : takesLiteral ea = true → startsLiteral eb = false := by
    intro h
    rcases hn with hn | hn
    · exact absurd hn (takes_closed h)
    · exact noLiteral_starts hn
  have hw := written_append a1 b1 (fun h => hs (endsLiteral_takes h))
  by_cases he : ea ++ eb = []
  · rw [he] at hw
    left
    simp at he
    obtain ⟨rfl, rfl⟩ := he
    cases a1; cases b1
    exact ⟨rfl, rfl⟩
  · right
    rw [written_compiles (utf8_append ha hb) he hw, tokens_append hs]

/-! ### Completions can be chosen in UTF-8 -/

/-- some bytes above 127 are replaced by `a` -/
inductive Repl : Bytes → Bytes → Prop
  | nil : Repl [] []
  | same (c : UInt8) (s s' : Bytes) : Repl s s' → Repl (c :: s) (c :: s')
  | high (c : UInt8) (s s' : Bytes) : 128 ≤ c.toNat → Repl s s' → Repl (c :: s) (97 :: s')

theorem Repl.refl (s : Bytes) : Repl s s := by
  induction s with
  | nil => exact .nil
  | cons c s ih => exact .same c s s ih

theorem Repl.append {a a' b b' : Bytes} (h : Repl a a') (h' : Repl b b') : Repl (a ++ b) (a' ++ b') := by
  induction h with
  | nil => exact h'
  | same c s s' _ ih => exact .same c _ _ ih
  | high c s s' hc _ ih => exact .high c _ _ hc ih

theorem Repl.split {a b s : Bytes} (h : Repl (a ++ b) s) : ∃ a' b', s = a' ++ b' ∧ Repl a a' ∧ Repl b b' := by
  induction a generalizing s with
  | nil => exact ⟨[], s, rfl, .nil, h⟩
  | cons c a ih =>
    rw [List.cons_append] at h
    cases h with
    | same _ _ s' h =>
      obtain ⟨a', b', rfl, h1, h2⟩ := ih h
      exact ⟨c :: a', b', rfl, .same c a a' h1, h2⟩
    | high _ _ s' hc h =>
      obtain ⟨a', b', rfl, h1, h2⟩ := ih h
      exact ⟨97 :: a', b', rfl, .high c a a' hc h1, h2⟩

theorem Repl.ascii {a s : Bytes} (h : Repl a s) (ha : Ascii a) : s = a := by
  induction h with
  | nil => rfl
  | same c s s' _ ih => rw [ih (ascii_cons.mp ha).2]
  | high c s s' hc _ ih => have := (ascii_cons.mp ha).1; omega

theorem Repl.mem {a s : Bytes} (h : Repl a s) {c : UInt8} (hc : c ≠ 97) (hm : c ∈ s) : c ∈ a := by
  induction h with
  | nil => exact hm
  | same d s s' _ ih =>
    simp at hm ⊢
    rcases hm with rfl | hm
    · exact .inl rfl
    · exact .inr (ih hm)
  | high d s s' _ _ ih =>
    simp at hm ⊢
    rcases hm with rfl | hm
    · exact absurd rfl hc
    · exact .inr (ih hm)

theorem Repl.ne {a s : Bytes} (h : Repl a s) (hn : a ≠ []) : s ≠ [] := by
  cases h <;> simp_all

theorem Repl.noBegin {a s : Bytes} (h : Repl a s) (hn : NoBegin a) : NoBegin s := by
  have key : ∀ {x y}, Repl x y → ∀ v, y = b!"%{" ++ v → ∃ u, x = b!"%{" ++ u := by
    intro x y h v e
    cases h with
    | nil => simp at e
    | same c s s' h1 =>
      simp at e
      obtain ⟨rfl, rfl⟩ := e
      cases h1 with
      | same c s s' h2 => exact ⟨s, rfl⟩
    | high c s s' => simp at e
  rintro ⟨u, v, e⟩
  have h' : ∀ {x y}, Repl x y → ∀ u w, y = u ++ w → ∃ u' w', x = u' ++ w' ∧ Repl w' w := by
    intro x y h
    induction h with
    | nil => intro u w e; simp at e; exact ⟨[], [], rfl, by rw [e.2]; exact .nil⟩
    | same c s s' h ih =>
      intro u w e
      cases u with
      | nil => exact ⟨[], c :: s, rfl, by rw [List.nil_append] at e; rw [← e]; exact .same c s s' h⟩
      | cons d u =>
        simp at e
        obtain ⟨u', w', rfl, h2⟩ := ih u w e.2
        exact ⟨c :: u', w', rfl, h2⟩
    | high c s s' hc h ih =>
      intro u w e
      cases u with
      | nil => exact ⟨[], c :: s, rfl, by rw [List.nil_append] at e; rw [← e]; exact .high c s s' hc h⟩
      | cons d u =>
        simp at e
        obtain ⟨u', w', rfl, h2⟩ := ih u w e.2
        exact ⟨c :: u', w', rfl, h2⟩
  obtain ⟨u', w', rfl, h2⟩ := h' h u (b!"%{" ++ v) (by rw [← e]; simp)
  obtain ⟨r, rfl⟩ := key h2 v rfl
  exact hn ⟨u', r, by simp⟩

theorem elemText_repl {e : Elem} {w w' : Bytes} (h : ElemText e w) (hr : Repl w w') : ∃ e', ElemText e' w' ∧ e'.isLiteral = e.isLiteral := by
  cases h with
  | literal raw h1 h2 => exact ⟨_, .literal w' (hr.ne h1) (hr.noBegin h2), rfl⟩
  | int os n o x h1 h2 =>
    rw [hr.ascii (ascii_append.mpr ⟨ascii_append.mpr ⟨ascii_append.mpr ⟨by decide, intOpts_ascii h1⟩, nameText_utf8 h2⟩, by decide⟩)]
    exact ⟨_, .int os n o x h1 h2, rfl⟩
  | set cs os n o x h1 h2 h3 h4 =>
    simp only [List.append_assoc] at hr
    obtain ⟨p1, r1, rfl, s1, t1⟩ := hr.split
    obtain ⟨p2, r2, rfl, s2, t2⟩ := t1.split
    have e1 := s1.ascii (by decide)
    have e2 := t2.ascii (ascii_append.mpr ⟨by decide, ascii_append.mpr ⟨setOpts_ascii h3, ascii_append.mpr ⟨by decide, ascii_append.mpr ⟨nameText_utf8 h4, by decide⟩⟩⟩⟩)
    rw [e1, e2]
    exact ⟨.set p2 os n, by simpa using ElemText.set p2 os n o x (s2.ne h1) (fun hm => h2 (s2.mem (by decide) hm)) h3 h4, rfl⟩
  | greedy n x h1 =>
    rw [hr.ascii (ascii_append.mpr ⟨ascii_append.mpr ⟨by decide, nameText_utf8 h1⟩, by decide⟩)]
    exact ⟨_, .greedy n x h1, rfl⟩

theorem written_repl {es : List Elem} {s s' : Bytes} (h : Written es s) (hr : Repl s s') :
    ∃ es', Written es' s' ∧ startsLiteral es' = startsLiteral es ∧ (es ≠ [] → es' ≠ []) := by
  induction h generalizing s' with
  | nil => cases hr; exact ⟨[], .nil, rfl, by simp⟩
  | cons e es w t hw _ hc ih =>
    obtain ⟨w', t', rfl, h1, h2⟩ := hr.split
    obtain ⟨e', h3, h4⟩ := elemText_repl hw h1
    obtain ⟨es', h5, h6, _⟩ := ih h2
    exact ⟨e' :: es', .cons e' es' w' t' h3 h5 (fun h => by rw [h6]; exact hc (by rw [← h4]; exact h)), by simp [startsLiteral, h4], by simp⟩

theorem repl_ascii (z : Bytes) : ∃ z', Repl z z' ∧ Ascii z' := by
  induction z with
  | nil => exact ⟨[], .nil, ascii_nil⟩
  | cons c z ih =>
    obtain ⟨z', h1, h2⟩ := ih
    by_cases hc : c.toNat < 128
    · exact ⟨c :: z', .same c z z' h1, ascii_cons.mpr ⟨hc, h2⟩⟩
    · exact ⟨97 :: z', .high c z z' (by omega) h1, ascii_cons.mpr ⟨by decide, h2⟩⟩

theorem viable_compiles {inp : Bytes} {q : Nat} (h : Viable inp q) : ∃ z toks, compile (inp.take q ++ z) = .ok (.ok toks) := by
  obtain ⟨⟨r, pre, rfl, rfl, h1, h2⟩, z, es, h3, h4⟩ := h
  obtain ⟨z', h5, h6⟩ := repl_ascii z
  rw [List.take_left] at h4 ⊢
  obtain ⟨es', h7, _, h8⟩ := written_repl h4 ((Repl.refl pre).append h5)
  exact ⟨z', _, written_compiles (utf8_append h1 (ascii_utf8 h6)) (h8 h3) h7⟩

/-! ### Options -/

theorem findSome_rev {os : List LenOpt} {f : LenOpt → Option Nat} {n : Nat} :
    os.reverse.findSome? f = some n ↔ ∃ pre o post, os = pre ++ o :: post ∧ f o = some n ∧ ∀ x ∈ post, f x = none := by
  obtain ⟨l, rfl⟩ : ∃ l, os = l.reverse := ⟨os.reverse, by simp⟩
  rw [List.reverse_reverse]
  induction l with
  | nil => simp
  | cons o l ih =>
    rw [List.findSome?_cons, List.reverse_cons]
    generalize l.reverse = os at ih ⊢
    cases hf : f o with
    | some m =>
      simp only [Option.some.injEq]
      constructor
      · rintro rfl; exact ⟨os, o, [], rfl, hf, by simp⟩
      · rintro ⟨pre, x, post, e, h1, h2⟩
        rcases List.eq_nil_or_concat post with rfl | ⟨post', y, rfl⟩
        · obtain ⟨_, e2⟩ := List.append_inj' e rfl
          simp at e2; subst e2; rw [hf] at h1; simpa using h1
        · rw [List.concat_eq_append] at e h2
          rw [← List.cons_append, ← List.append_assoc] at e
          obtain ⟨_, e2⟩ := List.append_inj' e rfl
          simp at e2; subst e2
          have := h2 o (by simp)
          rw [hf] at this; simp at this
    | none =>
      simp only
      rw [ih]
      constructor
      · rintro ⟨pre, x, post, rfl, h1, h2⟩
        refine ⟨pre, x, post ++ [o], by simp, h1, ?_⟩
        intro y hy
        simp at hy
        rcases hy with hy | rfl
        · exact h2 y hy
        · exact hf
      · rintro ⟨pre, x, post, e, h1, h2⟩
        rcases List.eq_nil_or_concat post with rfl | ⟨post', y, rfl⟩
        · obtain ⟨_, e2⟩ := List.append_inj' e rfl
          simp at e2; subst e2; rw [hf] at h1; simp at h1
        · rw [List.concat_eq_append] at e h2
          rw [← List.cons_append, ← List.append_assoc] at e
          obtain ⟨e1, e2⟩ := List.append_inj' e rfl
          exact ⟨pre, x, post', e1, h1, fun y hy => h2 y (by simp [hy])⟩

theorem lastMin_iff {os : List LenOpt} {n : Nat} :
    lastMin os = some n ↔ ∃ pre post, os = pre ++ .min n :: post ∧ ∀ m, LenOpt.min m ∉ post := by
  unfold lastMin
  rw [findSome_rev]
  constructor
  · rintro ⟨pre, o, post, rfl, h1, h2⟩
    cases o with
    | min m => simp at h1; subst h1; exact ⟨pre, post, rfl, fun k hk => by simpa using h2 _ hk⟩
    | max m => simp at h1
  · rintro ⟨pre, post, rfl, h⟩
    refine ⟨pre, _, post, rfl, rfl, fun x hx => ?_⟩
    cases x with
    | min m => exact absurd hx (h m)
    | max m => rfl

theorem lastMax_iff {os : List LenOpt} {n : Nat} :
    lastMax os = some n ↔ ∃ pre post, os = pre ++ .max n :: post ∧ ∀ m, LenOpt.max m ∉ post := by
  unfold lastMax
  rw [findSome_rev]
  constructor
  · rintro ⟨pre, o, post, rfl, h1, h2⟩
    cases o with
    | max m => simp at h1; subst h1; exact ⟨pre, post, rfl, fun k hk => by simpa using h2 _ hk⟩
    | min m => simp at h1
  · rintro ⟨pre, post, rfl, h⟩
    refine ⟨pre, _, post, rfl, rfl, fun x hx => ?_⟩
    cases x with
    | max m => exact absurd hx (h m)
    | min m => rfl

/-! ### Overflow needs twenty digits -/

theorem number_digits {d : Bytes} {n : Nat} (h : Number d n) : ∀ c ∈ d, Digit c := by
  induction h with
  | one c hc => simpa using hc
  | snoc d n c _ hc ih =>
    intro x hx
    simp at hx
    rcases hx with hx | rfl
    · exact ih x hx
    · exact hc

theorem number_long {d : Bytes} {n : Nat} (h : Number d n) (hn : 2 ^ 64 ≤ n) : 20 ≤ d.length := by
  have h1 := number_lt h
  by_cases hl : 20 ≤ d.length
  · exact hl
  · have : 10 ^ d.length ≤ 10 ^ 19 := Nat.pow_le_pow_right (by omega) (by omega)
    have : (10 : Nat) ^ 19 < 2 ^ 64 := by decide
    exact absurd (Nat.lt_of_lt_of_le h1 (Nat.le_trans ‹10 ^ d.length ≤ 10 ^ 19› (Nat.le_trans (Nat.le_of_lt this) hn))) (Nat.lt_irrefl _)

theorem overflowOpt_long {s : Bytes} (h : OverflowOpt s) : ∃ d, d <:+: s ∧ (∀ c ∈ d, Digit c) ∧ 20 ≤ d.length := by
  obtain ⟨d, n, t, h1, h2, _, rfl | rfl⟩ := h
  · exact ⟨d, ⟨_, t, rfl⟩, number_digits h1, number_long h1 h2⟩
  · exact ⟨d, ⟨_, t, rfl⟩, number_digits h1, number_long h1 h2⟩

theorem overflow_long {s : Bytes} (h : Overflow s) : ∃ d, d <:+: s ∧ (∀ c ∈ d, Digit c) ∧ 20 ≤ d.length := by
  have lift : ∀ {a s : Bytes}, (∃ d, d <:+: s ∧ (∀ c ∈ d, Digit c) ∧ 20 ≤ d.length) → ∃ d, d <:+: a ++ s ∧ (∀ c ∈ d, Digit c) ∧ 20 ≤ d.length := by
    rintro a s ⟨d, ⟨u, v, rfl⟩, h⟩
    exact ⟨d, ⟨a ++ u, v, by simp⟩, h⟩
  have list : ∀ {s}, OverflowList s → ∃ d, d <:+: s ∧ (∀ c ∈ d, Digit c) ∧ 20 ≤ d.length := by
    intro s h
    cases h with
    | first s h => exact overflowOpt_long h
    | later o os w t c s h1 h2 h3 h4 => exact lift (overflowOpt_long h4)
  cases h with
  | int es a s _ h => exact lift (list h)
  | set es a cs c s _ _ _ _ h => exact lift (list h)

end Verif
