import Verif.Proofs.GrammarSound
import Verif.Proofs.GrammarExpected
/-! Every outcome of the rules for pieces and whole patterns. -/
namespace Verif
open Spec

variable {inp rest : Bytes} {p : Nat}

/-! ### Elements one after the other -/

/-- literal text directly after the elements would belong to the last of them -/
def takesLiteral (es : List Elem) : Bool :=
  match es.getLast? with
  | some (.literal _) => true
  | some (.greedy _) => true
  | _ => false

/-- the list ends in literal text -/
def endsLiteral (es : List Elem) : Bool :=
  match es.getLast? with
  | some (.literal _) => true
  | _ => false

theorem endsLiteral_takes {es : List Elem} (h : endsLiteral es = true) : takesLiteral es = true := by
  unfold endsLiteral takesLiteral at *
  cases hl : es.getLast? with
  | none => simp [hl] at h
  | some e => cases e <;> simp_all

theorem startsLiteral_append {es es' : List Elem} (h : es ≠ []) : startsLiteral (es ++ es') = startsLiteral es := by
  cases es with
  | nil => exact absurd rfl h
  | cons e t => rfl

theorem written_append {es es' : List Elem} {a b : Bytes} (h : Written es a) (h' : Written es' b)
    (hc : endsLiteral es = true → startsLiteral es' = false) : Written (es ++ es') (a ++ b) := by
  induction h with
  | nil => exact h'
  | cons e t w s hw ht hl ih =>
    rw [List.cons_append, List.append_assoc]
    by_cases hn : t = []
    · subst hn
      cases ht
      refine Written.cons e _ w _ hw (by simpa using h') ?_
      intro hlit
      simp only [List.nil_append]
      apply hc
      cases e <;> simp_all [endsLiteral, Elem.isLiteral]
    · refine Written.cons e _ w _ hw (ih ?_) ?_
      · intro hlit
        apply hc
        simpa [endsLiteral, List.getLast?_cons, List.getLast?_eq_some_getLast hn] using hlit
      · rw [startsLiteral_append hn]; exact hl

theorem written_one {e : Elem} {w : Bytes} (h : ElemText e w) : Written [e] w := by
  simpa using Written.cons e [] w [] h .nil (fun _ => rfl)

theorem tokens_cons_append {e : Elem} {es es' : List Elem} (h : es ≠ []) :
    tokens (e :: (es ++ es')) = (match e, es with
      | .greedy n, .literal raw :: t => .parser (.greedy { name := n, endString := some raw }) :: .literal raw :: tokens (t ++ es')
      | .greedy n, es => .parser (.greedy { name := n, endString := none }) :: tokens (es ++ es')
      | .literal raw, es => .literal (unescape raw) :: tokens (es ++ es')
      | .int os n, es => .parser (intParser os n) :: tokens (es ++ es')
      | .set cs os n, es => .parser (setParser cs os n) :: tokens (es ++ es')) := by
  cases es with
  | nil => exact absurd rfl h
  | cons f t => cases e <;> cases f <;> simp [tokens]

theorem tokens_append : ∀ {es es' : List Elem}, (takesLiteral es = true → startsLiteral es' = false) → tokens (es ++ es') = tokens es ++ tokens es'
  | [], es', _ => by simp [tokens]
  | [e], es', h => by
    cases e with
    | greedy n =>
      have := h (by simp [takesLiteral])
      cases es' with
      | nil => simp [tokens]
      | cons f t => cases f <;> simp_all [tokens, startsLiteral, Elem.isLiteral]
    | _ => simp [tokens]
  | e :: f :: t, es', h => by
    have h1 : takesLiteral (f :: t) = true → startsLiteral es' = false := by
      intro h2; apply h; simpa [takesLiteral] using h2
    have ih := tokens_append (es := f :: t) (es' := es') h1
    cases e with
    | greedy n =>
      cases f with
      | literal raw =>
        have h2 : takesLiteral t = true → startsLiteral es' = false := by
          intro h2; apply h
          cases t with
          | nil => simp [takesLiteral] at h2
          | cons g u => simpa [takesLiteral] using h2
        have ih2 := tokens_append (es := t) (es' := es') h2
        simp [tokens, ih2]
      | _ => simp only [List.cons_append] at ih ⊢; simp [tokens] at ih ⊢; exact ih
    | _ => simp only [List.cons_append] at ih ⊢; simp [tokens] at ih ⊢; exact ih

theorem unescape_of_parts (s : Bytes) : unescapeLiteral s = unescape s := by
  unfold unescapeLiteral
  induction s using unescape.induct with
  | case1 s ih => rw [strReplace, if_pos (by simp), unescape, ← ih]; simp
  | case2 c s hn ih =>
    rw [strReplace, if_neg, unescape, ih]
    · exact hn
    · rintro ⟨_, h⟩
      rw [List.isPrefixOf_iff_prefix] at h
      obtain ⟨t, ht⟩ := h
      simp at ht
      exact hn t ht.1.symm ht.2.symm
  | case3 => simp [strReplace, unescape]

theorem flattenVec_eq {α : Type} (vs : List (List α)) : flattenVec vs = vs.flatten := by
  have h1 : ∀ (v acc : List α), v.foldl (fun flat i => flat ++ [i]) acc = acc ++ v := by
    intro v
    induction v with
    | nil => simp
    | cons x t ih => intro acc; simp [ih]
  have h2 : ∀ (vs : List (List α)) (acc : List α), vs.foldl (fun flat v => v.foldl (fun flat i => flat ++ [i]) flat) acc = acc ++ vs.flatten := by
    intro vs
    induction vs with
    | nil => simp
    | cons x t ih => intro acc; rw [List.foldl_cons, h1, ih]; simp
  have := h2 vs []
  rw [List.nil_append] at this; exact this

/-! ### Pieces -/

/-- The text up to position `q` can be completed to a pattern string. -/
def Viable (inp : Bytes) (q : Nat) : Prop := (∃ r, At inp q r) ∧ ∃ z es, es ≠ [] ∧ Written es (inp.take q ++ z)

/-- The text up to position `q` can be completed to a pattern string, going on with the entry `m` unless that is unreliable. -/
def ViableWith (inp : Bytes) (q : Nat) (m : Bytes) : Prop :=
  (∃ r, At inp q r) ∧ ∃ z es, (Begins m z ∨ Unreliable (inp.take q) m) ∧ es ≠ [] ∧ Written es (inp.take q ++ z)

theorem noBegin_snoc {x : Bytes} (h : NoBegin x) : NoBegin (x ++ b!"a") := by
  rintro ⟨s, t, e⟩
  apply h
  rcases list_snoc_cases t with rfl | ⟨t', c, rfl⟩
  · exfalso
    have : s ++ b!"%{" = (s ++ b!"%") ++ b!"{" := by simp
    rw [List.append_nil, this] at e
    have := (List.append_inj' e rfl).2
    simp at this
  · refine ⟨s, t', ?_⟩
    rw [← List.append_assoc] at e
    exact (List.append_inj' e rfl).1

theorem written_extend {es : List Elem} {a : Bytes} (h : Written es a) (he : endsLiteral es = true) :
    ∃ es', es' ≠ [] ∧ Written es' (a ++ b!"a") ∧ startsLiteral es' = startsLiteral es := by
  induction h with
  | nil => simp [endsLiteral] at he
  | cons e t w s hw ht hl ih =>
    by_cases hn : t = []
    · subst hn
      cases ht
      cases e with
      | literal raw =>
        have hr : w = raw ∧ NoBegin w := by cases hw with | literal _ _ h2 => exact ⟨rfl, h2⟩
        refine ⟨[.literal (w ++ b!"a")], by simp, ?_, rfl⟩
        rw [List.append_nil]
        exact written_one (.literal _ (by simp) (noBegin_snoc hr.2))
      | _ => simp [endsLiteral] at he
    · have he' : endsLiteral t = true := by
        simpa [endsLiteral, List.getLast?_cons, List.getLast?_eq_some_getLast hn] using he
      obtain ⟨es', h1, h2, h3⟩ := ih he'
      refine ⟨e :: es', by simp, ?_, rfl⟩
      rw [List.append_assoc]
      exact Written.cons e es' w _ hw h2 (by rw [h3]; exact hl)

/-- Text without a parser can be followed by a character. -/
theorem lit_char {es : List Elem} {a x : Bytes} (h : Written es a) (hx : NoBegin x) (hc : x = [] ∨ endsLiteral es = false) :
    ∃ es', es' ≠ [] ∧ Written es' (a ++ (x ++ b!"a")) := by
  cases he : endsLiteral es with
  | false =>
    exact ⟨es ++ [.literal (x ++ b!"a")], by simp, written_append h (written_one (.literal _ (by simp) (noBegin_snoc hx))) (by simp [he])⟩
  | true =>
    rcases hc with rfl | hc
    · obtain ⟨es', h1, h2, _⟩ := written_extend h he
      exact ⟨es', h1, by simpa using h2⟩
    · rw [hc] at he; simp at he

/-- Text without a parser can be followed by a parser. -/
theorem lit_begin {es : List Elem} {a x : Bytes} (h : Written es a) (hx : NoBegin x) (hc : x = [] ∨ endsLiteral es = false) :
    ∃ es', es' ≠ [] ∧ Written es' (a ++ (x ++ b!"%{INT}")) := by
  have hi : Written [.int [] none] b!"%{INT}" := written_one (by simpa using ElemText.int [] none [] [] .absent .none)
  by_cases he : x = []
  · subst he
    exact ⟨es ++ [.int [] none], by simp, written_append h hi (fun _ => rfl)⟩
  · have hf : endsLiteral es = false := by
      rcases hc with hc | hc
      · exact absurd hc he
      · exact hc
    refine ⟨(es ++ [.literal x]) ++ [.int [] none], by simp, ?_⟩
    rw [← List.append_assoc]
    exact written_append (written_append h (written_one (.literal x he hx)) (by simp [hf])) hi (fun _ => rfl)

/-- What one piece of the pattern stands for. -/
def Piece (es : List Elem) (w : Bytes) (ts : List Token) (r : Bytes) : Prop :=
  es ≠ [] ∧ w ≠ [] ∧ Written es w ∧ tokens es = ts ∧ (takesLiteral es = true → Stop r)

theorem stop_not {w r : Bytes} (h : Stop (w ++ r)) (hw : w ≠ []) (hn : ¬ b!"%{" <+: w ++ r) : False := by
  rcases h with h | h
  · simp at h; exact hw h.1
  · exact hn h

theorem elemText_ne {e : Elem} {w : Bytes} (h : ElemText e w) : w ≠ [] := by
  cases h <;> simp_all

theorem parsePatternPiece_sat {es0 : List Elem} (h : At inp p rest) (h0 : Written es0 (inp.take p)) (hs : takesLiteral es0 = true → Stop rest) :
    Sat (ViableWith inp) parsePatternPiece inp p rest (fun w v r => ∃ es, Piece es w v r ∧ (takesLiteral es0 = true → startsLiteral es = false)) True
      (∃ r, rest = b!"%{" ++ r ∧ ParserOverflow r) := by
  have hat : ∀ {x r}, rest = x ++ r → Utf8 x → ∃ r, At inp (p + x.length) r := by
    rintro x r rfl hu; exact ⟨r, h.step hu⟩
  have htake : ∀ {x r}, rest = x ++ r → inp.take (p + x.length) = inp.take p ++ x := by
    rintro x r rfl; exact h.take_step
  have hp : VOn (ViableWith inp) p rest ParserElem := by
    rintro x r m z hx hu hb ⟨e, he, hl⟩
    refine ⟨hat hx hu, z, es0 ++ [e], ?_, by simp, ?_⟩
    · rw [htake hx]; exact hb.imp id unreliable_append
    rw [htake hx, List.append_assoc]
    exact written_append h0 (written_one he) (fun _ => by simp [startsLiteral, hl])
  have ends : takesLiteral es0 = false → endsLiteral es0 = false := by
    intro h1
    cases h2 : endsLiteral es0 with
    | false => rfl
    | true => rw [endsLiteral_takes h2] at h1; simp at h1
  refine orElse_sat (N1 := True) ?_ (fun _ => orElse_sat (N1 := True) ?_ (fun _ => ?_))
  · refine (parseParserGreedy_sat h hp ?_).mono ?_ id (False.elim)
    · rintro w r rfl hu ⟨e, he, hl⟩ x r' rfl hx hy
      have hat' : ∃ r, At inp (p + w.length + x.length) r := by
        simpa [Nat.add_assoc] using hat (x := w ++ x) (r := r') (by simp) (utf8_append hu hx)
      have hw := written_append h0 (written_one he) (fun _ => by simp [startsLiteral, hl])
      have hf : endsLiteral (es0 ++ [e]) = false := by cases e <;> simp_all [endsLiteral, Elem.isLiteral]
      have htk := htake (x := w ++ x) (r := r') (by simp)
      rw [List.length_append, ← Nat.add_assoc] at htk
      obtain ⟨es1, h1, h2⟩ := lit_begin hw hy (.inr hf)
      obtain ⟨es2, h3, h4⟩ := lit_char hw hy (.inr hf)
      exact ⟨⟨hat', b!"%{INT}", es1, .inl (.text b!"%{" b!"INT}" (by decide)), h1, by rw [htk]; simpa using h2⟩,
        ⟨hat', b!"a", es2, .inl (.character 97 []), h3, by rw [htk]; simpa using h4⟩⟩
    · rintro w v r _ _ ⟨n, y, hn, ⟨rfl, h1, rfl⟩ | ⟨e, h1, h2, h3, rfl, rfl⟩⟩
      · have he : ElemText (.greedy n) (b!"%{" ++ (b!"GREEDY" ++ (y ++ b!"}"))) := by simpa using ElemText.greedy n y hn
        exact ⟨[.greedy n], ⟨by simp, by simp, written_one he, rfl, fun _ => h1⟩, fun _ => rfl⟩
      · have he : ElemText (.greedy n) (b!"%{" ++ (b!"GREEDY" ++ (y ++ b!"}"))) := by simpa using ElemText.greedy n y hn
        refine ⟨[.greedy n, .literal e], ⟨by simp, by simp, ?_, rfl, fun _ => h3⟩, fun _ => rfl⟩
        have := written_append (written_one he) (written_one (.literal e h1 h2)) (by simp [endsLiteral])
        simpa using this
  · refine (parsePieceLiteral_sat h ?_).mono ?_ (fun _ => trivial) (False.elim)
    · rintro hn x r rfl hu hy
      have hc : x = [] ∨ endsLiteral es0 = false := by
        cases ht : takesLiteral es0 with
        | true =>
          rcases hs ht with h1 | h1
          · simp at h1; exact .inl h1.1
          · exact absurd h1 hn
        | false => exact .inr (ends ht)
      obtain ⟨es1, h1, h2⟩ := lit_begin h0 hy hc
      obtain ⟨es2, h3, h4⟩ := lit_char h0 hy hc
      exact ⟨⟨hat rfl hu, b!"%{INT}", es1, .inl (.text b!"%{" b!"INT}" (by decide)), h1, by rw [htake rfl]; simpa using h2⟩,
        ⟨hat rfl hu, b!"a", es2, .inl (.character 97 []), h3, by rw [htake rfl]; simpa using h4⟩⟩
    · rintro w v r rfl _ ⟨h1, h2, h3, h4, rfl⟩
      refine ⟨[.literal w], ⟨by simp, h1, written_one (.literal w h1 h2), ?_, fun _ => h3⟩, ?_⟩
      · simp [tokens, unescape_of_parts]
      · intro ht
        exact (stop_not (hs ht) h1 h4).elim
  · refine (parsePieceParser_sat h hp).mono ?_ id id
    rintro w v r _ _ ⟨a, y, ha, rfl, rfl⟩
    obtain ⟨e, h1, h2, h3⟩ := parserText_elem ha
    refine ⟨[e], ⟨by simp, by simp, written_one h1, by rw [h3]; simp [tokens], ?_⟩, fun _ => by simp [startsLiteral, h2]⟩
    intro ht
    exfalso
    cases e with
    | literal raw => simp [Elem.isLiteral] at h2
    | greedy n => have := h3 [.literal b!"a"]; have h4 := h3 []; simp [tokens] at this h4; rw [← h4] at this; simp at this
    | int => simp [takesLiteral] at ht
    | set => simp [takesLiteral] at ht

theorem parsePattern_sat (hu : Utf8 inp) :
    Sat (ViableWith inp) parsePattern inp 0 inp (fun w v _ => ∃ es, es ≠ [] ∧ Written es w ∧ tokens es = v) True (Overflow inp) := by
  have h := At.start hu
  refine action_sat (L1 := fun w v _ => ∃ es, es ≠ [] ∧ Written es w ∧ tokens es = v.flatten) h ?_ ?_
  · refine (plus_sat (Inv := fun w0 vs r => ∃ es, Written es w0 ∧ tokens es = vs.flatten ∧ (takesLiteral es = true → Stop r) ∧ (vs ≠ [] → es ≠ []))
      (Done := fun _ _ _ => True) h ⟨[], .nil, rfl, by simp [takesLiteral], by simp⟩ ?_).mono ?_ (fun _ => trivial) id
    · rintro w0 vs r hr hu0 hat ⟨es0, i1, i2, i3, i4⟩
      have htake : inp.take (0 + w0.length) = w0 := by rw [hr]; simp
      refine (parsePatternPiece_sat hat (by rw [htake]; exact i1) i3).mono ?_ id ?_
      · rintro w v r' rfl _ ⟨es, ⟨j1, j2, j3, j4, j5⟩, j6⟩
        refine ⟨j2, es0 ++ es, ?_, ?_, ?_, by simp [j1]⟩
        · exact written_append i1 j3 (fun h1 => j6 (endsLiteral_takes h1))
        · rw [tokens_append j6, i2, j4]; simp
        · intro h1
          apply j5
          simpa [takesLiteral, List.getLast?_append, List.getLast?_eq_some_getLast j1] using h1
      · rintro ⟨r', rfl, ⟨s, rfl, hs⟩ | ⟨cs, c, s, h1, h2, h3, h4, rfl⟩⟩
        · rw [hr]; simpa using Overflow.int es0 w0 s i1 hs
        · rw [hr]; simpa using Overflow.set es0 w0 cs c s i1 h1 h2 h3 h4
    · rintro w vs r _ _ ⟨h1, ⟨es, i1, i2, i3, i4⟩, _⟩
      exact ⟨es, i4 h1, i1, i2⟩
  · rintro w v r _ _ ⟨es, h1, h2, h3⟩
    exact ⟨es, h1, h2, by rw [h3, flattenVec_eq]⟩

/-- Every entry of the `expected` set can be completed. -/
theorem compile_completable (hu : Utf8 inp) {e : ParseError} (h : compile inp = .ok (.error e)) : ∀ m ∈ e.expected, ViableWith inp e.offset m := by
  have := parsePattern_sat hu .new (by intro m hm; simp [PState.new] at hm)
  unfold compile at h
  split at this
  · rename_i q v st' heq
    rw [heq] at h
    simp only at h
    split at h
    · simp at h
    · simp at h
      rw [← h]; exact this.1
  · rename_i st' heq
    rw [heq] at h
    simp at h
    rw [← h]; exact this.1
  · rename_i e heq
    rw [heq] at h
    simp at h

theorem compile_viable (hu : Utf8 inp) {e : ParseError} (h : compile inp = .ok (.error e)) : Viable inp e.offset := by
  have hne := (compile_expected h).2
  cases he : e.expected with
  | nil => exact absurd he hne
  | cons m t =>
    obtain ⟨h1, z, es, _, h2⟩ := compile_completable hu h m (by rw [he]; simp)
    exact ⟨h1, z, es, h2⟩

/-- Every outcome of compiling. -/
theorem compile_sound (hu : Utf8 inp) :
    (∃ toks, compile inp = .ok (.ok toks) ∧ PatternString inp toks) ∨
    (∃ e, compile inp = .ok (.error e) ∧ Viable inp e.offset ∧ (e.line, e.column) = posToLine inp e.offset) ∨
    (compile inp = .error .unwrap ∧ Overflow inp) := by
  have hv := fun e => compile_viable (inp := inp) (e := e) hu
  have := parsePattern_sat hu .new (by intro m hm; simp [PState.new] at hm)
  unfold compile at hv ⊢
  split at this
  · rename_i q v st' heq
    obtain ⟨h1, h2, w, r, h3, h4, h5, h6⟩ := this
    rw [heq]
    simp only
    by_cases hq : q = inp.length
    · left
      rw [if_pos hq]
      refine ⟨v, rfl, ?_⟩
      have : w = inp := by
        have hl : r = [] := List.eq_nil_of_length_eq_zero (by have := congrArg List.length h3; simp at this; omega)
        rw [h3, hl]; simp
      rw [this] at h6; exact h6
    · right; left
      rw [if_neg hq]
      exact ⟨_, rfl, hv _ (by rw [heq]; simp only; rw [if_neg hq]), rfl⟩
  · rename_i st' heq
    right; left
    rw [heq]
    exact ⟨_, rfl, hv _ (by rw [heq]), rfl⟩
  · rename_i e heq
    right; right
    rw [heq]
    obtain ⟨rfl, h⟩ := this
    exact ⟨rfl, h⟩

end Verif
