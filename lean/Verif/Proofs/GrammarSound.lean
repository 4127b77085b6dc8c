import Verif.Proofs.GrammarRules
/-! Every outcome of the rules for options, parsers and pieces. -/
namespace Verif
open Spec

variable {V : Nat → Bytes → Prop} {inp rest : Bytes} {p : Nat}

/-- how an option is handed to the factory -/
def ofOpt : LenOpt → OptionalParameter
  | .min n => ⟨b!"min_len", n⟩
  | .max n => ⟨b!"max_len", n⟩

theorem number_zero : Number b!"0" 0 := .one 48 (by simp [Digit])

theorem optText_ascii {o : LenOpt} {w : Bytes} (h : OptText o w) : Ascii w := by
  cases h with
  | min d n h _ => exact ascii_append.mpr ⟨by decide, number_ascii h⟩
  | max d n h _ => exact ascii_append.mpr ⟨by decide, number_ascii h⟩

theorem optTail_ascii {os : List LenOpt} {w : Bytes} (h : OptTail os w) : Ascii w := by
  induction h with
  | nil => exact ascii_nil
  | cons o os c w t hc hw _ ih => exact ascii_append.mpr ⟨ascii_append.mpr ⟨comma_ascii hc, optText_ascii hw⟩, ih⟩

theorem optList_ascii {os : List LenOpt} {w : Bytes} (h : OptList os w) : Ascii w := by
  cases h with
  | nil => exact ascii_nil
  | cons o os w t hw ht => exact ascii_append.mpr ⟨optText_ascii hw, optTail_ascii ht⟩

theorem optTail_snoc {os : List LenOpt} {t c w : Bytes} {o : LenOpt} (h : OptTail os t) (hc : Comma c) (hw : OptText o w) :
    OptTail (os ++ [o]) (t ++ (c ++ w)) := by
  induction h with
  | nil => simpa using OptTail.cons o [] c w [] hc hw .nil
  | cons o' os' c' w' t' hc' hw' _ ih => simpa using OptTail.cons o' _ c' w' _ hc' hw' ih

/-- one of the two alternatives of `parse_parser_BASE_optional_param` -/
theorem baseOption_sat (h : At inp p rest) {kw : Bytes} (hk : Ascii kw) (hkw : kw ∈ expectedTexts) (f : Nat → LenOpt)
    (hf : ∀ d n, Number d n → n < 2 ^ 64 → OptText (f n) (kw ++ (b!"=" ++ d))) (hf2 : ∀ n, ofOpt (f n) = ⟨kw, n⟩)
    (hV : VOn V p rest (fun y => ∃ o, OptText o y)) :
    Sat V (Rule.action (Rule.seq ((sliceEq kw).action fun s _ => .ok s) fun name => (sliceEq b!"=").seq fun _ => parseInt.seq fun value =>
        fun _ state pos => .ok (some (pos, (name, value)), state)) fun _ p => .ok (OptionalParameter.mk p.1 p.2))
      inp p rest (fun w v _ => ∃ o, OptText o w ∧ v = ofOpt o) True
      (∃ d n t, rest = kw ++ (b!"=" ++ (d ++ t)) ∧ Number d n ∧ 2 ^ 64 ≤ n ∧ NoDigit t) := by
  refine action_sat (L1 := fun w v _ => ∃ d, Number d v.2 ∧ v.2 < 2 ^ 64 ∧ w = kw ++ (b!"=" ++ d) ∧ v.1 = kw) h ?_ ?_
  · refine seq_sat h ((keyword_sat h hk (hV.text hkw ⟨_, _, hf _ _ number_zero (by omega)⟩)).mono (fun _ _ _ _ _ h => h) id (False.elim))
      (fun _ => trivial) ?_
    rintro _ _ r rfl hu hat ⟨rfl, rfl⟩
    have hVa := hV.after hu
    refine seq_sat hat ((sliceEq_sat hat (by decide) (fun _ => hVa.text (by decide) ⟨_, _, hf _ _ number_zero (by omega)⟩)).mono (fun _ _ _ _ _ h => h)
      id (False.elim)) (fun _ => trivial) ?_
    rintro _ _ r1 rfl hu1 hat1 rfl
    have hVb := hVa.after hu1
    refine seq_sat hat1 ((parseInt_sat hat1 (hVb.mono ?_)).mono (fun _ _ _ _ _ h => h) id ?_) (fun _ => trivial) ?_
    · rintro y ⟨n, h1, h2⟩
      exact ⟨[], f n, by simpa using hf _ _ h1 h2⟩
    · rintro ⟨d, n, t, rfl, h1⟩
      exact ⟨d, n, t, by simp, h1⟩
    · rintro d n r2 rfl hu2 hat2 ⟨h1, h2⟩
      exact pure_sat _ ⟨d, h1, h2, by simp, rfl⟩
  · rintro w ⟨k, n⟩ r _ _ ⟨d, h1, h2, rfl, rfl⟩
    exact ⟨f n, hf _ _ h1 h2, by rw [hf2]⟩

theorem parseBaseOptionalParam_sat (h : At inp p rest) (hV : VOn V p rest (fun y => ∃ o, OptText o y)) :
    Sat V parseBaseOptionalParam inp p rest (fun w v _ => ∃ o, OptText o w ∧ v = ofOpt o) True (OverflowOpt rest) := by
  refine orElse_sat (N1 := True) ?_ ?_
  · refine (baseOption_sat h (kw := b!"min_len") (by decide) (by decide) .min (fun d n h1 h2 => .min d n h1 h2) (fun _ => rfl) hV).mono
      (fun _ _ _ _ _ h => h) id ?_
    rintro ⟨d, n, t, rfl, h1, h2, h3⟩
    exact ⟨d, n, t, h1, h2, h3, .inl (by simp)⟩
  · intro _
    refine (baseOption_sat h (kw := b!"max_len") (by decide) (by decide) .max (fun d n h1 h2 => .max d n h1 h2) (fun _ => rfl) hV).mono
      (fun _ _ _ _ _ h => h) id ?_
    rintro ⟨d, n, t, rfl, h1, h2, h3⟩
    exact ⟨d, n, t, h1, h2, h3, .inr (by simp)⟩

theorem sepBy_eq {α β : Type} (step : Rule α) (sep : Rule β) : step.sepBy sep =
    (step.seq fun v => ((sep.seq fun _ => step).star).seq fun vs => fun _ st pos => .ok (some (pos, v :: vs), st)).orElse
      (fun _ st pos => .ok (some (pos, []), st)) := by
  funext inp st p
  unfold Rule.sepBy
  generalize (sep.seq fun _ => step) = t
  unfold Rule.orElse Rule.star
  simp only [Rule.seq]
  cases step inp st p with
  | error e => rfl
  | ok r =>
    obtain ⟨r, st1⟩ := r
    cases r with
    | none => rfl
    | some x =>
      obtain ⟨q, v⟩ := x
      simp only
      cases t.loop inp st1 q with
      | error e => rfl
      | ok r => rfl

theorem optionList_sat (h : At inp p rest) (hV : VOn V p rest (fun y => ∃ os, OptList os y)) :
    Sat V (parseBaseOptionalParam.sepBy parseComma) inp p rest (fun w v _ => ∃ os, OptList os w ∧ v = os.map ofOpt) False (OverflowList rest) := by
  rw [sepBy_eq]
  refine orElse_sat (N1 := True) ?_ (fun _ => pure_sat _ ⟨[], .nil, rfl⟩)
  refine seq_sat h ((parseBaseOptionalParam_sat h (hV.mono ?_)).mono (fun _ _ _ _ _ h => h) id (.first _)) (fun _ => trivial) ?_
  · rintro y ⟨o, ho⟩
    exact ⟨[], [o], by simpa using OptList.cons o [] y [] ho .nil⟩
  rintro w _ r rfl hu hat ⟨o, ho, rfl⟩
  have hVa := hV.after hu
  refine seq_sat hat (N1 := False) (star_sat (Inv := fun w0 vs _ => ∃ os, OptTail os w0 ∧ vs = os.map ofOpt) (Done := fun _ _ _ => True) hat
    ⟨[], .nil, rfl⟩ ?_) (False.elim) ?_
  · rintro w0 vs0 r1 rfl hu1 hat1 ⟨os, hos, rfl⟩
    have hVb := hVa.after hu1
    refine seq_sat hat1 ((parseComma_sat hat1 (hVb.mono ?_)).mono (fun _ _ _ _ _ h => h) id (False.elim)) (fun _ => trivial) ?_
    · intro c hc
      exact ⟨b!"min_len=0", o :: (os ++ [.min 0]), by
        simpa using OptList.cons o _ w _ ho (optTail_snoc hos hc (.min _ _ number_zero (by omega)))⟩
    rintro c _ r2 rfl hu2 hat2 hc
    have hVc := hVb.after hu2
    refine (parseBaseOptionalParam_sat hat2 (hVc.mono ?_)).mono ?_ (fun _ => trivial) ?_
    · rintro y ⟨o', ho'⟩
      exact ⟨[], o :: (os ++ [o']), by simpa using OptList.cons o _ w _ ho (optTail_snoc hos hc ho')⟩
    · rintro w2 _ r3 rfl _ ⟨o', ho', rfl⟩
      refine ⟨?_, os ++ [o'], optTail_snoc hos hc ho', by simp⟩
      obtain ⟨k, rfl⟩ := hc
      simp
    · intro ho'
      simpa using OverflowList.later o os w w0 c r2 ho hos hc ho'
  · rintro w0 _ r1 rfl hu1 hat1 ⟨⟨os, hos, rfl⟩, _⟩
    exact pure_sat _ ⟨o :: os, by simpa using OptList.cons o os w w0 ho hos, by simp⟩

theorem parseSetOptionalParams_sat (h : At inp p rest) (hV : VOn V p rest (fun y => ∃ os, SetOpts os y)) :
    Sat V parseSetOptionalParams.opt inp p rest
      (fun w v _ => ∃ os, SetOpts os w ∧ ((v = none ∧ os = []) ∨ v = some (os.map ofOpt))) False
      (∃ c s, rest = c ++ s ∧ Comma c ∧ OverflowList s) := by
  refine (opt_sat (L := fun w v _ => ∃ os, (∃ c t, w = c ++ t ∧ Comma c ∧ OptList os t) ∧ v = os.map ofOpt) (N := True) ?_).mono ?_ id id
  · refine action_sat (L1 := fun w v _ => ∃ os, (∃ c t, w = c ++ t ∧ Comma c ∧ OptList os t) ∧ v = os.map ofOpt) h ?_ (by intro w v r _ _ h; exact h)
    refine seq_sat h ((parseComma_sat h (hV.mono ?_)).mono (fun _ _ _ _ _ h => h) id (False.elim)) (fun _ => trivial) ?_
    · intro c hc
      exact ⟨[], [], by simpa using SetOpts.present [] c [] hc .nil⟩
    rintro c _ r rfl hu hat hc
    refine (optionList_sat hat ((hV.after hu).mono ?_)).mono ?_ (False.elim) ?_
    · rintro t ⟨os, ht⟩
      exact ⟨[], os, by simpa using SetOpts.present os c t hc ht⟩
    · rintro t _ r' rfl _ ⟨os, hos, rfl⟩
      exact ⟨os, ⟨c, t, rfl, hc, hos⟩, rfl⟩
    · intro ho
      exact ⟨c, r, rfl, hc, ho⟩
  · rintro w v r _ _ (⟨rfl, rfl, _⟩ | ⟨u, rfl, os, ⟨c, t, rfl, hc, ht⟩, rfl⟩)
    · exact ⟨[], .absent, .inl ⟨rfl, rfl⟩⟩
    · exact ⟨os, .present os c t hc ht, .inr rfl⟩

theorem parseIntOptionalParams_sat (h : At inp p rest) (hV : VOn V p rest (fun y => ∃ os, IntOpts os y)) :
    Sat V parseIntOptionalParams.opt inp p rest
      (fun w v _ => ∃ os, IntOpts os w ∧ ((v = none ∧ os = []) ∨ v = some (os.map ofOpt))) False
      (∃ s, rest = b!"(" ++ s ∧ OverflowList s) := by
  have hV0 : V p b!"(" := hV.text (by decide) ⟨b!")", [], by simpa using IntOpts.present [] [] .nil⟩
  refine (opt_sat (L := fun w v _ => ∃ os t, OptList os t ∧ w = b!"(" ++ (t ++ b!")") ∧ v = os.map ofOpt) (N := True) ?_).mono ?_ id id
  · refine action_sat (L1 := fun w v _ => ∃ os t, OptList os t ∧ w = b!"(" ++ (t ++ b!")") ∧ v = os.map ofOpt) h ?_ (by intro w v r _ _ h; exact h)
    refine seq_sat h ((sliceEq_sat h (by decide) (fun _ => hV0)).mono (fun _ _ _ _ _ h => h) id (False.elim)) (fun _ => trivial) ?_
    rintro _ _ r rfl hu hat rfl
    have hVa := hV.after hu
    refine seq_sat hat ((optionList_sat hat (hVa.mono ?_)).mono (fun _ _ _ _ _ h => h) id ?_) (False.elim) ?_
    · rintro t ⟨os, ht⟩
      exact ⟨b!")", os, by simpa using IntOpts.present os t ht⟩
    · intro ho; exact ⟨r, rfl, ho⟩
    rintro t _ r1 rfl hu1 hat1 ⟨os, hos, rfl⟩
    refine seq_sat hat1 ((sliceEq_sat hat1 (by decide) ?_).mono (fun _ _ _ _ _ h => h) id (False.elim)) (fun _ => trivial) ?_
    · intro _
      exact (hVa.after hu1).text (by decide) ⟨[], os, by simpa using IntOpts.present os t hos⟩
    rintro _ _ r2 rfl hu2 hat2 rfl
    exact pure_sat _ ⟨os, t, hos, by simp, rfl⟩
  · rintro w v r _ _ (⟨rfl, rfl, _⟩ | ⟨u, rfl, os, t, ht, rfl, rfl⟩)
    · exact ⟨[], .absent, .inl ⟨rfl, rfl⟩⟩
    · exact ⟨os, by simpa using IntOpts.present os t ht, .inr rfl⟩

/-! ### The factory -/

theorem findSome_none_or {α : Type} (o o' : Option α) : (o.or o') = match o with | some x => some x | none => o' := by
  cases o <;> rfl

theorem setOptionalParams_map (os : List LenOpt) (q : SetParser) :
    (os.map ofOpt).foldl setOptionalParam q = { q with minLength := (lastMin os).or q.minLength, maxLength := (lastMax os).or q.maxLength } := by
  induction os generalizing q with
  | nil => rfl
  | cons o os ih =>
    simp only [List.map_cons, List.foldl_cons, ih]
    cases o with
    | min n =>
      have h1 : lastMin (.min n :: os) = (lastMin os).or (some n) := by simp [lastMin, List.findSome?_append]
      have h2 : lastMax (.min n :: os) = lastMax os := by simp [lastMax, List.findSome?_append]
      rw [h1, h2]
      simp only [ofOpt, setOptionalParam, if_true, Option.or_assoc, Option.some_or]
    | max n =>
      have h1 : lastMax (.max n :: os) = (lastMax os).or (some n) := by simp [lastMax, List.findSome?_append]
      have h2 : lastMin (.max n :: os) = lastMin os := by simp [lastMin, List.findSome?_append]
      rw [h1, h2]
      have h3 : ¬ (b!"max_len" = b!"min_len") := by decide
      simp only [ofOpt, setOptionalParam, if_neg h3, if_true, Option.or_assoc, Option.some_or]

theorem newSet_eq (cs : Bytes) (n : Option Bytes) (os : List LenOpt) (v : Option (List OptionalParameter))
    (hv : (v = none ∧ os = []) ∨ v = some (os.map ofOpt)) : newSet cs n v = setParser cs os n := by
  have : setOptionalParams (SetParser.new none cs) v = { SetParser.new none cs with minLength := lastMin os, maxLength := lastMax os } := by
    rcases hv with ⟨rfl, rfl⟩ | rfl
    · rfl
    · rw [setOptionalParams, setOptionalParams_map]
      simp [SetParser.new]
  rw [newSet, this]; rfl

theorem newInt_eq (n : Option Bytes) (os : List LenOpt) (v : Option (List OptionalParameter))
    (hv : (v = none ∧ os = []) ∨ v = some (os.map ofOpt)) : newInt n v = intParser os n := by
  have : setOptionalParams (intDelegate none) v = { intDelegate none with minLength := lastMin os, maxLength := lastMax os } := by
    rcases hv with ⟨rfl, rfl⟩ | rfl
    · rfl
    · rw [setOptionalParams, setOptionalParams_map]
      simp [intDelegate, SetParser.new]
  rw [newInt, this]
  have h2 : SetParser.createSetFromStr intDigits = b!"0123456789" := by decide
  simp [Parser.setName, intParser, intDelegate, SetParser.new, h2]

/-! ### Parsers -/

/-- the text of a `SET` without the braces -/
def SetText (cs : Bytes) (os : List LenOpt) (n : Option Bytes) (y : Bytes) : Prop :=
  cs ≠ [] ∧ 34 ∉ cs ∧ ∃ w x, SetOpts os w ∧ NameText n x ∧ y = b!"SET" ++ (b!"(" ++ (b!"\"" ++ (cs ++ (b!"\"" ++ (w ++ (b!")" ++ x))))))

/-- the text of an `INT` without the braces -/
def IntText (os : List LenOpt) (n : Option Bytes) (y : Bytes) : Prop :=
  ∃ w x, IntOpts os w ∧ NameText n x ∧ y = b!"INT" ++ (w ++ x)

/-- the text of a `SET` or `INT` without the braces -/
def ParserText (a : Parser) (y : Bytes) : Prop :=
  (∃ cs os n, SetText cs os n y ∧ a = setParser cs os n) ∨ ∃ os n, IntText os n y ∧ a = intParser os n

/-- the text starts a `SET` or `INT` with an overflowing option -/
def ParserOverflow (rest : Bytes) : Prop :=
  (∃ s, rest = b!"INT(" ++ s ∧ OverflowList s) ∨
  ∃ cs c s, cs ≠ [] ∧ 34 ∉ cs ∧ Comma c ∧ OverflowList s ∧ rest = b!"SET(\"" ++ cs ++ b!"\"" ++ c ++ s

theorem parseParserSet_sat (h : At inp p rest) (hV : VOn V p rest (fun y => ∃ a, ParserText a y)) :
    Sat V parseParserSet inp p rest (fun w v _ => ParserText v w) True (ParserOverflow rest) := by
  have hset : ∀ {cs os n w x}, cs ≠ [] → 34 ∉ cs → SetOpts os w → NameText n x →
      ParserText (setParser cs os n) (b!"SET" ++ (b!"(" ++ (b!"\"" ++ (cs ++ (b!"\"" ++ (w ++ (b!")" ++ x))))))) :=
    fun h1 h2 h3 h4 => .inl ⟨_, _, _, ⟨h1, h2, _, _, h3, h4, rfl⟩, rfl⟩
  have hstr : ∀ y, (∃ v, Quoted v y) → ∃ a, ParserText a (b!"SET" ++ (b!"(" ++ (y ++ b!")"))) := by
    rintro y ⟨v, h1, h2, rfl⟩
    exact ⟨_, by simpa using hset h1 h2 .absent .none⟩
  have hq : ∃ v, Quoted v b!"\"a\"" := ⟨b!"a", by simp, by decide, rfl⟩
  refine action_sat (L1 := fun w v _ => ∃ os, SetText v.1 os v.2.2 w ∧ ((v.2.1 = none ∧ os = []) ∨ v.2.1 = some (os.map ofOpt))) h ?_ ?_
  · refine seq_sat h ((keyword_sat h (by decide) (hV.text (by decide) ⟨_, hstr _ hq⟩)).mono (fun _ _ _ _ _ h => h) id (False.elim)) (fun _ => trivial) ?_
    rintro _ _ r rfl hu hat ⟨rfl, rfl⟩
    have hVa := hV.after hu
    refine seq_sat hat ((sliceEq_sat hat (by decide) (fun _ => hVa.text (by decide) ⟨_, hstr _ hq⟩)).mono (fun _ _ _ _ _ h => h) id (False.elim))
      (fun _ => trivial) ?_
    rintro _ _ r1 rfl hu1 hat1 rfl
    have hVb := hVa.after hu1
    refine seq_sat hat1 ((parseString_sat hat1 (hVb.mono ?_)).mono (fun _ _ _ _ _ h => h) id (False.elim)) (fun _ => trivial) ?_
    · intro y hy
      exact ⟨b!")", hstr y hy⟩
    rintro _ cs r2 rfl hu2 hat2 ⟨h1, h2, rfl⟩
    have hVc := hVb.after hu2
    refine seq_sat hat2 ((parseSetOptionalParams_sat hat2 (hVc.mono ?_)).mono (fun _ _ _ _ _ h => h) id ?_) (False.elim) ?_
    · rintro y ⟨os, hos⟩
      exact ⟨b!")", _, by simpa using hset h1 h2 hos .none⟩
    · rintro ⟨c, s, rfl, hc, hs⟩
      exact .inr ⟨cs, c, s, h1, h2, hc, hs, by simp⟩
    rintro w params r3 rfl hu3 hat3 ⟨os, hos, hparams⟩
    have hVd := hVc.after hu3
    refine seq_sat hat3 ((sliceEq_sat hat3 (by decide) ?_).mono (fun _ _ _ _ _ h => h) id (False.elim)) (fun _ => trivial) ?_
    · intro _
      exact hVd.text (by decide) ⟨[], _, by simpa using hset h1 h2 hos .none⟩
    rintro _ _ r4 rfl hu4 hat4 rfl
    have hVe := hVd.after hu4
    refine seq_sat hat4 ((parserNameOpt_sat hat4 (hVe.mono ?_)).mono (fun _ _ _ _ _ h => h) id (False.elim)) (False.elim) ?_
    · rintro y ⟨n, hn⟩
      exact ⟨[], _, by simpa using hset h1 h2 hos hn⟩
    rintro x n r5 rfl hu5 hat5 hn
    exact pure_sat _ ⟨os, ⟨h1, h2, w, x, hos, hn, by simp⟩, hparams⟩
  · rintro w ⟨cs, params, n⟩ r _ _ ⟨os, hs, hp⟩
    simp only
    rw [newSet_eq cs n os params hp]
    exact .inl ⟨cs, os, n, hs, rfl⟩

theorem parseParserInt_sat (h : At inp p rest) (hV : VOn V p rest (fun y => ∃ a, ParserText a y)) :
    Sat V parseParserInt inp p rest (fun w v _ => ParserText v w) True (ParserOverflow rest) := by
  have hint : ∀ {os n w x}, IntOpts os w → NameText n x → ParserText (intParser os n) (b!"INT" ++ (w ++ x)) :=
    fun h3 h4 => .inr ⟨_, _, ⟨_, _, h3, h4, rfl⟩, rfl⟩
  refine action_sat (L1 := fun w v _ => ∃ os, IntText os v.2 w ∧ ((v.1 = none ∧ os = []) ∨ v.1 = some (os.map ofOpt))) h ?_ ?_
  · refine seq_sat h ((keyword_sat h (by decide) (hV.text (by decide) ⟨_, _, hint .absent .none⟩)).mono (fun _ _ _ _ _ h => h) id (False.elim))
      (fun _ => trivial) ?_
    rintro _ _ r rfl hu hat ⟨rfl, rfl⟩
    have hVa := hV.after hu
    refine seq_sat hat ((parseIntOptionalParams_sat hat (hVa.mono ?_)).mono (fun _ _ _ _ _ h => h) id ?_) (False.elim) ?_
    · rintro y ⟨os, hos⟩
      exact ⟨[], _, by simpa using hint hos .none⟩
    · rintro ⟨s, rfl, hs⟩
      exact .inl ⟨s, by simp, hs⟩
    rintro w params r3 rfl hu3 hat3 ⟨os, hos, hparams⟩
    have hVd := hVa.after hu3
    refine seq_sat hat3 ((parserNameOpt_sat hat3 (hVd.mono ?_)).mono (fun _ _ _ _ _ h => h) id (False.elim)) (False.elim) ?_
    · rintro y ⟨n, hn⟩
      exact ⟨[], _, by simpa using hint hos hn⟩
    rintro x n r5 rfl hu5 hat5 hn
    exact pure_sat _ ⟨os, ⟨w, x, hos, hn, by simp⟩, hparams⟩
  · rintro w ⟨params, n⟩ r _ _ ⟨os, hs, hp⟩
    simp only
    rw [newInt_eq n os params hp]
    exact .inr ⟨os, n, hs, rfl⟩

theorem parseParser_sat (h : At inp p rest) (hV : VOn V p rest (fun y => ∃ a, ParserText a y)) :
    Sat V parseParser inp p rest (fun w v _ => ParserText v w) True (ParserOverflow rest) :=
  orElse_sat (parseParserSet_sat h hV) (fun _ => parseParserInt_sat h hV)

/-! ### Pieces -/

theorem parserText_int : ParserText (intParser [] none) b!"INT" := .inr ⟨[], none, ⟨[], [], .absent, .none, rfl⟩, rfl⟩

theorem parserText_elem {a : Parser} {y : Bytes} (h : ParserText a y) :
    ∃ e, ElemText e (b!"%{" ++ (y ++ b!"}")) ∧ e.isLiteral = false ∧ ∀ es, tokens (e :: es) = .parser a :: tokens es := by
  rcases h with ⟨cs, os, n, ⟨h1, h2, w, x, h3, h4, rfl⟩, rfl⟩ | ⟨os, n, ⟨w, x, h3, h4, rfl⟩, rfl⟩
  · exact ⟨.set cs os n, by simpa using ElemText.set cs os n w x h1 h2 h3 h4, rfl, fun es => by rw [tokens]⟩
  · exact ⟨.int os n, by simpa using ElemText.int os n w x h3 h4, rfl, fun es => by rw [tokens]⟩

/-- the language of parser pieces -/
def ParserElem (y : Bytes) : Prop := ∃ e, ElemText e y ∧ e.isLiteral = false

theorem parserElem_of {a : Parser} {y : Bytes} (h : ParserText a y) : ParserElem (b!"%{" ++ (y ++ b!"}")) := by
  obtain ⟨e, h1, h2, _⟩ := parserText_elem h
  exact ⟨e, h1, h2⟩

theorem greedyElem_of {n : Option Bytes} {y : Bytes} (h : NameText n y) : ParserElem (b!"%{" ++ (b!"GREEDY" ++ (y ++ b!"}"))) :=
  ⟨.greedy n, by simpa using ElemText.greedy n y h, rfl⟩

theorem parsePieceParser_sat (h : At inp p rest) (hV : VOn V p rest ParserElem) :
    Sat V parsePieceParser inp p rest (fun w v _ => ∃ a y, ParserText a y ∧ w = b!"%{" ++ (y ++ b!"}") ∧ v = [.parser a]) True
      (∃ r, rest = b!"%{" ++ r ∧ ParserOverflow r) := by
  refine action_sat (L1 := fun w v _ => ∃ y, ParserText v y ∧ w = b!"%{" ++ (y ++ b!"}")) h ?_
    (by rintro w a r _ _ ⟨y, h1, h2⟩; exact ⟨a, y, h1, h2, rfl⟩)
  refine seq_sat h ((sliceEq_sat h (by decide) (fun _ => hV.text (by decide) ⟨_, parserElem_of parserText_int⟩)).mono (fun _ _ _ _ _ h => h) id (False.elim))
    (fun _ => trivial) ?_
  rintro _ _ r rfl hu hat rfl
  have hVa := hV.after hu
  refine seq_sat hat ((parseParser_sat hat (hVa.mono ?_)).mono (fun _ _ _ _ _ h => h) id ?_) (fun _ => trivial) ?_
  · rintro y ⟨a, ha⟩
    exact ⟨b!"}", parserElem_of ha⟩
  · intro ho; exact ⟨r, rfl, ho⟩
  rintro y a r1 rfl hu1 hat1 ha
  refine seq_sat hat1 ((sliceEq_sat hat1 (by decide) ?_).mono (fun _ _ _ _ _ h => h) id (False.elim)) (fun _ => trivial) ?_
  · intro _
    exact (hVa.after hu1).text (by decide) ⟨[], by simpa using parserElem_of ha⟩
  rintro _ _ r2 rfl hu2 hat2 rfl
  exact pure_sat _ ⟨y, ha, by simp⟩

theorem parsePieceLiteral_sat (h : At inp p rest) (hV : ¬ b!"%{" <+: rest → LitOn V p rest) :
    Sat V parsePieceLiteral inp p rest (fun w v r => w ≠ [] ∧ NoBegin w ∧ Stop r ∧ ¬ b!"%{" <+: rest ∧ v = [.literal (unescapeLiteral w)])
      (Stop rest) False := by
  refine action_sat h (parseLiteral_sat h hV) ?_
  rintro w v r _ _ ⟨rfl, h1, h2, h3, h4⟩
  exact ⟨h1, h2, h3, h4, rfl⟩

theorem parseParserGreedy_sat (h : At inp p rest) (hV : VOn V p rest ParserElem)
    (hVl : ∀ w r, rest = w ++ r → Utf8 w → ParserElem w → LitOn V (p + w.length) r) :
    Sat V parseParserGreedy inp p rest
      (fun w v r => ∃ n y, NameText n y ∧
        ((w = b!"%{" ++ (b!"GREEDY" ++ (y ++ b!"}")) ∧ Stop r ∧ v = [.parser (.greedy { name := n, endString := none })]) ∨
        ∃ e, e ≠ [] ∧ NoBegin e ∧ Stop r ∧ w = b!"%{" ++ (b!"GREEDY" ++ (y ++ (b!"}" ++ e))) ∧
          v = [.parser (.greedy { name := n, endString := some e }), .literal e])) True False := by
  refine action_sat (L1 := fun w v r => ∃ y, NameText v.1 y ∧
        ((w = b!"%{" ++ (b!"GREEDY" ++ (y ++ b!"}")) ∧ Stop r ∧ v.2 = none) ∨
        ∃ e, e ≠ [] ∧ NoBegin e ∧ Stop r ∧ w = b!"%{" ++ (b!"GREEDY" ++ (y ++ (b!"}" ++ e))) ∧ v.2 = some e)) h ?_ ?_
  · refine seq_sat h ((sliceEq_sat h (by decide) (fun _ => hV.text (by decide) ⟨_, greedyElem_of .none⟩)).mono (fun _ _ _ _ _ h => h) id (False.elim))
      (fun _ => trivial) ?_
    rintro _ _ r rfl hu hat rfl
    have hVa := hV.after hu
    refine seq_sat hat ((keyword_sat hat (by decide) (hVa.text (by decide) ⟨_, greedyElem_of .none⟩)).mono (fun _ _ _ _ _ h => h) id (False.elim))
      (fun _ => trivial) ?_
    rintro _ _ r1 rfl hu1 hat1 ⟨rfl, rfl⟩
    have hVb := hVa.after hu1
    refine seq_sat hat1 ((parserNameOpt_sat hat1 (hVb.mono ?_)).mono (fun _ _ _ _ _ h => h) id (False.elim)) (False.elim) ?_
    · rintro y ⟨n, hn⟩
      exact ⟨b!"}", greedyElem_of hn⟩
    rintro y n r2 rfl hu2 hat2 hn
    have hVc := hVb.after hu2
    refine seq_sat hat2 ((sliceEq_sat hat2 (by decide) (fun _ => hVc.text (by decide) ⟨[], by simpa using greedyElem_of hn⟩)).mono (fun _ _ _ _ _ h => h) id (False.elim))
      (fun _ => trivial) ?_
    rintro _ _ r3 rfl hu3 hat3 rfl
    refine seq_sat hat3 (opt_sat (parseLiteral_sat hat3 ?_)) (False.elim) ?_
    · intro _
      have := hVl (b!"%{" ++ (b!"GREEDY" ++ (y ++ b!"}"))) r3 (by simp) (utf8_append hu (utf8_append hu1 (utf8_append hu2 hu3))) (greedyElem_of hn)
      have e1 : p + (b!"%{" ++ (b!"GREEDY" ++ (y ++ b!"}"))).length = p + b!"%{".length + b!"GREEDY".length + y.length + b!"}".length := by
        simp only [List.length_append]; omega
      rw [e1] at this; exact this
    rintro e e' r4 rfl hu4 hat4 (⟨rfl, rfl, hs⟩ | ⟨e', rfl, rfl, h1, h2, h3, h4⟩)
    · exact pure_sat _ ⟨y, hn, .inl ⟨by simp, by simpa using hs, rfl⟩⟩
    · exact pure_sat _ ⟨y, hn, .inr ⟨_, h1, h2, h3, by simp, rfl⟩⟩
  · rintro w ⟨n, e⟩ r _ _ ⟨y, hn, h1⟩
    refine ⟨n, y, hn, ?_⟩
    rcases h1 with ⟨rfl, h2, h3⟩ | ⟨e', h1, h2, h3, rfl, h4⟩
    · simp only at h3; subst h3
      exact .inl ⟨rfl, h2, rfl⟩
    · simp only at h4; subst h4
      exact .inr ⟨e', h1, h2, h3, rfl, rfl⟩

end Verif
