import Verif.Model.Display
import Verif.Props.C46_C48_Files
import Verif.Props.C67_C68_Expected
/-! C69–C72: from_json, the texts of errors, the pattern builder. -/
namespace Verif
open Spec

/-! ### C69: from_json -/

/-- C69: `from_json` returns exactly the patterns that JSON documents describe. -/
theorem C69_from_json (d : Deps) (doc : Bytes) (p : Pattern) :
    fromJson d doc = .ok (.ok p) ↔ ∃ v, d.json doc = .ok v ∧ IsPattern d v p := by
  unfold fromJson
  cases h : d.json doc with
  | error e => simp
  | ok v => simp [C47_pattern]

/-- C69: a text that is not JSON is an error, and the error is the one of the JSON library. -/
theorem C69_not_json (d : Deps) (doc : Bytes) (e : DeError) (h : d.json doc = .error e) : fromJson d doc = .ok (.error e) := by
  unfold fromJson; rw [h]

/-- C69: the errors of `from_json` are those of the JSON library, and otherwise tell the first thing that is wrong with the document. -/
theorem C69_error (d : Deps) (doc : Bytes) (e : DeError) :
    fromJson d doc = .ok (.error e) ↔ d.json doc = .error e ∨ ∃ v, d.json doc = .ok v ∧ PatternError d v e := by
  unfold fromJson
  cases h : d.json doc with
  | error e' => simp
  | ok v => simp [deserPattern_error]

/-- C69: `from_json` panics exactly if the text is a JSON document with nothing wrong in it but a pattern string that makes the compiler panic. -/
theorem C69_panic (d : Deps) (doc : Bytes) (e : Panic) :
    fromJson d doc = .error e ↔ ∃ v, d.json doc = .ok v ∧ PatternPanics d v e := by
  unfold fromJson
  cases hj : d.json doc with
  | error e => simp
  | ok v => simp [deserPattern_panic]

example : ∃ doc v, fromJson { Samples.deps with json := fun _ => .ok v } doc = .ok (.ok Samples.docPattern) :=
  ⟨b!"...", Samples.doc, by decide +kernel⟩
example : fromJson { Samples.deps with json := fun _ => .ok (.obj [(.str b!"pattern", .str b!"%{INT(min_len=18446744073709551616)}")]) } b!"..." =
    .error .unwrap := by decide +kernel

/-! ### C70: the text of a compilation error -/

theorem displayNat_number (n : Nat) : Number (displayNat n) n := by
  induction n using Nat.strongRecOn with
  | ind n ih =>
    rw [displayNat]
    have hd : ∀ k, k < 10 → (UInt8.ofNat (48 + k)).toNat = 48 + k := by
      intro k hk; simp; omega
    by_cases h : n < 10
    · rw [if_pos h]
      have := Number.one (UInt8.ofNat (48 + n)) (by unfold Digit; rw [hd n h]; omega)
      rw [hd n h] at this
      rwa [show 48 + n - 48 = n by omega] at this
    · rw [if_neg h]
      have := Number.snoc _ _ (UInt8.ofNat (48 + n % 10)) (ih (n / 10) (by omega)) (by unfold Digit; rw [hd _ (Nat.mod_lt _ (by omega))]; omega)
      rw [hd _ (Nat.mod_lt _ (by omega))] at this
      rwa [show 10 * (n / 10) + (48 + n % 10 - 48) = n by omega] at this

theorem split_at_sep {P : UInt8 → Prop} {sep sep' : UInt8} (hs : ¬ P sep) (hs' : ¬ P sep') : ∀ {a a' r r' : Bytes}, (∀ x ∈ a, P x) → (∀ x ∈ a', P x) →
    a ++ sep :: r = a' ++ sep' :: r' → a = a' ∧ sep = sep' ∧ r = r'
  | [], [], r, r', _, _, e => by simpa using e
  | [], x :: a', r, r', _, h', e => by
    simp at e; exact absurd (e.1 ▸ h' x (by simp)) hs
  | x :: a, [], r, r', h, _, e => by
    simp at e; exact absurd (e.1 ▸ h x (by simp)) hs'
  | x :: a, y :: a', r, r', h, h', e => by
    simp at e
    obtain ⟨rfl, e2⟩ := e
    obtain ⟨rfl, h2⟩ := split_at_sep hs hs' (fun z hz => h z (by simp [hz])) (fun z hz => h' z (by simp [hz])) e2
    exact ⟨rfl, h2⟩

theorem number_value {d : Bytes} {m n : Nat} (h : Number d m) (h' : Number d n) : m = n := by
  rw [← (number_spec h).2.2, ← (number_spec h').2.2]

theorem displayNat_split {m n : Nat} {c c' : UInt8} {r r' : Bytes} (hc : ¬ Digit c) (hc' : ¬ Digit c')
    (h : displayNat m ++ c :: r = displayNat n ++ c' :: r') : m = n ∧ r = r' := by
  have h1 := number_spec (displayNat_number m)
  have h2 := number_spec (displayNat_number n)
  obtain ⟨e, _, er⟩ := split_at_sep hc hc' h1.2.1 h2.2.1 h
  exact ⟨number_value (displayNat_number m) (e ▸ displayNat_number n), er⟩

theorem escape_no_backquote : ∀ m ∈ expectedTexts ++ expectedClasses, ∀ x ∈ escapeDefault m, x ≠ 96 := by decide

theorem escape_inj : ∀ m ∈ expectedTexts ++ expectedClasses, ∀ m' ∈ expectedTexts ++ expectedClasses, escapeDefault m = escapeDefault m' → m = m' := by
  decide

theorem escape_split {m m' r r' : Bytes} (hm : m ∈ expectedTexts ++ expectedClasses) (hm' : m' ∈ expectedTexts ++ expectedClasses)
    (h : escapeDefault m ++ 96 :: r = escapeDefault m' ++ 96 :: r') : m = m' ∧ r = r' := by
  obtain ⟨e, _, er⟩ := split_at_sep (P := (· ≠ 96)) (by simp) (by simp) (escape_no_backquote m hm) (escape_no_backquote m' hm') h
  exact ⟨escape_inj m hm m' hm' e, er⟩

/-- the further entries -/
def moreEntries (l : List Bytes) : Bytes := l.flatMap fun elem => b!", `" ++ escapeDefault elem ++ b!"`"

theorem more_inj : ∀ {l l' : List Bytes}, (∀ m ∈ l, m ∈ expectedTexts ++ expectedClasses) → (∀ m ∈ l', m ∈ expectedTexts ++ expectedClasses) →
    moreEntries l = moreEntries l' → l = l'
  | [], [], _, _, _ => rfl
  | [], m :: l', _, _, e => by simp [moreEntries] at e
  | m :: l, [], _, _, e => by simp [moreEntries] at e
  | m :: l, m' :: l', h, h', e => by
    have e2 : escapeDefault m ++ 96 :: moreEntries l = escapeDefault m' ++ 96 :: moreEntries l' := by
      simpa [moreEntries, List.flatMap_cons, List.append_assoc] using e
    obtain ⟨rfl, e3⟩ := escape_split (h m (by simp)) (h' m' (by simp)) e2
    rw [more_inj (fun x hx => h x (by simp [hx])) (fun x hx => h' x (by simp [hx])) e3]

/-- `text` is a text that a compilation error may be displayed as; the entries of `expected` may come in any order. -/
def DisplayedAs (e : ParseError) (text : Bytes) : Prop := ∃ order, order.Perm e.expected ∧ text = e.displayWith order

/-- C70: the text of a compilation error never speaks of the end of the input, but names at least one entry. -/
theorem C70_never_eof (s : Bytes) (e : ParseError) (h : compile s = .ok (.error e)) (text : Bytes) (ht : DisplayedAs e text) :
    ∃ m ∈ e.expected, b!"`" ++ escapeDefault m ++ b!"`" <:+: text := by
  obtain ⟨order, hp, rfl⟩ := ht
  have hne := (C67_expected_absent s e h).1
  cases order with
  | nil => exact absurd (List.perm_nil.mp hp.symm) hne
  | cons m rest =>
    refine ⟨m, hp.subset (by simp), ?_⟩
    unfold ParseError.displayWith
    cases rest with
    | nil =>
      exact ⟨b!"error at " ++ displayNat e.line ++ b!":" ++ displayNat e.column ++ b!": expected ", [], by simp⟩
    | cons y rest =>
      exact ⟨b!"error at " ++ displayNat e.line ++ b!":" ++ displayNat e.column ++ b!": expected " ++ b!"one of ",
        moreEntries (y :: rest), by simp [List.append_assoc, moreEntries]⟩

/-- C70: two compilation errors that are displayed as the same text have the same line, the same column and the same expected entries. -/
theorem C70_text_determines (s s' : Bytes) (e e' : ParseError) (h : compile s = .ok (.error e)) (h' : compile s' = .ok (.error e'))
    (text : Bytes) (ht : DisplayedAs e text) (ht' : DisplayedAs e' text) :
    e.line = e'.line ∧ e.column = e'.column ∧ e.expected.Perm e'.expected := by
  obtain ⟨o, hp, rfl⟩ := ht
  obtain ⟨o', hp', ht'⟩ := ht'
  have hk : ∀ m ∈ o, m ∈ expectedTexts ++ expectedClasses := fun m hm =>
    List.mem_append.mpr ((C67_expected_absent s e h).2.2 m (hp.subset hm)).1
  have hk' : ∀ m ∈ o', m ∈ expectedTexts ++ expectedClasses := fun m hm =>
    List.mem_append.mpr ((C67_expected_absent s' e' h').2.2 m (hp'.subset hm)).1
  have hne := (C67_expected_absent s e h).1
  have hne' := (C67_expected_absent s' e' h').1
  unfold ParseError.displayWith at ht'
  simp only [List.append_assoc] at ht'
  have ht' := List.append_cancel_left ht'
  obtain ⟨hl, ht'⟩ := displayNat_split (by unfold Digit; decide) (by unfold Digit; decide) (show displayNat e.line ++ 58 :: _ = displayNat e'.line ++ 58 :: _ from ht')
  obtain ⟨hc, ht'⟩ := displayNat_split (by unfold Digit; decide) (by unfold Digit; decide) (show displayNat e.column ++ 58 :: _ = displayNat e'.column ++ 58 :: _ from ht')
  refine ⟨hl, hc, ?_⟩
  have ho : o = o' := by
    cases o with
    | nil => exact absurd (List.perm_nil.mp hp.symm) hne
    | cons m r =>
    cases o' with
    | nil => exact absurd (List.perm_nil.mp hp'.symm) hne'
    | cons m' r' =>
      cases r with
      | nil =>
        cases r' with
        | nil =>
          have : escapeDefault m ++ 96 :: [] = escapeDefault m' ++ 96 :: [] := by simpa using ht'
          rw [(escape_split (hk m (by simp)) (hk' m' (by simp)) this).1]
        | cons y r' => simp at ht'
      | cons x r =>
        cases r' with
        | nil => simp at ht'
        | cons y r' =>
          have : escapeDefault m ++ 96 :: moreEntries (x :: r) = escapeDefault m' ++ 96 :: moreEntries (y :: r') := by
            simpa [moreEntries, List.append_assoc] using ht'
          obtain ⟨rfl, e2⟩ := escape_split (hk m (by simp)) (hk' m' (by simp)) this
          rw [more_inj (fun z hz => hk z (by simp [hz])) (fun z hz => hk' z (by simp [hz])) e2]
  exact hp.symm.trans (ho ▸ hp')

example : DisplayedAs { line := 1, column := 10, offset := 9, expected := [b!"[-]", b!"[a-z-A-Z0-9_.]", b!"}"] }
    b!"error at 1:10: expected one of `}`, `[-]`, `[a-z-A-Z0-9_.]`" := by
  refine ⟨[b!"}", b!"[-]", b!"[a-z-A-Z0-9_.]"], ?_, by decide +kernel⟩
  exact .trans (.swap _ _ _) (.cons _ (.swap _ _ _))

/-- The value of a hexadecimal digit. -/
def hexValue (c : UInt8) : Option Nat :=
  if 48 ≤ c.toNat ∧ c.toNat ≤ 57 then some (c.toNat - 48) else if 97 ≤ c.toNat ∧ c.toNat ≤ 102 then some (c.toNat - 87) else none

/-- Read the digits of `\u{...}` up to the brace, `v` being the value so far. -/
def readHex (v : Nat) : Bytes → Option (Nat × Bytes)
  | [] => none
  | c :: r => if c = 125 then some (v, r) else match hexValue c with
    | some d => readHex (16 * v + d) r
    | none => none

/-- Read one character of a string as it is written between quotes in a Rust program. -/
def readChar : Bytes → Option (UInt8 × Bytes)
  | 92 :: 116 :: r => some (9, r)
  | 92 :: 110 :: r => some (10, r)
  | 92 :: 114 :: r => some (13, r)
  | 92 :: 117 :: 123 :: r => (readHex 0 r).map fun p => (UInt8.ofNat p.1, p.2)
  | 92 :: c :: r => if c = 34 ∨ c = 39 ∨ c = 92 then some (c, r) else none
  | 92 :: [] => none
  | c :: r => if c = 34 ∨ c = 39 ∨ c.toNat < 32 ∨ 126 < c.toNat then none else some (c, r)
  | [] => none

/-- `text` is the string `m` as it is written between quotes in a Rust program. -/
inductive Written : Bytes → Bytes → Prop
  | nil : Written [] []
  | cons (text r : Bytes) (c : UInt8) (m : Bytes) : readChar text = some (c, r) → Written r m → Written text (c :: m)

theorem readHex_append {v n : Nat} {x r y : Bytes} (h : readHex v x = some (n, r)) : readHex v (x ++ y) = some (n, r ++ y) := by
  induction x generalizing v with
  | nil => simp [readHex] at h
  | cons c x ih =>
    rw [List.cons_append, readHex]
    rw [readHex] at h
    split
    · rename_i hc; rw [if_pos hc] at h; simp at h ⊢; simp [h]
    · rename_i hc
      rw [if_neg hc] at h
      cases hv : hexValue c with
      | none => rw [hv] at h; simp at h
      | some d => rw [hv] at h; exact ih h

theorem readChar_plain {c : UInt8} {r : Bytes} (h : c ≠ 92) :
    readChar (c :: r) = if c = 34 ∨ c = 39 ∨ c.toNat < 32 ∨ 126 < c.toNat then none else some (c, r) := by
  unfold readChar
  split <;> rename_i e <;> simp_all

theorem readChar_append {x r y : Bytes} {c : UInt8} (h : readChar x = some (c, r)) : readChar (x ++ y) = some (c, r ++ y) := by
  unfold readChar at h
  split at h <;> first | (simp at h; done) | skip
  · simp at h; simp [readChar, h]
  · simp at h; simp [readChar, h]
  · simp at h; simp [readChar, h]
  · rename_i r'
    cases hr : readHex 0 r' with
    | none => rw [hr] at h; simp at h
    | some q =>
      rw [hr] at h; simp at h
      simp [readChar, readHex_append hr, h]
  · rename_i c' r' h1 h2 h3 h4
    split at h
    · rename_i hc
      simp at h
      obtain ⟨rfl, rfl⟩ := h
      rcases hc with rfl | rfl | rfl <;> simp [readChar]
    · simp at h
  · rename_i c' r' h1 h2 h3 h4 h5 h6
    split at h
    · simp at h
    · rename_i hc
      simp at h
      obtain ⟨rfl, rfl⟩ := h
      rw [List.cons_append]
      have h92 : c' ≠ 92 := by
        rintro rfl
        cases r' with
        | nil => exact h6 rfl rfl
        | cons a b => exact h5 _ _ rfl rfl
      rw [readChar_plain h92, if_neg hc]

theorem escapeChar_read : ∀ n < 128, readChar (escapeChar (UInt8.ofNat n)) = some (UInt8.ofNat n, []) := by decide

/-- C70: an entry is displayed the way it would be written in a Rust program. -/
theorem C70_escaped (m : Bytes) (h : Ascii m) : Written (escapeDefault m) m := by
  induction m with
  | nil => exact .nil
  | cons c m ih =>
    have hc := escapeChar_read c.toNat (h c (by simp))
    rw [UInt8.ofNat_toNat] at hc
    exact .cons _ _ c m (by rw [show escapeDefault (c :: m) = escapeChar c ++ escapeDefault m from rfl]; exact readChar_append hc)
      (ih fun x hx => h x (by simp [hx]))

/-- C70: the entry can be told from what is displayed. -/
theorem C70_escaped_unique (text m m' : Bytes) (h : Written text m) (h' : Written text m') : m = m' := by
  induction h generalizing m' with
  | nil =>
    cases h' with
    | nil => rfl
    | cons _ _ _ _ e _ => simp [readChar] at e
  | cons text r c m e _ ih =>
    cases h' with
    | nil => simp [readChar] at e
    | cons _ r' c' m2 e' h2 =>
      rw [e] at e'
      simp at e'
      obtain ⟨rfl, rfl⟩ := e'
      rw [ih m2 h2]

example : escapeDefault b!"\"" = b!"\\\"" ∧ Written b!"\\\"" b!"\"" := ⟨by decide, .cons _ [] _ _ (by decide) .nil⟩

/-! ### C71: the text of a test message error -/

theorem hexDigit_inj : ∀ a < 16, ∀ b < 16, hexDigit a = hexDigit b → a = b := by decide

theorem hexDigits_length (k n : Nat) : (hexDigits k n).length = k := by
  induction k generalizing n with
  | zero => rfl
  | succ k ih => simp [hexDigits, ih]

theorem hexDigits_inj {k m n : Nat} (h : hexDigits k m = hexDigits k n) : m % 16 ^ k = n % 16 ^ k := by
  induction k generalizing m n with
  | zero => simp [Nat.mod_one]
  | succ k ih =>
    obtain ⟨h1, h2⟩ := List.append_inj h (by rw [hexDigits_length, hexDigits_length])
    have h3 := ih h1
    have h4 := hexDigit_inj _ (Nat.mod_lt _ (by omega)) _ (Nat.mod_lt _ (by omega)) (by simpa using h2)
    rw [Nat.pow_succ, Nat.mul_comm, Nat.mod_mul, Nat.mod_mul, h3, h4]

theorem hyphenated_length (u : Nat) : (hyphenated u).length = 36 := by
  simp [hyphenated, hexDigits_length]

theorem hyphenated_inj {u v : Nat} (hu : u < 2 ^ 128) (hv : v < 2 ^ 128) (h : hyphenated u = hyphenated v) : u = v := by
  unfold hyphenated at h
  simp only [List.append_assoc] at h
  obtain ⟨h1, h⟩ := List.append_inj h (by simp [hexDigits_length])
  obtain ⟨_, h⟩ := List.append_inj h rfl
  obtain ⟨h2, h⟩ := List.append_inj h (by simp [hexDigits_length])
  obtain ⟨_, h⟩ := List.append_inj h rfl
  obtain ⟨h3, h⟩ := List.append_inj h (by simp [hexDigits_length])
  obtain ⟨_, h⟩ := List.append_inj h rfl
  obtain ⟨h4, h⟩ := List.append_inj h (by simp [hexDigits_length])
  obtain ⟨_, h5⟩ := List.append_inj h rfl
  have h1 := hexDigits_inj h1
  have h2 := hexDigits_inj h2
  have h3 := hexDigits_inj h3
  have h4 := hexDigits_inj h4
  have h5 := hexDigits_inj h5
  simp only [Nat.reducePow] at *
  omega

/-- The uuid of the pattern an error is about is a uuid (128 bits). -/
def UuidsOk : TestError → Prop
  | .valueNotMatch u _ _ _ => u < 2 ^ 128
  | .keyNotFound u _ => u < 2 ^ 128
  | .testMessageDoesntMatch u _ => u < 2 ^ 128
  | .matchedToOtherPattern u v _ => u < 2 ^ 128 ∧ v < 2 ^ 128
  | .unexpectedTags u _ _ => u < 2 ^ 128

/-- What can be told from the text of a test message error: everything, except that the key, the expected and the actual value, or the two lists
of tags, run into each other. -/
inductive SameUpToValues : TestError → TestError → Prop
  | value (u : Nat) (k k' x x' y y' : Bytes) : SameUpToValues (.valueNotMatch u k x y) (.valueNotMatch u k' x' y')
  | tags (u : Nat) (a a' b b' : Option (List Bytes)) : SameUpToValues (.unexpectedTags u a b) (.unexpectedTags u a' b')
  | same (e : TestError) : SameUpToValues e e

/-- the text before the first uuid -/
def textHead : TestError → Bytes
  | .valueNotMatch _ _ _ _ => b!"A parsed value does not equal to its expected value: uuid="
  | .keyNotFound _ _ => b!"A parsed key in not found among the expected ones: uuid="
  | .testMessageDoesntMatch _ _ => b!"A test message did not match its pattern: uuid="
  | .matchedToOtherPattern _ _ _ => b!"The test message matched to an other pattern: expected_uuid="
  | .unexpectedTags _ _ _ => b!"Unexpected tags found either in the parse result or among the expected ones: uuid="

/-- the first uuid -/
def textUuid : TestError → Nat
  | .valueNotMatch u _ _ _ => u
  | .keyNotFound u _ => u
  | .testMessageDoesntMatch u _ => u
  | .matchedToOtherPattern u _ _ => u
  | .unexpectedTags u _ _ => u

/-- the text after the first uuid -/
def textTail (debug : Option (List Bytes) → Bytes) : TestError → Bytes
  | .valueNotMatch _ k x y => b!" key=" ++ (k ++ (b!" expected=" ++ (x ++ (b!" got=" ++ y))))
  | .keyNotFound _ k => b!" key=" ++ k
  | .testMessageDoesntMatch _ m => b!" message='" ++ (m ++ b!"'")
  | .matchedToOtherPattern _ v m => b!" got_uuid=" ++ (hyphenated v ++ (b!" test_message='" ++ (m ++ b!"'")))
  | .unexpectedTags _ a b => b!" expected: " ++ (debug a ++ (b!" got=" ++ debug b))

theorem display_parts (debug : Option (List Bytes) → Bytes) (e : TestError) :
    e.display debug = textHead e ++ (hyphenated (textUuid e) ++ textTail debug e) := by
  cases e <;> simp only [TestError.display, textHead, textUuid, textTail, List.append_assoc]

/-- the kind of an error -/
def kindNo : TestError → Nat
  | .valueNotMatch _ _ _ _ => 0
  | .keyNotFound _ _ => 1
  | .testMessageDoesntMatch _ _ => 2
  | .matchedToOtherPattern _ _ _ => 3
  | .unexpectedTags _ _ _ => 4

theorem head_kind (e e' : TestError) (h : (textHead e).take 12 = (textHead e').take 12) : kindNo e = kindNo e' := by
  cases e <;> cases e' <;> first | rfl | (exfalso; simp only [textHead] at h; revert h; decide)

theorem head_take (e : TestError) (r : Bytes) : (textHead e ++ r).take 12 = (textHead e).take 12 := by
  rw [List.take_append_of_le_length]
  cases e <;> simp [textHead]

theorem head_eq {e e' : TestError} (h : kindNo e = kindNo e') : textHead e = textHead e' := by
  cases e <;> cases e' <;> first | rfl | (exfalso; simp [kindNo] at h)

theorem uuid_lt {e : TestError} (h : UuidsOk e) : textUuid e < 2 ^ 128 := by
  cases e <;> first | exact h | exact h.1

/-- C71: the text of a test message error tells its kind, the uuid of the pattern, and, except for values and tags, everything else. -/
theorem C71_text_determines_partial (debug : Option (List Bytes) → Bytes) (e e' : TestError) (h : UuidsOk e) (h' : UuidsOk e')
    (ht : e.display debug = e'.display debug) : SameUpToValues e e' := by
  rw [display_parts, display_parts] at ht
  have hk : kindNo e = kindNo e' := head_kind e e' (by rw [← head_take e, ht, head_take])
  rw [head_eq hk] at ht
  obtain ⟨h1, h2⟩ := List.append_inj (List.append_cancel_left ht) (by rw [hyphenated_length, hyphenated_length])
  have hu := hyphenated_inj (uuid_lt h) (uuid_lt h') h1
  clear ht h1
  cases e <;> cases e' <;> first | (exfalso; simp [kindNo] at hk; done) | skip
  · obtain rfl := hu
    exact .value _ _ _ _ _ _ _
  · obtain rfl := hu
    obtain rfl := List.append_cancel_left h2
    exact .same _
  · obtain rfl := hu
    obtain rfl := List.append_cancel_right (List.append_cancel_left h2)
    exact .same _
  · obtain rfl := hu
    obtain ⟨h3, h4⟩ := List.append_inj (List.append_cancel_left h2) (by rw [hyphenated_length, hyphenated_length])
    obtain rfl := hyphenated_inj h.2 h'.2 h3
    obtain rfl := List.append_cancel_right (List.append_cancel_left h4)
    exact .same _
  · obtain rfl := hu
    exact .tags _ _ _ _ _

/-- C71, the full statement is false: different errors may have the same text, because a key or value may contain the words that separate them. -/
theorem C71_text_determines_refuted (debug : Option (List Bytes) → Bytes) :
    ¬ ∀ e e' : TestError, UuidsOk e → UuidsOk e' → e.display debug = e'.display debug → e = e' := by
  intro H
  have := H (.valueNotMatch 0 b!"k" b!"a got=b" b!"c") (.valueNotMatch 0 b!"k" b!"a" b!"b got=c") (by unfold UuidsOk; decide)
    (by unfold UuidsOk; decide) (by simp [TestError.display])
  revert this; decide

example : (TestError.keyNotFound 0x9a49c47d29e940729be3b76c6814743a b!"PID").display (fun _ => []) =
    b!"A parsed key in not found among the expected ones: uuid=9a49c47d-29e9-4072-9be3-b76c6814743a key=PID" := by decide +kernel

/-! ### C72: the builder -/

/-- A call of `literal` or `parser`. -/
def PatternBuilder.call (b : PatternBuilder) : Token → PatternBuilder
  | .literal l => b.literal l
  | .parser p => b.parser p

/-- C72: after any sequence of calls, starting with `new`, `build` returns the tokens of the calls in their order; `build` may be called any
number of times (it does not change the builder). -/
theorem C72_builder (calls : List Token) : (calls.foldl PatternBuilder.call .new).build = calls := by
  have : ∀ (calls : List Token) (b : PatternBuilder), (calls.foldl PatternBuilder.call b).pattern = b.pattern ++ calls := by
    intro calls
    induction calls with
    | nil => intro b; simp
    | cons c calls ih => intro b; rw [List.foldl_cons, ih]; cases c <;> simp [PatternBuilder.call, PatternBuilder.literal, PatternBuilder.parser]
  unfold PatternBuilder.build
  rw [this]
  rw [show Token.clone = id from funext token_clone_id]
  simp [PatternBuilder.new]

end Verif
