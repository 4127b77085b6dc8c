import Verif.Proofs.Parsers
/-! C49: the byte stream hashed for a parser determines the parser. -/
namespace Verif
open Spec

theorem le64_zero : le64 0 = [0, 0, 0, 0, 0, 0, 0, 0] := by decide
theorem le64_one : le64 1 = [1, 0, 0, 0, 0, 0, 0, 0] := by decide
theorem le64_length (n : Nat) : (le64 n).length = 8 := by simp [le64]

theorem le64_inj {m n : Nat} (hm : m < 2 ^ 64) (hn : n < 2 ^ 64) (h : le64 m = le64 n) : m = n := by
  simp [le64, List.range, List.range.loop, ← UInt8.toNat_inj, UInt8.toNat_ofNat'] at h
  omega

theorem split_ff {s t x y : Bytes} (hs : (255 : UInt8) ∉ s) (ht : (255 : UInt8) ∉ t) (h : s ++ 255 :: x = t ++ 255 :: y) :
    s = t ∧ x = y := by
  induction s generalizing t with
  | nil =>
    cases t with
    | nil => simpa using h
    | cons b t => simp at h ht; exact absurd h.1 ht.1
  | cons a s ih =>
    cases t with
    | nil => simp at h hs; exact absurd h.1.symm hs.1
    | cons b t =>
      simp at h hs ht
      obtain ⟨h1, h2⟩ := ih hs.2 ht.2 h.2
      exact ⟨by rw [h.1, h1], h2⟩

theorem feedOptStr_inj {a b : Option Bytes} {x y : Bytes} (ha : ∀ s, a = some s → Utf8 s) (hb : ∀ s, b = some s → Utf8 s)
    (h : feedOptStr a ++ x = feedOptStr b ++ y) : a = b ∧ x = y := by
  cases a with
  | none =>
    cases b with
    | none => simpa [feedOptStr] using h
    | some t => simp [feedOptStr, le64_zero, le64_one] at h
  | some s =>
    cases b with
    | none => simp [feedOptStr, le64_zero, le64_one] at h
    | some t =>
      simp only [feedOptStr, feedStr, List.append_assoc, List.append_cancel_left_eq] at h
      obtain ⟨h1, h2⟩ := split_ff (utf8_ne_ff (ha s rfl)) (utf8_ne_ff (hb t rfl)) h
      exact ⟨by rw [h1], h2⟩

theorem feedOptNat_inj {a b : Option Nat} {x y : Bytes} (ha : ∀ n, a = some n → n < 2 ^ 64)
    (hb : ∀ n, b = some n → n < 2 ^ 64) (h : feedOptNat a ++ x = feedOptNat b ++ y) : a = b ∧ x = y := by
  cases a with
  | none =>
    cases b with
    | none => simpa [feedOptNat] using h
    | some t => simp [feedOptNat, le64_zero, le64_one] at h
  | some s =>
    cases b with
    | none => simp [feedOptNat, le64_zero, le64_one] at h
    | some t =>
      simp only [feedOptNat, List.append_assoc, List.append_cancel_left_eq] at h
      obtain ⟨h1, h2⟩ := List.append_inj h (by simp [le64_length])
      exact ⟨by rw [le64_inj (ha s rfl) (hb t rfl) h1], h2⟩

/-- the limits always start with a discriminant 0 or 1 followed by seven zero bytes -/
theorem feedOptNat_shape (a : Option Nat) : ∃ d r, feedOptNat a = d :: 0 :: 0 :: 0 :: 0 :: 0 :: 0 :: 0 :: r := by
  cases a with
  | none => exact ⟨0, [], by simp [feedOptNat, le64_zero]⟩
  | some n => exact ⟨1, le64 n, by simp [feedOptNat, le64_one]⟩

theorem feedOptNat_length (a : Option Nat) : (feedOptNat a).length = 8 ∨ (feedOptNat a).length = 16 := by
  cases a <;> simp [feedOptNat, le64_length]

theorem setTail_inj {cs cs' : List UInt8} {mn mn' mx mx' : Option Nat} (hs' : StrictlySorted cs')
    (h : cs ++ (feedOptNat mn ++ feedOptNat mx) = cs' ++ (feedOptNat mn' ++ feedOptNat mx'))
    (hle : cs.length ≤ cs'.length) : cs = cs' := by
  have hlen := congrArg List.length h
  simp only [List.length_append] at hlen
  by_cases heq : cs.length = cs'.length
  · exact (List.append_inj h heq).1
  · exfalso
    have h8 : cs.length + 8 ≤ cs'.length := by
      rcases feedOptNat_length mn with a | a <;> rcases feedOptNat_length mx with b | b <;>
        rcases feedOptNat_length mn' with c | c <;> rcases feedOptNat_length mx' with d | d <;> omega
    obtain ⟨d, r, hd⟩ := feedOptNat_shape mn
    have hget : ∀ j, 1 ≤ j → j < 8 → cs'[cs.length + j]? = some 0 := by
      intro j h1 h2
      have e : (cs ++ (feedOptNat mn ++ feedOptNat mx))[cs.length + j]? =
          (cs' ++ (feedOptNat mn' ++ feedOptNat mx'))[cs.length + j]? := by rw [h]
      rw [List.getElem?_append_right (by omega), List.getElem?_append_left (l₁ := cs') (by omega), hd] at e
      rw [← e, show cs.length + j - cs.length = j by omega]
      rcases j with _ | _ | _ | _ | _ | _ | _ | _ | j <;> simp at h1 h2 ⊢
      omega
    have h1 := hget 1 (by omega) (by omega)
    have h2 := hget 2 (by omega) (by omega)
    obtain ⟨l1, e1⟩ := List.getElem?_eq_some_iff.mp h1
    obtain ⟨l2, e2⟩ := List.getElem?_eq_some_iff.mp h2
    have := List.pairwise_iff_getElem.mp hs' _ _ l1 l2 (by omega)
    rw [e1, e2] at this
    simp at this

theorem setFeed_inj {p q : SetParser} (hp : RuntimeParser (.set p)) (hq : RuntimeParser (.set q)) (h : p.feed = q.feed) :
    p = q := by
  obtain ⟨n, cs, mn, mx⟩ := p
  obtain ⟨n', cs', mn', mx'⟩ := q
  obtain ⟨p1, p2, p3, p4⟩ := hp
  obtain ⟨q1, q2, q3, q4⟩ := hq
  simp only [SetParser.feed, List.append_assoc] at *
  obtain ⟨hn, h'⟩ := feedOptStr_inj p1 q1 h
  clear h; have h := h'; clear h'
  replace hn : n = n' := hn
  subst hn
  have hc : cs = cs' := by
    rcases Nat.le_total cs.length cs'.length with hl | hl
    · exact setTail_inj q2 h hl
    · exact (setTail_inj p2 h.symm hl).symm
  subst hc
  simp only [List.append_cancel_left_eq] at h
  obtain ⟨rfl, h⟩ := feedOptNat_inj p3 q3 h
  have := feedOptNat_inj (x := []) (y := []) p4 q4 (by simpa using h)
  rw [this.1]

/-- C49: two parser values that can exist at run time and feed the same bytes to the hasher are equal — same kind, name, character set, limits and end
string.  So the matchers merge two different parsers only if SipHash maps two different byte strings to the same 64-bit value. -/
theorem C49_hash_stream_injective (p q : Parser) (hp : RuntimeParser p) (hq : RuntimeParser q) (h : p.feed = q.feed) :
    p = q := by
  cases p with
  | set p =>
    cases q with
    | set q => rw [setFeed_inj hp hq (by simpa [Parser.feed] using h)]
    | int q => simp [Parser.feed, feedStr] at h
    | greedy q => simp [Parser.feed, feedStr] at h
  | int p =>
    cases q with
    | set q => simp [Parser.feed, feedStr] at h
    | int q => rw [setFeed_inj hp hq (by simpa [Parser.feed] using h)]
    | greedy q => simp [Parser.feed, feedStr] at h
  | greedy p =>
    cases q with
    | set q => simp [Parser.feed, feedStr] at h
    | int q => simp [Parser.feed, feedStr] at h
    | greedy q =>
      obtain ⟨n, e⟩ := p
      obtain ⟨n', e'⟩ := q
      simp only [Parser.feed, List.append_cancel_left_eq, GreedyParser.feed] at h
      obtain ⟨hn, h'⟩ := feedOptStr_inj hp.1 hq.1 h
      have he := (feedOptStr_inj (x := []) (y := []) hp.2 hq.2 (by simpa using h')).1
      replace hn : n = n' := hn
      replace he : e = e' := he
      rw [hn, he]

/-- Parsers as the code constructs them satisfy the hypotheses. -/
theorem C49_constructed_parsers (name : Option Bytes) (set : Bytes) (mn mx : Option Nat) (hn : ∀ n, name = some n → Utf8 n)
    (h1 : ∀ n, mn = some n → n < 2 ^ 64) (h2 : ∀ n, mx = some n → n < 2 ^ 64) :
    RuntimeParser (.set { SetParser.new name set with minLength := mn, maxLength := mx }) ∧
    RuntimeParser (.int { intDelegate name with minLength := mn, maxLength := mx }) :=
  ⟨⟨hn, bsetFromIter_sorted _, h1, h2⟩, ⟨hn, bsetFromIter_sorted _, h1, h2⟩⟩

/-- Two parsers that differ only in their limits feed different bytes. -/
example : (Parser.set ⟨some b!"n", b!"ab", some 1, none⟩).feed ≠ (Parser.set ⟨some b!"n", b!"ab", none, some 1⟩).feed := by
  decide

end Verif
