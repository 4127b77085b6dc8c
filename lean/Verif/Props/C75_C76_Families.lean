import Verif.Proofs.Family
import Verif.Props.C65_Table
/-! C75, C76: lists of patterns that do not disturb each other. -/
namespace Verif
open Spec

/-- C75: the answers of the trie for patterns whose additions do not disturb each other (any script; unless `parse` panics). -/
theorem C75_family (sip : Bytes → UInt64) (ps : List Pattern) (hd : Undisturbed ps) (hu : ∀ p ∈ ps, Utf8Lits p) (hne : ∀ p ∈ ps, NonemptyLits p)
    (hsl : ∀ p ∈ ps, SplitLiterals p) (hcol : NoCollision sip ps) (t : SuffixTree) (hb : SuffixTree.build sip ps = .ok t) (text : Bytes)
    (hx : Utf8 text) (r : Option MatchResult) (hr : t.parse text = .ok r) : FamilyAnswer ps text r :=
  family_answer (lists_of hd) (C65_table sip ps hu hne hsl hcol t hb text hx r hr)

/-- C75 for patterns compiled from ASCII strings: there is always an answer, and it is this one. -/
theorem C75_family_compiled (sip : Bytes → UInt64) (ps : List Pattern) (hd : Undisturbed ps) (hc : ∀ p ∈ ps, CompiledAscii p)
    (hcol : NoCollision sip ps) (text : Bytes) (hx : Ascii text) :
    ∃ r, (SuffixTree.build sip ps >>= fun t => t.parse text) = .ok r ∧ FamilyAnswer ps text r := by
  obtain ⟨r, h1, h2⟩ := C65_table_compiled sip ps hc hcol text hx
  exact ⟨r, h1, family_answer (lists_of hd) h2⟩

theorem alone_unique {ps : List Pattern} (hd : Undisturbed ps) {l : Bytes} {p q : Pattern} (hp : Alone ps l p) (hq : Alone ps l q) : p = q := by
  have h := lists_of hd
  obtain ⟨row, r1, rfl⟩ := h.all l ⟨p, hp.1, [], hp.2⟩
  have e1 := ((h.rows row r1).2.1 p).mpr hp
  have e2 := ((h.rows row r1).2.1 q).mpr hq
  rw [e1] at e2
  simpa using e2

/-- C75: an undisturbed list has at most one answer for a text. -/
theorem C75_answer_unique (ps : List Pattern) (text : Bytes) (r r' : Option MatchResult)
    (h : FamilyAnswer ps text r) (h' : FamilyAnswer ps text r') : r = r' := by
  by_cases ha : ∃ p, Alone ps text p
  · obtain ⟨p, ha⟩ := ha
    rw [h.1 p ha, h'.1 p ha]
  · have hn : ∀ p, ¬ Alone ps text p := fun p hp => ha ⟨p, hp⟩
    by_cases hl : Leading ps text
    · rw [h.2.1 hl hn, h'.2.1 hl hn]
    · obtain ⟨b, b1, b2, b3, p1, p2, p3⟩ := h.2.2 hl
      obtain ⟨b', b1', b2', b3', q1, q2, q3⟩ := h'.2.2 hl
      have e : b = b' := by
        have l1 := b3 b' b1' b2'
        have l2 := b3' b b1 b2
        rw [List.prefix_iff_eq_take.mp b2, List.prefix_iff_eq_take.mp b2']
        congr 1
        omega
      subst e
      by_cases hb : b = []
      · exact firstAnswer_unique (p1 hb) (q1 hb)
      · by_cases hm : ∃ p, Continuing ps b p
        · obtain ⟨p, hm⟩ := hm
          exact firstAnswer_unique (p2 hb p hm) (q2 hb p hm)
        · rw [p3 hb (fun p hp => hm ⟨p, hp⟩), q3 hb (fun p hp => hm ⟨p, hp⟩)]

/-- C76: the order of the patterns of an undisturbed list matters only for those that begin with a parser: two undisturbed lists of the same
patterns, those that begin with a parser being in the same order, give matchers with the same answers. -/
theorem C76_order (sip : Bytes → UInt64) (ps qs : List Pattern) (hd : Undisturbed ps) (hd' : Undisturbed qs) (hsame : ∀ p, p ∈ ps ↔ p ∈ qs)
    (hpar : parserLed ps = parserLed qs) (hu : ∀ p ∈ ps, AsciiLits p) (hne : ∀ p ∈ ps, NonemptyLits p)
    (hsl : ∀ p ∈ ps, SplitLiterals p) (hcol : NoCollision sip ps) (text : Bytes) (hx : Ascii text) :
    (SuffixTree.build sip ps >>= fun t => t.parse text) = (SuffixTree.build sip qs >>= fun t => t.parse text) := by
  have hcol' : NoCollision sip qs := by
    rintro a b ⟨p, hp, e⟩ ⟨q, hq, e'⟩
    exact hcol a b ⟨p, (hsame p).mpr hp, e⟩ ⟨q, (hsame q).mpr hq, e'⟩
  obtain ⟨r, h1, h2⟩ := C65_table_ascii sip ps hu hne hsl hcol text hx
  obtain ⟨r', h1', h2'⟩ := C65_table_ascii sip qs (fun p hp => hu p ((hsame p).mpr hp)) (fun p hp => hne p ((hsame p).mpr hp))
    (fun p hp => hsl p ((hsame p).mpr hp)) hcol' text hx
  have e1 : ∀ l p, Alone ps l p ↔ Alone qs l p := fun l p => by simp [Alone, hsame]
  have e2 : ∀ l p, Continuing ps l p ↔ Continuing qs l p := fun l p => by simp [Continuing, hsame]
  have e3 : ∀ l, Leading ps l ↔ Leading qs l := fun l => by simp [Leading, hsame]
  have f := family_answer (lists_of hd) h2
  have f' := family_answer (lists_of hd') h2'
  have : FamilyAnswer ps text r' := by
    simpa only [FamilyAnswer, FamilyStop, e1, e2, e3, hpar] using f'
  rw [h1, h1', C75_answer_unique ps text r r' f this]

/-- C76: a text that a literal-led pattern of an undisturbed list matches is answered with this pattern and its values, if the list has no stop
in the text after the literal and no other pattern begins with the whole text. -/
theorem C76_literal_led (ps : List Pattern) (text : Bytes) (r : Option MatchResult) (h : FamilyAnswer ps text r)
    (l : Bytes) (hl : l ≠ []) (p : Pattern) (hp : Continuing ps l p) (hno : ¬ Leading ps text)
    (hstop : ∀ b, FamilyStop ps b → b <+: text → b.length ≤ l.length) (caps) (hm : MatchesStrict p.pattern text caps) :
    ∃ res, r = some res ∧ IsResult res p caps := by
  obtain ⟨b, b1, b2, b3, _, p2, _⟩ := h.2.2 hno
  have hpre : l <+: text := by
    obtain ⟨_, rest, _, e⟩ := hp
    rw [e] at hm
    cases hm with
    | literal _ _ x _ _ _ => exact List.prefix_append _ _
  have hb : b = l := by
    have l1 := b3 l (.inr (.inl ⟨p, hp⟩)) hpre
    have l2 := hstop b b1 b2
    rw [List.prefix_iff_eq_take.mp b2, List.prefix_iff_eq_take.mp hpre]
    congr 1
    omega
  subst hb
  exact (p2 hl p hp).1 [] p [] caps rfl (by simp) hm

/-- C76: a text that begins with no stop but the empty one is answered by the first parser-led pattern that matches it. -/
theorem C76_parser_led (ps : List Pattern) (text : Bytes) (r : Option MatchResult) (h : FamilyAnswer ps text r) (hno : ¬ Leading ps text)
    (hstop : ∀ b, FamilyStop ps b → b <+: text → b = []) : FirstAnswer (parserLed ps) text r := by
  obtain ⟨b, b1, b2, _, p1, _, _⟩ := h.2.2 hno
  exact p1 (hstop b b1 b2)

/-! A list meeting the hypotheses: it has a literal that is also the start of other patterns, a longer literal after a shorter one, literals
that part, and parsers. -/

def familySample : List Pattern :=
  [Samples.pat 1 [.literal b!"app", .parser (Samples.int b!"i")], Samples.pat 2 [.literal b!"apple "  , .parser (Samples.greedy b!"g" none)],
   Samples.pat 3 [.parser (Samples.int b!"i"), .literal b!"!"], Samples.pat 4 [.literal b!"app"], Samples.pat 5 [.literal b!"apricot"],
   Samples.pat 6 [.literal b!"a"], Samples.pat 7 [.parser (Samples.greedy b!"g" none)]]

theorem familySample_undisturbed : Undisturbed familySample := by
  have h : familySample.Pairwise fun p q => match p.pattern, q.pattern with
      | .literal l :: rest, .literal l' :: rest' => (l' = l → (rest = [] ↔ rest' ≠ [])) ∧ (rest' ≠ [] → l' <+: l → l' = l)
      | .parser a :: _, .parser b :: _ => a ≠ b
      | _, _ => True := by
    simp [familySample, Samples.pat]
    decide
  refine h.imp ?_
  intro p q hpq
  refine ⟨?_, ?_⟩
  · intro l rest l' rest' e e'; rw [e, e'] at hpq; exact hpq
  · intro l rest l' rest' e e'; rw [e, e'] at hpq; exact hpq

theorem familySample_lits : (∀ p ∈ familySample, AsciiLits p) ∧ (∀ p ∈ familySample, NonemptyLits p) ∧ (∀ p ∈ familySample, SplitLiterals p) := by
  refine ⟨?_, ?_, ?_⟩
  · intro p hp l hl
    simp [familySample] at hp
    rcases hp with rfl | rfl | rfl | rfl | rfl | rfl | rfl <;> simp [Samples.pat] at hl <;> subst hl <;> decide
  · intro p hp l hl
    simp [familySample] at hp
    rcases hp with rfl | rfl | rfl | rfl | rfl | rfl | rfl <;> simp [Samples.pat] at hl <;> subst hl <;> simp
  · intro p hp l rest h l'
    simp [familySample] at hp
    rcases hp with rfl | rfl | rfl | rfl | rfl | rfl | rfl <;> simp [Samples.pat] at h <;> obtain ⟨_, rfl⟩ := h <;> simp

theorem familySample_hashes : NoCollision Samples.sip familySample := by
  rintro a b ⟨p, hp, ha⟩ ⟨q, hq, hb⟩ h
  simp [familySample] at hp hq
  rcases hp with rfl | rfl | rfl | rfl | rfl | rfl | rfl <;> simp [Samples.pat] at ha <;> subst ha <;>
  rcases hq with rfl | rfl | rfl | rfl | rfl | rfl | rfl <;> simp [Samples.pat] at hb <;> subst hb <;>
  first | rfl | (revert h; decide +kernel)

/-- The matcher's answers: `apple 1` goes to the longest literal, `app7` to the shorter one, `ap7` stops where `app` and `apricot` part, `axe`
where `a` and `app` do, and `xyz` is asked of the patterns that begin with a parser. -/
example : ([b!"apple 1", b!"app7", b!"app", b!"ap7", b!"axe", b!"xyz", b!"5!", b!"apple "].map fun x =>
      (SuffixTree.build Samples.sip familySample >>= fun t => t.parse x)) =
    [.ok (some { pattern := Samples.pat 2 [], values := [(b!"g", b!"1")] }), .ok (some { pattern := Samples.pat 1 [], values := [(b!"i", b!"7")] }),
     .ok (some { pattern := Samples.pat 4 [], values := [] }), .ok none, .ok none, .ok (some { pattern := Samples.pat 7 [], values := [(b!"g", b!"xyz")] }),
     .ok (some { pattern := Samples.pat 3 [], values := [(b!"i", b!"5")] }), .ok none] := by decide +kernel

end Verif
