import Verif.Proofs.SuffixChange
/-! C98: how adding a pattern to the suffix-array matcher can change the answer for a text. -/
namespace Verif
open Spec

/-- C73: the description of the answers of the suffix array has an answer for every history and text (and only one, see `C73_answer_unique`). -/
theorem C73_answer_exists (ps : List Pattern) (hu : ∀ p ∈ ps, Utf8Lits p) (text : Bytes) (hx : Utf8 text) : ∃ r, SuffixAnswer ps text r :=
  suffixAnswer_exists hu hx

theorem noCollision_sub {sip : Bytes → UInt64} {ps qs : List Pattern} (h : NoCollision sip ps) (hs : ∀ p ∈ qs, p ∈ ps) : NoCollision sip qs := by
  rintro a b ⟨p, hp, e⟩ ⟨q, hq, e'⟩
  exact h a b ⟨p, hs p hp, e⟩ ⟨q, hs q hq, e'⟩

theorem suffix_answer_of {sip : Bytes → UInt64} {ps : List Pattern} (hu : ∀ p ∈ ps, Utf8Lits p) (hcol : NoCollision sip ps) {text : Bytes}
    (hx : Utf8 text) {r : Option MatchResult} (hr : (SuffixTable.build sip ps >>= fun t => t.parse text) = .ok r) : SuffixAnswer ps text r := by
  obtain ⟨t, hb, h⟩ := C73_answer sip ps hu hcol
  rw [hb] at hr
  exact h text hx r hr

/-- C98: adding a pattern that begins with a literal leaves the answer for a text as it is, or makes it "no match", or it becomes the match (loose,
as always in this matcher) of the new pattern. It never becomes a match of another pattern. -/
theorem C98_literal_led (sip : Bytes → UInt64) (ps : List Pattern) (q : Pattern) (hu : ∀ p ∈ ps ++ [q], Utf8Lits p) (hcol : NoCollision sip (ps ++ [q]))
    (l : Bytes) (rest : List Token) (hq : q.pattern = .literal l :: rest) (text : Bytes) (hx : Utf8 text) (r r' : Option MatchResult)
    (hr : (SuffixTable.build sip ps >>= fun t => t.parse text) = .ok r)
    (hr' : (SuffixTable.build sip (ps ++ [q]) >>= fun t => t.parse text) = .ok r') :
    r' = r ∨ r' = none ∨ ∃ res caps, r' = some res ∧ LooseMatches q.pattern text caps ∧ IsResult res q caps := by
  have h := suffix_answer_of (fun p hp => hu p (by simp [hp])) (noCollision_sub hcol (fun p hp => by simp [hp])) hx hr
  rcases suffix_literal_led hu hq hx h (suffix_answer_of hu hcol hx hr') with ⟨_, g⟩ | ⟨_, g⟩
  · exact .inl g
  · exact .inr g

theorem outcome_same {sip : Bytes → UInt64} {ps qs : List Pattern} (hu : ∀ p ∈ ps, Utf8Lits p) (hcol : NoCollision sip ps)
    (hu' : ∀ p ∈ qs, Utf8Lits p) (hcol' : NoCollision sip qs) {text : Bytes} (hx : Utf8 text)
    (ha : ∀ r, SuffixAnswer qs text r → SuffixAnswer ps text r) (ht : SuffixTrouble qs text ↔ SuffixTrouble ps text) :
    (SuffixTable.build sip qs >>= fun t => t.parse text) = (SuffixTable.build sip ps >>= fun t => t.parse text) := by
  have h := C74_panics_iff sip ps hu hcol text hx
  have h' := C74_panics_iff sip qs hu' hcol' text hx
  by_cases g : SuffixTrouble ps text
  · rw [h.1 g, h'.1 (ht.mpr g)]
  · obtain ⟨r, e, hr⟩ := h.2 g
    obtain ⟨r', e', hr'⟩ := h'.2 (fun g' => g (ht.mp g'))
    rw [e, e', C73_answer_unique ps hu text hx r' r (ha r' hr') hr]

/-- C98: next to a pattern that begins with a literal, patterns that begin with a parser are of no consequence for any text: they are never asked. -/
theorem C98_parser_led_dead (sip : Bytes → UInt64) (ps : List Pattern) (q : Pattern) (hu : ∀ p ∈ ps ++ [q], Utf8Lits p)
    (hcol : NoCollision sip (ps ++ [q])) (a : Parser) (hq : q.pattern.head? = some (.parser a)) (hl : ∃ l, Leads ps l) (text : Bytes) (hx : Utf8 text) :
    (SuffixTable.build sip (ps ++ [q]) >>= fun t => t.parse text) = (SuffixTable.build sip ps >>= fun t => t.parse text) :=
  outcome_same (fun p hp => hu p (by simp [hp])) (noCollision_sub hcol (fun p hp => by simp [hp])) hu hcol hx
    (fun r => (suffix_parser_led hq hl r).mp) (suffixTrouble_parser_led hq hl)

/-- What the chosen literal has in common with the text is at least what any other leading literal has. -/
theorem chosen_common {ps : List Pattern} {x l l0 c c0 : Bytes} (hx : Utf8 x) (hc : Chosen ps x l) (h0 : Leads ps l0)
    (hl : LongestCommonPrefix l x c) (hl0 : LongestCommonPrefix l0 x c0) : c0.length ≤ c.length := by
  rcases hc.2 with e | ⟨_, h⟩
  · subst e
    exact Nat.le_trans hl0.2.2.1.length_le (hl.2.2.2 _ hx (List.prefix_refl _) (List.prefix_refl _))
  · by_cases e : l0 = l
    · subst e; rw [lcp_length hl hl0]; exact Nat.le_refl _
    · exact (h l0 h0 e).1 c c0 hl hl0

/-- C98: if a leading literal of an older pattern has more in common with the text than that of the new pattern, nothing changes for the text. -/
theorem C98_farther (sip : Bytes → UInt64) (ps : List Pattern) (q : Pattern) (hu : ∀ p ∈ ps ++ [q], Utf8Lits p) (hcol : NoCollision sip (ps ++ [q]))
    (l : Bytes) (rest : List Token) (hq : q.pattern = .literal l :: rest) (text : Bytes) (hx : Utf8 text)
    (l0 c c0 : Bytes) (h0 : Leads ps l0) (hc : LongestCommonPrefix l text c) (hc0 : LongestCommonPrefix l0 text c0) (hlt : c.length < c0.length) :
    (SuffixTable.build sip (ps ++ [q]) >>= fun t => t.parse text) = (SuffixTable.build sip ps >>= fun t => t.parse text) := by
  have hhead : ∀ m, q.pattern.head? = some (.literal m) ↔ m = l := by
    intro m; rw [hq]; simp [eq_comm]
  obtain ⟨m, hm, hmu⟩ := C73_chosen (ps ++ [q]) hu text hx ⟨l0, leads_append.mpr (.inl h0)⟩
  have e : m ≠ l := by
    rintro rfl
    have := chosen_common hx hm (leads_append.mpr (.inl h0)) hc hc0
    omega
  have hl : Leads ps m := by
    rcases leads_append.mp hm.1 with g | g
    · exact g
    · exact absurd ((hhead m).mp (leads_one.mp g)) e
  have hcm := chosen_fewer (fun l h => leads_append.mpr (.inl h)) hl hm
  have hne : q.pattern.head? ≠ some (.literal m) := fun g => e ((hhead m).mp g)
  refine outcome_same (fun p hp => hu p (by simp [hp])) (noCollision_sub hcol (fun p hp => by simp [hp])) hu hcol hx
    (fun r h => answer_of_at hcm ((answerAt_snoc hne).mp (h.2 m hm))) ?_
  have n2 : ¬ ∃ rest, rest ≠ [] ∧ q.pattern = .literal m :: rest := fun ⟨_, _, e⟩ => hne (by rw [e]; rfl)
  constructor
  · rintro (⟨h, _⟩ | ⟨l', h1, h2, p, h3, h4⟩)
    · exact absurd hm.1 (h m)
    · have := hmu l' h1
      subst this
      exact .inr ⟨l', hcm, h2, p, (lastWith_snoc (P := fun toks => ∃ rest, rest ≠ [] ∧ toks = .literal l' :: rest) n2).mp h3, h4⟩
  · rintro (⟨h, _⟩ | ⟨l', h1, h2, p, h3, h4⟩)
    · exact absurd hl (h m)
    · have := chosen_unique h1 hcm
      subst this
      exact .inr ⟨l', hm, h2, p, (lastWith_snoc (P := fun toks => ∃ rest, rest ≠ [] ∧ toks = .literal l' :: rest) n2).mpr h3, h4⟩

/-- C98: the first pattern that begins with a literal silences all the others: every text is a match of it or of nothing. -/
theorem C98_first_literal (sip : Bytes → UInt64) (ps : List Pattern) (q : Pattern) (hu : ∀ p ∈ ps ++ [q], Utf8Lits p)
    (hcol : NoCollision sip (ps ++ [q])) (l : Bytes) (rest : List Token) (hq : q.pattern = .literal l :: rest) (hno : ∀ l, ¬ Leads ps l) (text : Bytes)
    (hx : Utf8 text) (r' : Option MatchResult) (hr' : (SuffixTable.build sip (ps ++ [q]) >>= fun t => t.parse text) = .ok r') :
    r' = none ∨ ∃ res caps, r' = some res ∧ LooseMatches q.pattern text caps ∧ IsResult res q caps := by
  obtain ⟨r, h⟩ := C73_answer_exists ps (fun p hp => hu p (by simp [hp])) text hx
  rcases suffix_literal_led hu hq hx h (suffix_answer_of hu hcol hx hr') with ⟨⟨m, _, hm, _⟩ | ⟨hm, _⟩, _⟩ | ⟨_, g⟩
  · exact absurd hm (hno _)
  · exact absurd hm (hno _)
  · exact g

/-- C98: while all patterns begin with parsers, adding another such pattern leaves the answer as it is, unless it becomes the (loose) match of the new
pattern, or it was the match of an older pattern that begins with the same parser. -/
theorem C98_parser_led (sip : Bytes → UInt64) (ps : List Pattern) (q : Pattern) (hu : ∀ p ∈ ps ++ [q], Utf8Lits p) (hcol : NoCollision sip (ps ++ [q]))
    (a : Parser) (rest : List Token) (hq : q.pattern = .parser a :: rest) (hno : ∀ l, ¬ Leads ps l) (text : Bytes) (hx : Utf8 text)
    (r r' : Option MatchResult) (hr : (SuffixTable.build sip ps >>= fun t => t.parse text) = .ok r)
    (hr' : (SuffixTable.build sip (ps ++ [q]) >>= fun t => t.parse text) = .ok r') :
    r' = r ∨ (∃ res caps, r' = some res ∧ LooseMatches q.pattern text caps ∧ IsResult res q caps) ∨
      ∃ p ∈ ps, p.pattern.head? = some (.parser a) ∧ ∃ res caps, r = some res ∧ LooseMatches p.pattern text caps ∧ IsResult res p caps := by
  have hh : q.pattern.head? = some (.parser a) := by rw [hq]; rfl
  have h := (suffix_answer_of (fun p hp => hu p (by simp [hp])) (noCollision_sub hcol (fun p hp => by simp [hp])) hx hr).1 hno
  have h' := (suffix_answer_of hu hcol hx hr').1 (fun l hl => hno l ((leads_parser hh l).mp hl))
  rw [table_snoc] at h'
  have hadd : (Table.of ps).add q = ⟨(Table.of ps).rows, addParserLed a q (Table.of ps).parserLed⟩ := by
    unfold Table.add; rw [hq]
  rw [hadd] at h'
  rcases firstLoose_addParserLed h h' with g | ⟨g, _⟩ | ⟨p, hp, g1, g | g⟩
  · exact .inl g
  · exact .inr (.inl g)
  · exact .inr (.inr ⟨p, table_parserLed ps p hp, g1, g⟩)
  · exact .inr (.inl g)

theorem suffixAnswer_no_tokens {ps : List Pattern} {q : Pattern} (hq : q.pattern = []) {x : Bytes} {r : Option MatchResult} :
    SuffixAnswer (ps ++ [q]) x r ↔ SuffixAnswer ps x r := by
  have hl : ∀ l, Leads (ps ++ [q]) l ↔ Leads ps l := by
    intro l; rw [leads_append, leads_one, hq]; simp
  have ht : Table.of (ps ++ [q]) = Table.of ps := by
    rw [table_snoc]; unfold Table.add; rw [hq]
  have hne : ∀ l, q.pattern.head? ≠ some (.literal l) := by intro l; rw [hq]; simp
  unfold SuffixAnswer
  simp only [hl, ht, chosen_congr hl]
  constructor
  · rintro ⟨h1, h2⟩
    exact ⟨h1, fun l hc => (answerAt_snoc (hne l)).mp (h2 l hc)⟩
  · rintro ⟨h1, h2⟩
    exact ⟨h1, fun l hc => (answerAt_snoc (hne l)).mpr (h2 l hc)⟩

/-- What is added does not begin with a parser that a pattern before it begins with, unless a pattern before it begins with a literal. -/
def Unrivalled (ps qs : List Pattern) : Prop :=
  ∀ A q B a, qs = A ++ q :: B → q.pattern.head? = some (.parser a) → (∃ l, Leads (ps ++ A) l) ∨ ∀ p ∈ ps ++ A, p.pattern.head? ≠ some (.parser a)

theorem suffix_sequence {ps qs : List Pattern} (hu : ∀ p ∈ ps ++ qs, Utf8Lits p) (hl : Unrivalled ps qs) {text : Bytes} (hx : Utf8 text)
    {r r' : Option MatchResult} (h : SuffixAnswer ps text r) (h' : SuffixAnswer (ps ++ qs) text r') :
    r' = r ∨ r' = none ∨ ∃ q ∈ qs, LooseMatchOf q text r' := by
  induction qs generalizing ps r with
  | nil =>
    rw [List.append_nil] at h' hu
    exact .inl (C73_answer_unique ps hu text hx _ _ h' h)
  | cons q qs ih =>
    have e : ps ++ q :: qs = (ps ++ [q]) ++ qs := by simp
    rw [e] at h' hu
    have hu1 : ∀ p ∈ ps ++ [q], Utf8Lits p := fun p hp => hu p (List.mem_append_left _ hp)
    obtain ⟨r1, h1⟩ := suffixAnswer_exists hu1 hx
    have hl' : Unrivalled (ps ++ [q]) qs := by
      intro A q' B a e' h
      have := hl (q :: A) q' B a (by rw [e']; rfl) h
      simpa using this
    rcases ih hu hl' h1 h' with g | g | ⟨q', g1, g2⟩
    · subst g
      cases hqp : q.pattern with
      | nil => exact .inl (C73_answer_unique ps (fun p hp => hu1 p (by simp [hp])) text hx _ _ ((suffixAnswer_no_tokens hqp).mp h1) h)
      | cons tok rest =>
        cases tok with
        | literal l =>
          rcases suffix_literal_led hu1 hqp hx h h1 with ⟨_, g⟩ | ⟨_, g | g⟩
          · exact .inl g
          · exact .inr (.inl g)
          · exact .inr (.inr ⟨q, by simp, g⟩)
        | parser a =>
          have hh : q.pattern.head? = some (.parser a) := by rw [hqp]; rfl
          by_cases hled : ∃ l, Leads ps l
          · exact .inl (C73_answer_unique ps (fun p hp => hu1 p (by simp [hp])) text hx _ _ ((suffix_parser_led hh hled r').mp h1) h)
          · have hno : ∀ l, ¬ Leads ps l := fun l g => hled ⟨l, g⟩
            have hnew : ∀ p ∈ ps, p.pattern.head? ≠ some (.parser a) := by
              rcases hl [] q qs a rfl hh with g | g
              · exact absurd (by simpa using g) hled
              · simpa using g
            have h1' := h1.1 (fun l hl => hno l ((leads_parser hh l).mp hl))
            rw [table_snoc] at h1'
            have hadd : (Table.of ps).add q = ⟨(Table.of ps).rows, addParserLed a q (Table.of ps).parserLed⟩ := by
              unfold Table.add; rw [hqp]
            rw [hadd] at h1'
            rcases firstLoose_addParserLed (h.1 hno) h1' with g | ⟨g, _⟩ | ⟨p, hp, g1, _⟩
            · exact .inl g
            · exact .inr (.inr ⟨q, by simp, g⟩)
            · exact absurd g1 (hnew p (table_parserLed ps p hp))
    · exact .inr (.inl g)
    · exact .inr (.inr ⟨q', by simp [g1], g2⟩)

/-- C98 for several additions: if nothing is added that begins with a parser that a pattern before it begins with (or some pattern begins with a
literal, and then whatever is added), the answer for a text stays, or it becomes "no match" or the (loose) match of one of the new patterns. -/
theorem C98_sequence (sip : Bytes → UInt64) (ps qs : List Pattern) (hu : ∀ p ∈ ps ++ qs, Utf8Lits p) (hcol : NoCollision sip (ps ++ qs))
    (hl : Unrivalled ps qs) (text : Bytes) (hx : Utf8 text) (r r' : Option MatchResult)
    (hr : (SuffixTable.build sip ps >>= fun t => t.parse text) = .ok r)
    (hr' : (SuffixTable.build sip (ps ++ qs) >>= fun t => t.parse text) = .ok r') :
    r' = r ∨ r' = none ∨ ∃ q ∈ qs, ∃ res caps, r' = some res ∧ LooseMatches q.pattern text caps ∧ IsResult res q caps :=
  suffix_sequence hu hl hx (suffix_answer_of (fun p hp => hu p (by simp [hp])) (noCollision_sub hcol (fun p hp => by simp [hp])) hx hr)
    (suffix_answer_of hu hcol hx hr')

theorem unrivalled_of_literal {ps : List Pattern} (h : ∃ l, Leads ps l) (qs : List Pattern) : Unrivalled ps qs := by
  obtain ⟨l, h⟩ := h
  exact fun A q B a _ _ => .inl ⟨l, leads_append.mpr (.inl h)⟩

theorem suffixTrouble_no_tokens {ps : List Pattern} {q : Pattern} (hq : q.pattern = []) {x : Bytes} :
    SuffixTrouble (ps ++ [q]) x ↔ SuffixTrouble ps x := by
  have hl : ∀ l, Leads (ps ++ [q]) l ↔ Leads ps l := by
    intro l; rw [leads_append, leads_one, hq]; simp
  have ht : Table.of (ps ++ [q]) = Table.of ps := by
    rw [table_snoc]; unfold Table.add; rw [hq]
  have n2 : ∀ l, ¬ ∃ rest, rest ≠ [] ∧ q.pattern = .literal l :: rest := by intro l; rw [hq]; simp
  unfold SuffixTrouble
  simp only [hl, ht, chosen_congr hl, lastWith_snoc (P := fun toks => ∃ rest, rest ≠ [] ∧ toks = .literal _ :: rest) (n2 _)]

/-- C98 for several additions: nothing changes for a text that has more in common with a leading literal that is there already than with those of all
the patterns that are added. -/
theorem C98_farther_sequence (sip : Bytes → UInt64) (ps qs : List Pattern) (hu : ∀ p ∈ ps ++ qs, Utf8Lits p) (hcol : NoCollision sip (ps ++ qs))
    (text : Bytes) (hx : Utf8 text) (l0 c0 : Bytes) (h0 : Leads ps l0) (hc0 : LongestCommonPrefix l0 text c0)
    (hq : ∀ q ∈ qs, ∀ l, q.pattern.head? = some (.literal l) → ∀ c, LongestCommonPrefix l text c → c.length < c0.length) :
    (SuffixTable.build sip (ps ++ qs) >>= fun t => t.parse text) = (SuffixTable.build sip ps >>= fun t => t.parse text) := by
  induction qs generalizing ps with
  | nil => rw [List.append_nil]
  | cons q qs ih =>
    have e : ps ++ q :: qs = (ps ++ [q]) ++ qs := by simp
    rw [e] at hu hcol ⊢
    have hu1 : ∀ p ∈ ps ++ [q], Utf8Lits p := fun p hp => hu p (List.mem_append_left _ hp)
    have hcol1 := noCollision_sub hcol (qs := ps ++ [q]) (fun p hp => List.mem_append_left _ hp)
    rw [ih (ps ++ [q]) hu hcol (leads_append.mpr (.inl h0)) (fun q' hq' => hq q' (by simp [hq']))]
    cases hqp : q.pattern with
    | nil =>
      exact outcome_same (fun p hp => hu1 p (by simp [hp])) (noCollision_sub hcol1 (fun p hp => by simp [hp])) hu1 hcol1 hx
        (fun r => (suffixAnswer_no_tokens hqp).mp) (suffixTrouble_no_tokens hqp)
    | cons tok rest =>
      cases tok with
      | literal l =>
        have hlu : Utf8 l := hu1 q (by simp) l (by rw [hqp]; simp)
        have hc := (lcp_iff hlu hx).mpr rfl
        exact C98_farther sip ps q hu1 hcol1 l rest hqp text hx l0 _ c0 h0 hc hc0 (hq q (by simp) l (by rw [hqp]; rfl) _ hc)
      | parser a => exact C98_parser_led_dead sip ps q hu1 hcol1 a (by rw [hqp]; rfl) ⟨l0, h0⟩ text hx

/-! Histories meeting the hypotheses, and all the cases. -/

/-- The answers of the suffix array for the text `x` before and after adding `q`. -/
def suffixBeforeAfter (ps : List Pattern) (q : Pattern) (x : Bytes) : M (Option Nat × Option Nat) := do
  let t ← SuffixTable.build Samples.sip ps
  let r ← t.parse x
  let t ← SuffixTable.build Samples.sip (ps ++ [q])
  let r' ← t.parse x
  return (r.map fun r => r.pattern.uuid, r'.map fun r => r.pattern.uuid)

/-- `app %{INT}` and `egy%{INT}`. -/
def suffixChangeSample : List Pattern :=
  [Samples.pat 1 [.literal b!"app ", .parser (Samples.int b!"i")], Samples.pat 2 [.literal b!"egy", .parser (Samples.int b!"i")]]

example : Leads suffixChangeSample b!"egy" ∧ (∀ p ∈ suffixChangeSample, Utf8Lits p) ∧ NoCollision Samples.sip suffixChangeSample := by
  refine ⟨⟨_, List.mem_cons_of_mem _ (List.mem_cons_self ..), rfl⟩, fun p hp l hl => ?_, ?_⟩
  · simp [suffixChangeSample] at hp
    rcases hp with rfl | rfl <;> simp [Samples.pat] at hl <;> subst hl <;> exact ascii_utf8 (by decide)
  · rintro a b ⟨p, hp, ha⟩ ⟨q, hq, hb⟩ _
    simp [suffixChangeSample] at hp hq
    rcases hp with rfl | rfl <;> simp [Samples.pat] at ha <;> subst ha <;> rcases hq with rfl | rfl <;> simp [Samples.pat] at hb <;> exact hb.symm

/-- The answer stays (`egy` has more in common with `egy7` than `apple` has), becomes a match of the new pattern, is lost
(`app 5 x` has more in common with `app 57` than `app ` has), becomes a match of the new pattern with the same literal, and a parser-led pattern is never asked. -/
example : suffixBeforeAfter suffixChangeSample (Samples.pat 3 [.literal b!"apple"]) b!"egy7" = .ok (some 2, some 2) ∧
    suffixBeforeAfter suffixChangeSample (Samples.pat 3 [.literal b!"app 5"]) b!"app 5" = .ok (some 1, some 3) ∧
    suffixBeforeAfter suffixChangeSample (Samples.pat 3 [.literal b!"app 5 x"]) b!"app 57" = .ok (some 1, none) ∧
    suffixBeforeAfter suffixChangeSample (Samples.pat 3 [.literal b!"app ", .parser (Samples.greedy b!"g" none)]) b!"app 5" = .ok (some 1, some 3) ∧
    suffixBeforeAfter suffixChangeSample (Samples.pat 3 [.parser (Samples.greedy b!"g" none)]) b!"x" = .ok (none, none) := by decide +kernel

/-- The common beginnings of the first case: of `apple` and `egy7` none, of `egy` and `egy7` all of `egy`. -/
example : LongestCommonPrefix b!"apple" b!"egy7" [] ∧ LongestCommonPrefix b!"egy" b!"egy7" b!"egy" := by
  refine ⟨⟨⟨[], by decide⟩, by simp, by simp, ?_⟩, ⟨ascii_utf8 (by decide), by simp, by simp, fun c' _ h _ => h.length_le⟩⟩
  rintro c' _ ⟨y, hy⟩ ⟨z, hz⟩
  cases c' with
  | nil => simp
  | cons b c' => simp at hy hz; rw [hy.1] at hz; simp at hz

/-- The first literal-led pattern takes the texts away from the parser-led ones. -/
example : suffixBeforeAfter [Samples.pat 1 [.parser (Samples.int b!"i")]] (Samples.pat 2 [.literal b!"x"]) b!"5" = .ok (some 1, none) ∧
    suffixBeforeAfter [Samples.pat 1 [.parser (Samples.int b!"i")]] (Samples.pat 2 [.parser (Samples.int b!"i"), .literal b!" ", .parser (Samples.int b!"j")]) b!"5" =
      .ok (some 1, none) ∧
    suffixBeforeAfter [Samples.pat 1 [.parser (Samples.int b!"i")]] (Samples.pat 2 [.parser (Samples.greedy b!"g" none)]) b!"x" =
      .ok (none, some 2) := by decide +kernel

end Verif
