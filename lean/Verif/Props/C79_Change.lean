import Verif.Proofs.TableAnswer
/-! C79: how adding a pattern to the trie can change the answer for a text. -/
namespace Verif
open Spec

/-- C65: the table of every history has an answer for every text (and only one, see `C65_answer_unique`). -/
theorem C65_answer_exists (ps : List Pattern) (text : Bytes) : ∃ r, (Table.of ps).Answer text r := answer_exists (table_rows ps).1 text

/-- The conditions on a history under which the theorems hold: what every list of patterns compiled from UTF-8 strings satisfies. -/
structure Proper (sip : Bytes → UInt64) (ps : List Pattern) : Prop where
  utf8 : ∀ p ∈ ps, Utf8Lits p
  nonempty : ∀ p ∈ ps, NonemptyLits p
  split : ∀ p ∈ ps, SplitLiterals p
  hashes : NoCollision sip ps

/-- The same for ASCII strings. -/
structure Plain (sip : Bytes → UInt64) (ps : List Pattern) : Prop where
  ascii : ∀ p ∈ ps, AsciiLits p
  nonempty : ∀ p ∈ ps, NonemptyLits p
  split : ∀ p ∈ ps, SplitLiterals p
  hashes : NoCollision sip ps

theorem Plain.proper {sip : Bytes → UInt64} {ps : List Pattern} (h : Plain sip ps) : Proper sip ps :=
  ⟨fun p hp => asciiLits_utf8 (h.ascii p hp), h.nonempty, h.split, h.hashes⟩

theorem plain_compiled {sip : Bytes → UInt64} {ps : List Pattern} (hc : ∀ p ∈ ps, CompiledAscii p) (hcol : NoCollision sip ps) : Plain sip ps :=
  ⟨fun p hp => (compiledAscii_lits (hc p hp)).1, fun p hp => (compiledAscii_lits (hc p hp)).2.1, fun p hp => (compiledAscii_lits (hc p hp)).2.2, hcol⟩

theorem plain_sub {sip : Bytes → UInt64} {ps qs : List Pattern} (h : Plain sip ps) (hs : ∀ p ∈ qs, p ∈ ps) : Plain sip qs := by
  refine ⟨fun p hp => h.ascii p (hs p hp), fun p hp => h.nonempty p (hs p hp), fun p hp => h.split p (hs p hp), ?_⟩
  rintro a b ⟨p, hp, e⟩ ⟨q, hq, e'⟩
  exact h.hashes a b ⟨p, hs p hp, e⟩ ⟨q, hs q hq, e'⟩

theorem proper_sub {sip : Bytes → UInt64} {ps qs : List Pattern} (h : Proper sip ps) (hs : ∀ p ∈ qs, p ∈ ps) : Proper sip qs := by
  refine ⟨fun p hp => h.utf8 p (hs p hp), fun p hp => h.nonempty p (hs p hp), fun p hp => h.split p (hs p hp), ?_⟩
  rintro a b ⟨p, hp, e⟩ ⟨q, hq, e'⟩
  exact h.hashes a b ⟨p, hs p hp, e⟩ ⟨q, hs q hq, e'⟩

theorem proper_answer {sip : Bytes → UInt64} {ps : List Pattern} (h : Proper sip ps) {text : Bytes} (hx : Utf8 text) {r : Option MatchResult}
    (hr : (SuffixTree.build sip ps >>= fun t => t.parse text) = .ok r) : (Table.of ps).Answer text r := by
  cases hb : SuffixTree.build sip ps with
  | error e => rw [hb] at hr; simp [bind, Except.bind] at hr
  | ok t =>
    rw [hb] at hr
    exact C65_table sip ps h.utf8 h.nonempty h.split h.hashes t hb text hx r hr

/-! The changes of the table's answer. -/

theorem answer_literal_led {ps : List Pattern} {q : Pattern} {l : Bytes} {rest : List Token} (hne : NonemptyLits q)
    (hq : q.pattern = .literal l :: rest) {text : Bytes} {r r' : Option MatchResult}
    (h : (Table.of ps).Answer text r) (h' : (Table.of (ps ++ [q])).Answer text r') :
    r' = r ∨ r' = none ∨ ∃ res caps, r' = some res ∧ MatchesStrict q.pattern text caps ∧ IsResult res q caps := by
  rw [table_snoc] at h'
  have hadd : (Table.of ps).add q = ⟨addLiteralLed (Table.of ps).rows l rest.isEmpty q, (Table.of ps).parserLed⟩ := by
    unfold Table.add; rw [hq]
  rw [hadd] at h'
  by_cases hl : l <+: text
  · exact change_own (table_rows ps).1 hq (hne l (by rw [hq]; simp)) hl h h'
  · rcases change_other (table_rows ps).1 _ q hl h h' with g | ⟨g, _⟩
    · exact .inl g
    · exact .inr (.inl g)

theorem answer_other_texts {ps : List Pattern} {q : Pattern} {l : Bytes} {rest : List Token} (hq : q.pattern = .literal l :: rest) {text : Bytes}
    (hl : ¬ l <+: text) {r r' : Option MatchResult} (h : (Table.of ps).Answer text r) (h' : (Table.of (ps ++ [q])).Answer text r') :
    r' = r ∨ (r' = none ∧ ∃ p ∈ ps, ∃ l0 rest0, p.pattern = .literal l0 :: rest0 ∧ l0 ≠ l ∧ ∃ c, c ≠ [] ∧ c <+: text ∧ CommonStart l0 l c) := by
  rw [table_snoc] at h'
  have hadd : (Table.of ps).add q = ⟨addLiteralLed (Table.of ps).rows l rest.isEmpty q, (Table.of ps).parserLed⟩ := by
    unfold Table.add; rw [hq]
  rw [hadd] at h'
  rcases change_other (table_rows ps).1 _ q hl h h' with g | ⟨g, s, s1, s2, c, c1, c2, c3⟩
  · exact .inl g
  · obtain ⟨p, hp, rest0, e⟩ := (table_rows ps).2 s s1
    exact .inr ⟨g, p, hp, s.text, rest0, e, s2, c, c1, c2, c3⟩

theorem answer_new_parser {ps : List Pattern} {q : Pattern} {a : Parser} {rest : List Token} (hq : q.pattern = .parser a :: rest)
    (hnew : ∀ p ∈ ps, p.pattern.head? ≠ some (.parser a)) {text : Bytes} {r r' : Option MatchResult}
    (h : (Table.of ps).Answer text r) (h' : (Table.of (ps ++ [q])).Answer text r') :
    r' = r ∨ (r = none ∧ ∃ res caps, r' = some res ∧ MatchesStrict q.pattern text caps ∧ IsResult res q caps) := by
  rw [table_snoc] at h'
  have hadd : (Table.of ps).add q = ⟨(Table.of ps).rows, addParserLed a q (Table.of ps).parserLed⟩ := by
    unfold Table.add; rw [hq]
  rw [hadd] at h'
  exact change_new_parser (fun p hp => hnew p (table_parserLed ps p hp)) h h'

theorem answer_no_tokens {ps : List Pattern} {q : Pattern} (hq : q.pattern = []) {text : Bytes} {r r' : Option MatchResult}
    (h : (Table.of ps).Answer text r) (h' : (Table.of (ps ++ [q])).Answer text r') : r' = r := by
  rw [table_snoc] at h'
  have : (Table.of ps).add q = Table.of ps := by unfold Table.add; rw [hq]
  rw [this] at h'
  exact C65_answer_unique _ text _ _ h' h

theorem answer_sequence {ps qs : List Pattern} (hne : ∀ q ∈ qs, NonemptyLits q)
    (hq : ∀ A q B a, qs = A ++ q :: B → q.pattern.head? = some (.parser a) → ∀ p ∈ ps ++ A, p.pattern.head? ≠ some (.parser a))
    {text : Bytes} {r r' : Option MatchResult} (h : (Table.of ps).Answer text r) (h' : (Table.of (ps ++ qs)).Answer text r') :
    r' = r ∨ r' = none ∨ ∃ q ∈ qs, ∃ res caps, r' = some res ∧ MatchesStrict q.pattern text caps ∧ IsResult res q caps := by
  induction qs generalizing ps r with
  | nil =>
    rw [List.append_nil] at h'
    exact .inl (C65_answer_unique _ text _ _ h' h)
  | cons q qs ih =>
    have e : ps ++ q :: qs = (ps ++ [q]) ++ qs := by simp
    rw [e] at h'
    obtain ⟨r1, h1⟩ := C65_answer_exists (ps ++ [q]) text
    have hq' : ∀ A q' B a, qs = A ++ q' :: B → q'.pattern.head? = some (.parser a) → ∀ p ∈ (ps ++ [q]) ++ A, p.pattern.head? ≠ some (.parser a) := by
      intro A q' B a e' h p hp
      refine hq (q :: A) q' B a (by rw [e']; rfl) h p ?_
      simpa [or_assoc] using hp
    rcases ih (fun q' hq' => hne q' (by simp [hq'])) hq' h1 h' with g | g | ⟨q', g1, g2⟩
    · subst g
      cases hqp : q.pattern with
      | nil => exact .inl (answer_no_tokens hqp h h1)
      | cons tok rest =>
        cases tok with
        | literal l =>
          rcases answer_literal_led (hne q (by simp)) hqp h h1 with g | g | g
          · exact .inl g
          · exact .inr (.inl g)
          · exact .inr (.inr ⟨q, by simp, g⟩)
        | parser a =>
          rcases answer_new_parser hqp (fun p hp => hq [] q qs a rfl (by rw [hqp]; rfl) p (by simpa using hp)) h h1 with g | ⟨_, g⟩
          · exact .inl g
          · exact .inr (.inr ⟨q, by simp, g⟩)
    · exact .inr (.inl g)
    · exact .inr (.inr ⟨q', by simp [g1], g2⟩)

/-- C79: adding a pattern that begins with a literal leaves the answer for a text as it is, or makes it "no match", or it becomes the match of the
new pattern. It never becomes a match of another pattern. -/
theorem C79_literal_led (sip : Bytes → UInt64) (ps : List Pattern) (q : Pattern) (hps : Proper sip (ps ++ [q])) (l : Bytes) (rest : List Token)
    (hq : q.pattern = .literal l :: rest) (text : Bytes) (hx : Utf8 text) (r r' : Option MatchResult)
    (hr : (SuffixTree.build sip ps >>= fun t => t.parse text) = .ok r)
    (hr' : (SuffixTree.build sip (ps ++ [q]) >>= fun t => t.parse text) = .ok r') :
    r' = r ∨ r' = none ∨ ∃ res caps, r' = some res ∧ MatchesStrict q.pattern text caps ∧ IsResult res q caps :=
  answer_literal_led (hps.nonempty q (by simp)) hq (proper_answer (proper_sub hps (fun p hp => by simp [hp])) hx hr) (proper_answer hps hx hr')

/-- C79: if the text does not begin with the literal, the answer is left as it is, unless the text begins with a point where the literal parts from
a leading literal of an older pattern; then it can become "no match". -/
theorem C79_other_texts (sip : Bytes → UInt64) (ps : List Pattern) (q : Pattern) (hps : Proper sip (ps ++ [q])) (l : Bytes) (rest : List Token)
    (hq : q.pattern = .literal l :: rest) (text : Bytes) (hx : Utf8 text) (hl : ¬ l <+: text) (r r' : Option MatchResult)
    (hr : (SuffixTree.build sip ps >>= fun t => t.parse text) = .ok r)
    (hr' : (SuffixTree.build sip (ps ++ [q]) >>= fun t => t.parse text) = .ok r') :
    r' = r ∨ (r' = none ∧ ∃ p ∈ ps, ∃ l0 rest0, p.pattern = .literal l0 :: rest0 ∧ l0 ≠ l ∧ ∃ c, c ≠ [] ∧ c <+: text ∧ CommonStart l0 l c) :=
  answer_other_texts hq hl (proper_answer (proper_sub hps (fun p hp => by simp [hp])) hx hr) (proper_answer hps hx hr')

/-- C79: adding a pattern that begins with a parser leaves the answer as it is, unless it becomes the match of the new pattern, or it was the match
of an older pattern that begins with the same parser. -/
theorem C79_parser_led (sip : Bytes → UInt64) (ps : List Pattern) (q : Pattern) (hps : Proper sip (ps ++ [q])) (a : Parser) (rest : List Token)
    (hq : q.pattern = .parser a :: rest) (text : Bytes) (hx : Utf8 text) (r r' : Option MatchResult)
    (hr : (SuffixTree.build sip ps >>= fun t => t.parse text) = .ok r)
    (hr' : (SuffixTree.build sip (ps ++ [q]) >>= fun t => t.parse text) = .ok r') :
    r' = r ∨ (∃ res caps, r' = some res ∧ MatchesStrict q.pattern text caps ∧ IsResult res q caps) ∨
      ∃ p ∈ ps, p.pattern.head? = some (.parser a) ∧ ∃ res caps, r = some res ∧ MatchesStrict p.pattern text caps ∧ IsResult res p caps := by
  have h := proper_answer (proper_sub hps (fun p hp => by simp [hp])) hx hr
  have h' := proper_answer hps hx hr'
  rw [table_snoc] at h'
  have hadd : (Table.of ps).add q = ⟨(Table.of ps).rows, addParserLed a q (Table.of ps).parserLed⟩ := by
    unfold Table.add; rw [hq]
  rw [hadd] at h'
  rcases change_parser h h' with g | ⟨_, _, g | ⟨p, hp, g1, g2⟩⟩
  · exact .inl g
  · exact .inr (.inl g)
  · exact .inr (.inr ⟨p, table_parserLed ps p hp, g1, g2⟩)

/-- C79: adding a pattern that begins with a parser no older pattern begins with leaves every match as it is. -/
theorem C79_new_parser (sip : Bytes → UInt64) (ps : List Pattern) (q : Pattern) (hps : Proper sip (ps ++ [q])) (a : Parser) (rest : List Token)
    (hq : q.pattern = .parser a :: rest) (hnew : ∀ p ∈ ps, p.pattern.head? ≠ some (.parser a)) (text : Bytes) (hx : Utf8 text)
    (r r' : Option MatchResult) (hr : (SuffixTree.build sip ps >>= fun t => t.parse text) = .ok r)
    (hr' : (SuffixTree.build sip (ps ++ [q]) >>= fun t => t.parse text) = .ok r') :
    r' = r ∨ (r = none ∧ ∃ res caps, r' = some res ∧ MatchesStrict q.pattern text caps ∧ IsResult res q caps) :=
  answer_new_parser hq hnew (proper_answer (proper_sub hps (fun p hp => by simp [hp])) hx hr) (proper_answer hps hx hr')

/-- C79 for several additions: if none of the added patterns begins with a parser that a pattern before it begins with, the answer for a text stays,
or it becomes "no match" or the match of one of the new patterns. -/
theorem C79_sequence (sip : Bytes → UInt64) (ps qs : List Pattern) (hps : Proper sip (ps ++ qs))
    (hq : ∀ A q B a, qs = A ++ q :: B → q.pattern.head? = some (.parser a) → ∀ p ∈ ps ++ A, p.pattern.head? ≠ some (.parser a))
    (text : Bytes) (hx : Utf8 text) (r r' : Option MatchResult)
    (hr : (SuffixTree.build sip ps >>= fun t => t.parse text) = .ok r)
    (hr' : (SuffixTree.build sip (ps ++ qs) >>= fun t => t.parse text) = .ok r') :
    r' = r ∨ r' = none ∨ ∃ q ∈ qs, ∃ res caps, r' = some res ∧ MatchesStrict q.pattern text caps ∧ IsResult res q caps :=
  answer_sequence (fun q hq => hps.nonempty q (by simp [hq])) hq (proper_answer (proper_sub hps (fun p hp => by simp [hp])) hx hr) (proper_answer hps hx hr')

/-! Histories meeting the hypotheses, and all the cases. -/

theorem tableSample_plain : Plain Samples.sip tableSample := ⟨tableSample_ok.1, tableSample_ok.2.1, tableSample_ok.2.2, tableSample_hashes⟩

def changeSample : List Pattern := [Samples.pat 1 [.literal b!"app"], Samples.pat 2 [.parser (Samples.greedy b!"g" none)]]

/-- The answers for the text `x` before and after adding `q`. -/
def beforeAfter (q : Pattern) (x : Bytes) : M (Option Nat × Option Nat) := do
  let t ← SuffixTree.build Samples.sip changeSample
  let r ← t.parse x
  let t ← SuffixTree.build Samples.sip (changeSample ++ [q])
  let r' ← t.parse x
  return (r.map fun r => r.pattern.uuid, r'.map fun r => r.pattern.uuid)

/-- The answer stays, is lost at the point where `apricot` parts from `app`, or is the match of the new pattern. -/
example : beforeAfter (Samples.pat 3 [.literal b!"apricot"]) b!"axe" = .ok (some 2, some 2) ∧
    beforeAfter (Samples.pat 3 [.literal b!"apricot"]) b!"ape" = .ok (some 2, none) ∧
    beforeAfter (Samples.pat 3 [.literal b!"ap", .parser (Samples.int b!"i")]) b!"ap5" = .ok (some 2, none) ∧
    beforeAfter (Samples.pat 3 [.literal b!"b", .parser (Samples.int b!"i")]) b!"b5" = .ok (some 2, some 3) := by decide +kernel

/-- A pattern that begins with the same parser as an older one takes its texts away. -/
example : beforeAfter (Samples.pat 3 [.parser (Samples.greedy b!"g" none), .literal b!"!"]) b!"axe" = .ok (some 2, none) := by decide +kernel

/-- Texts and literals in other scripts. -/
example : beforeAfter (Samples.pat 3 [.literal b!"app", .parser (Samples.greedy b!"g" none)]) b!"app é" = .ok (some 2, some 3) ∧
    beforeAfter (Samples.pat 3 [.literal b!"bő", .parser (Samples.int b!"i")]) b!"bő5" = .ok (some 2, some 3) ∧
    beforeAfter (Samples.pat 3 [.literal b!"bő", .parser (Samples.int b!"i")]) b!"bó" = .ok (some 2, some 2) := by decide +kernel

end Verif
