import Verif.Props.C79_Change
import Verif.Props.C77_C78_FileToAnswer
/-! C81: what becomes of a test message that passed when it was checked. -/
namespace Verif
open Spec

/-- No two patterns begin with the same parser. -/
def DifferentLeadingParsers (ps : List Pattern) : Prop :=
  ps.Pairwise fun p q => ∀ a, q.pattern.head? = some (.parser a) → p.pattern.head? ≠ some (.parser a)

theorem plain_loaded {sip : Bytes → UInt64} {ps : List Pattern} (h : Plain sip ps) : Plain sip (ps.map loaded) := by
  have h' : Plain sip ps.reverse := plain_sub h (fun p hp => List.mem_reverse.mp hp)
  have := (⟨loaded_mem (P := AsciiLits) (fun _ => Iff.rfl) h'.ascii, loaded_mem (P := NonemptyLits) (fun _ => Iff.rfl) h'.nonempty,
    loaded_mem (P := SplitLiterals) (fun _ => Iff.rfl) h'.split, loaded_noCollision h'.hashes⟩ : Plain sip (ps.reverse.reverse.map loaded))
  rwa [List.reverse_reverse] at this

theorem proper_loaded {sip : Bytes → UInt64} {ps : List Pattern} (h : Proper sip ps) : Proper sip (ps.map loaded) := by
  have h' : Proper sip ps.reverse := proper_sub h (fun p hp => List.mem_reverse.mp hp)
  have := (⟨loaded_mem (P := Utf8Lits) (fun _ => Iff.rfl) h'.utf8, loaded_mem (P := NonemptyLits) (fun _ => Iff.rfl) h'.nonempty,
    loaded_mem (P := SplitLiterals) (fun _ => Iff.rfl) h'.split, loaded_noCollision h'.hashes⟩ : Proper sip (ps.reverse.reverse.map loaded))
  rwa [List.reverse_reverse] at this

theorem different_split {ps qs : List Pattern} (h : DifferentLeadingParsers (ps ++ qs)) :
    ∀ A q B a, qs.map loaded = A ++ q :: B → q.pattern.head? = some (.parser a) → ∀ p ∈ ps.map loaded ++ A, p.pattern.head? ≠ some (.parser a) := by
  intro A q B a e hq p hp
  have h' : ((ps ++ qs).map loaded).Pairwise fun p q => ∀ a, q.pattern.head? = some (.parser a) → p.pattern.head? ≠ some (.parser a) := by
    rw [List.pairwise_map]; exact h
  rw [List.map_append, e, ← List.append_assoc] at h'
  exact (List.pairwise_append.mp h').2.2 p hp q (by simp) a hq

theorem validated_answer {sip : Bytes → UInt64} {ps : List Pattern} (hps : Proper sip ps) (hd : DifferentLeadingParsers ps) {t : SuffixTree}
    (h : Validated (trieMatcher sip) ps t) {pre : List Pattern} {p : Pattern} {post : List Pattern} (hpp : ps = pre ++ p :: post)
    {msg : TestMessage} (hm : msg ∈ testsOf p) (hx : Utf8 msg.message) {a : Option MatchResult} (ha : (Table.of (ps.map loaded)).Answer msg.message a) :
    Passes p.uuid msg a ∨ a = none ∨
      ∃ q ∈ post, ∃ res caps, a = some res ∧ MatchesStrict q.pattern msg.message caps ∧ IsResult res (loaded q) caps := by
  obtain ⟨hb, hv⟩ := h
  obtain ⟨m1, hm1, hall⟩ := hv pre p post hpp
  obtain ⟨b, hb1, hpass⟩ := hall msg hm
  have e : ps = (pre ++ [p]) ++ post := by rw [hpp]; simp
  have hpl := proper_loaded hps
  have hm1t : SuffixTree.build sip ((pre ++ [p]).map loaded) = .ok m1 := hm1
  rw [e, List.map_append] at hpl ha
  rw [e] at hd
  have hb2 := proper_answer (proper_sub hpl (fun p hp => List.mem_append_left _ hp)) hx (r := b) (by rw [hm1t]; exact hb1)
  rcases answer_sequence (fun q hq => hpl.nonempty q (by simp only [List.mem_append]; exact .inr hq)) (different_split hd) hb2 ha with g | g | ⟨q, hq, g⟩
  · exact .inl (g ▸ hpass)
  · exact .inr (.inl g)
  · obtain ⟨q', hq', rfl⟩ := List.mem_map.mp hq
    exact .inr (.inr ⟨q', hq', g⟩)

/-- C81: a test message that passed when the matcher was built is, in the finished trie, still answered correctly, or not matched, or answered by a
pattern added later that the text does match (or `parse` panics, see C66). -/
theorem C81_validated (sip : Bytes → UInt64) (ps : List Pattern) (hps : Proper sip ps) (hd : DifferentLeadingParsers ps) (t : SuffixTree)
    (h : Validated (trieMatcher sip) ps t) (pre : List Pattern) (p : Pattern) (post : List Pattern) (hpp : ps = pre ++ p :: post)
    (msg : TestMessage) (hm : msg ∈ testsOf p) (hx : Utf8 msg.message) (a : Option MatchResult) (ha : t.parse msg.message = .ok a) :
    Passes p.uuid msg a ∨ a = none ∨
      ∃ q ∈ post, ∃ res caps, a = some res ∧ MatchesStrict q.pattern msg.message caps ∧ IsResult res (loaded q) caps :=
  validated_answer hps hd h hpp hm hx (proper_answer (proper_loaded hps) hx (by
    have hbt : SuffixTree.build sip (ps.map loaded) = .ok t := h.1
    rw [hbt]; exact ha))

/-- C81: with ASCII literals and an ASCII message, `parse` does not panic. -/
theorem C81_validated_ascii (sip : Bytes → UInt64) (ps : List Pattern) (hps : Plain sip ps) (hd : DifferentLeadingParsers ps) (t : SuffixTree)
    (h : Validated (trieMatcher sip) ps t) (pre : List Pattern) (p : Pattern) (post : List Pattern) (hpp : ps = pre ++ p :: post)
    (msg : TestMessage) (hm : msg ∈ testsOf p) (hx : Ascii msg.message) :
    ∃ a, t.parse msg.message = .ok a ∧ (Passes p.uuid msg a ∨ a = none ∨
      ∃ q ∈ post, ∃ res caps, a = some res ∧ MatchesStrict q.pattern msg.message caps ∧ IsResult res (loaded q) caps) := by
  have hpl := plain_loaded hps
  have hbt : SuffixTree.build sip (ps.map loaded) = .ok t := h.1
  obtain ⟨a, ha, ht⟩ := C65_table_ascii sip (ps.map loaded) hpl.ascii hpl.nonempty hpl.split hpl.hashes _ hx
  rw [hbt] at ha
  exact ⟨a, ha, validated_answer hps.proper hd h hpp hm (ascii_utf8 hx) ht⟩

/-- The answer for a text is left as it is by added patterns none of whose leading literals begins the text or parts, inside the text, from a
leading literal of a pattern before it, if there is a match already. -/
theorem answer_stays {ps qs : List Pattern}
    (hq : ∀ A q B a, qs = A ++ q :: B → q.pattern.head? = some (.parser a) → ∀ p ∈ ps ++ A, p.pattern.head? ≠ some (.parser a))
    {text : Bytes}
    (hl : ∀ q ∈ qs, ∀ l, q.pattern.head? = some (.literal l) → ¬ l <+: text ∧
      ∀ p ∈ ps ++ qs, ∀ l0, p.pattern.head? = some (.literal l0) → l0 ≠ l → ∀ c, c ≠ [] → c <+: text → ¬ CommonStart l0 l c)
    {r : MatchResult} {r' : Option MatchResult} (hr : (Table.of ps).Answer text (some r)) (hr' : (Table.of (ps ++ qs)).Answer text r') : r' = some r := by
  induction qs generalizing ps with
  | nil =>
    rw [List.append_nil] at hr'
    exact C65_answer_unique _ _ _ _ hr' hr
  | cons q qs ih =>
    have e : ps ++ q :: qs = (ps ++ [q]) ++ qs := by simp
    obtain ⟨r1, h1⟩ := C65_answer_exists (ps ++ [q]) text
    have key : r1 = some r := by
      cases hqp : q.pattern with
      | nil => exact answer_no_tokens hqp hr h1
      | cons tok rest =>
        cases tok with
        | literal l =>
          obtain ⟨g1, g2⟩ := hl q (by simp) l (by rw [hqp]; rfl)
          rcases answer_other_texts hqp g1 hr h1 with g | ⟨_, p, hp, l0, rest0, e1, e2, c, c1, c2, c3⟩
          · exact g
          · exact absurd c3 (g2 p (by simp [hp]) l0 (by rw [e1]; rfl) e2 c c1 c2)
        | parser a =>
          rcases answer_new_parser hqp (fun p hp => hq [] q qs a rfl (by rw [hqp]; rfl) p (by simpa using hp)) hr h1 with g | ⟨g, _⟩
          · exact g
          · cases g
    subst key
    rw [e] at hr'
    refine ih ?_ ?_ h1 hr'
    · intro A q' B a e' h p hp
      refine hq (q :: A) q' B a (by rw [e']; rfl) h p ?_
      simpa [or_assoc] using hp
    · intro q' hq' l h
      obtain ⟨g1, g2⟩ := hl q' (by simp [hq']) l h
      exact ⟨g1, fun p hp => g2 p (by rw [e]; exact hp)⟩

theorem validated_stays {sip : Bytes → UInt64} {ps : List Pattern} (hps : Proper sip ps) (hd : DifferentLeadingParsers ps) {t : SuffixTree}
    (h : Validated (trieMatcher sip) ps t) {pre : List Pattern} {p : Pattern} {post : List Pattern} (hpp : ps = pre ++ p :: post)
    {msg : TestMessage} (hm : msg ∈ testsOf p) (hx : Utf8 msg.message)
    (hl : ∀ q ∈ post, ∀ l, q.pattern.head? = some (.literal l) → ¬ l <+: msg.message ∧
      ∀ p' ∈ ps, ∀ l0, p'.pattern.head? = some (.literal l0) → l0 ≠ l → ∀ c, c ≠ [] → c <+: msg.message → ¬ CommonStart l0 l c)
    {a : Option MatchResult} (ha : (Table.of (ps.map loaded)).Answer msg.message a) : Passes p.uuid msg a := by
  obtain ⟨hb, hv⟩ := h
  obtain ⟨m1, hm1, hall⟩ := hv pre p post hpp
  obtain ⟨b, hb1, r, rfl, hpass⟩ := hall msg hm
  have e : ps = (pre ++ [p]) ++ post := by rw [hpp]; simp
  have hpl := proper_loaded hps
  have hm1t : SuffixTree.build sip ((pre ++ [p]).map loaded) = .ok m1 := hm1
  refine ⟨r, ?_, hpass⟩
  rw [e, List.map_append] at hpl ha
  rw [e] at hd hl
  have hb2 := proper_answer (proper_sub hpl (fun p hp => List.mem_append_left _ hp)) hx (r := some r) (by rw [hm1t]; exact hb1)
  refine answer_stays (different_split hd) ?_ hb2 ha
  intro q hq l hql
  obtain ⟨q', hq', rfl⟩ := List.mem_map.mp hq
  obtain ⟨g1, g2⟩ := hl q' hq' l hql
  refine ⟨g1, ?_⟩
  intro p' hp' l0 h0
  rw [← List.map_append] at hp'
  obtain ⟨p'', hp'', rfl⟩ := List.mem_map.mp hp'
  exact g2 p'' hp'' l0 h0

/-- C81: the message passes in the finished trie if no leading literal of a later pattern begins the message or parts, inside the message, from
the leading literal of another pattern (unless `parse` panics, see C66). This is the part of C43 that holds. -/
theorem C81_still_passes (sip : Bytes → UInt64) (ps : List Pattern) (hps : Proper sip ps) (hd : DifferentLeadingParsers ps) (t : SuffixTree)
    (h : Validated (trieMatcher sip) ps t) (pre : List Pattern) (p : Pattern) (post : List Pattern) (hpp : ps = pre ++ p :: post)
    (msg : TestMessage) (hm : msg ∈ testsOf p) (hx : Utf8 msg.message)
    (hl : ∀ q ∈ post, ∀ l, q.pattern.head? = some (.literal l) → ¬ l <+: msg.message ∧
      ∀ p' ∈ ps, ∀ l0, p'.pattern.head? = some (.literal l0) → l0 ≠ l → ∀ c, c ≠ [] → c <+: msg.message → ¬ CommonStart l0 l c)
    (a : Option MatchResult) (ha : t.parse msg.message = .ok a) : Passes p.uuid msg a :=
  validated_stays hps hd h hpp hm hx hl (proper_answer (proper_loaded hps) hx (by
    have hbt : SuffixTree.build sip (ps.map loaded) = .ok t := h.1
    rw [hbt]; exact ha))

/-- C81: with ASCII literals and an ASCII message, `parse` does not panic. -/
theorem C81_still_passes_ascii (sip : Bytes → UInt64) (ps : List Pattern) (hps : Plain sip ps) (hd : DifferentLeadingParsers ps) (t : SuffixTree)
    (h : Validated (trieMatcher sip) ps t) (pre : List Pattern) (p : Pattern) (post : List Pattern) (hpp : ps = pre ++ p :: post)
    (msg : TestMessage) (hm : msg ∈ testsOf p) (hx : Ascii msg.message)
    (hl : ∀ q ∈ post, ∀ l, q.pattern.head? = some (.literal l) → ¬ l <+: msg.message ∧
      ∀ p' ∈ ps, ∀ l0, p'.pattern.head? = some (.literal l0) → l0 ≠ l → ∀ c, c ≠ [] → c <+: msg.message → ¬ CommonStart l0 l c) :
    PassesIn (trieMatcher sip) t p.uuid msg := by
  have hpl := plain_loaded hps
  have hbt : SuffixTree.build sip (ps.map loaded) = .ok t := h.1
  obtain ⟨a, ha, ht⟩ := C65_table_ascii sip (ps.map loaded) hpl.ascii hpl.nonempty hpl.split hpl.hashes _ hx
  rw [hbt] at ha
  exact ⟨a, ha, validated_stays hps.proper hd h hpp hm (ascii_utf8 hx) hl ht⟩

/-- C81 for files: in a trie loaded by `from_file` every test message of the file is answered correctly, or not matched, or answered by a pattern
that stands earlier in the file and that the text does match (or `parse` panics, which it does not if everything is ASCII). -/
theorem C81_from_file (d : Deps) (sip : Bytes → UInt64) (path : Bytes) (t : SuffixTree) (h : fromFile d (trieMatcher sip) path = .ok (.ok t)) :
    ∃ file, loadFile d path = .ok (.ok file) ∧
      (Proper sip file.patterns → DifferentLeadingParsers file.patterns.reverse → ∀ before p after, file.patterns = before ++ p :: after →
        ∀ msg ∈ testsOf p, Utf8 msg.message →
        (∀ a, t.parse msg.message = .ok a → Passes p.uuid msg a ∨ a = none ∨
          ∃ q ∈ before, ∃ res caps, a = some res ∧ MatchesStrict q.pattern msg.message caps ∧ IsResult res (loaded q) caps) ∧
        (Plain sip file.patterns → Ascii msg.message → ∃ a, t.parse msg.message = .ok a)) := by
  obtain ⟨file, hl, hv⟩ := (C60_from_file d _ path t).mp h
  refine ⟨file, hl, ?_⟩
  intro hps hd before p after e msg hm hx
  refine ⟨fun a ha => ?_, fun hpl hax => ?_⟩
  · have h2 := C81_validated sip _ (proper_sub hps (fun p hp => List.mem_reverse.mp hp)) hd t hv after.reverse p before.reverse
      (by rw [e]; simp) msg hm hx a ha
    rcases h2 with g | g | ⟨q, hq, g⟩
    · exact .inl g
    · exact .inr (.inl g)
    · exact .inr (.inr ⟨q, List.mem_reverse.mp hq, g⟩)
  · obtain ⟨a, ha, _⟩ := C81_validated_ascii sip _ (plain_sub hpl (fun p hp => List.mem_reverse.mp hp)) hd t hv after.reverse p before.reverse
      (by rw [e]; simp) msg hm hax
    exact ⟨a, ha⟩

/-! A list meeting the hypotheses, whose messages show the three outcomes. -/

/-- `app%{GREEDY}` with three test messages, `apple %{INT}` and `appl`. -/
def validatedSample : List Pattern :=
  [Samples.withTests (Samples.pat 1 [.literal b!"app", .parser (Samples.greedy b!"g" none)])
    [Samples.msg b!"app x" [(b!"g", b!" x")] none, Samples.msg b!"applx" [] none, Samples.msg b!"apple 1" [] none],
   Samples.pat 2 [.literal b!"apple ", .parser (Samples.int b!"i")],
   Samples.pat 3 [.literal b!"applause"]]

/-- The list is accepted. `app x` is still answered by the first pattern, `applx` is not matched any more and `apple 1` is answered by the second. -/
example : (match fromSource (trieMatcher Samples.sip) (validatedSample.map .ok) with
      | .ok (.ok t, []) => some ((t.parse b!"app x").map fun r => r.map fun r => r.pattern.uuid,
          (t.parse b!"applx").map fun r => r.map fun r => r.pattern.uuid, (t.parse b!"apple 1").map fun r => r.map fun r => r.pattern.uuid)
      | _ => none) = some (.ok (some 1), .ok none, .ok (some 2)) := by decide +kernel

example : DifferentLeadingParsers validatedSample := by
  simp [DifferentLeadingParsers, validatedSample, Samples.pat, Samples.withTests]

theorem validatedSample_plain : Plain Samples.sip validatedSample := by
  refine ⟨?_, ?_, ?_, ?_⟩
  · intro p hp l hl
    simp [validatedSample, Samples.pat, Samples.withTests] at hp
    rcases hp with rfl | rfl | rfl <;> simp at hl <;> subst hl <;> decide
  · intro p hp l hl
    simp [validatedSample, Samples.pat, Samples.withTests] at hp
    rcases hp with rfl | rfl | rfl <;> simp at hl <;> subst hl <;> decide
  · intro p hp l rest e l'
    simp [validatedSample, Samples.pat, Samples.withTests] at hp
    rcases hp with rfl | rfl | rfl <;> simp at e <;> first | (rw [e.2]; simp) | (rw [← e.2]; simp)
  · rintro a b ⟨p, hp, ha⟩ ⟨q, hq, hb⟩ h
    simp [validatedSample, Samples.pat, Samples.withTests] at hp hq
    rcases hp with rfl | rfl | rfl <;> simp at ha <;> subst ha <;> rcases hq with rfl | rfl | rfl <;> simp at hb <;> subst hb <;>
    first | rfl | (revert h; decide +kernel)

end Verif
