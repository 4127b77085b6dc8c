import Verif.Proofs.Loader
import Verif.Props.C15_C24_Trie
/-! C40–C45: building matchers from sources of patterns; test messages. -/
namespace Verif
open Spec

variable {T : Type}

/-- C40: `from_source` returns a matcher iff all items of the source are patterns, the matcher is the one built from them, and all test messages of
each pattern pass in the matcher that has just got this pattern.  Then all items were looked at. -/
theorem C40_from_source_ok (I : MatcherImpl T) (items : List BuildResult) (m : T) (rest : List BuildResult) :
    fromSource I items = .ok (.ok m, rest) ↔ rest = [] ∧ ∃ ps, items = ps.map .ok ∧ Validated I ps m := fromSource_ok I items m rest

/-- C41: `from_source` returns an error iff it is that of the first item which is an error or does not pass its test messages in the matcher built
from the items before; `rest` are the items it did not look at. -/
theorem C41_from_source_error (I : MatcherImpl T) (items : List BuildResult) (e : BuildError) (rest : List BuildResult) :
    fromSource I items = .ok (.error e, rest) ↔ ∃ ps bad m, items = ps.map .ok ++ bad :: rest ∧ Validated I ps m ∧ Problem I m bad e :=
  fromSource_error I items e rest

/-- C41: the items after the first problem do not matter. -/
theorem C41_later_items_ignored (I : MatcherImpl T) (items rest rest' : List BuildResult) (e : BuildError)
    (h : fromSource I (items ++ rest) = .ok (.error e, rest)) : fromSource I (items ++ rest') = .ok (.error e, rest') := by
  rw [C41_from_source_error] at h ⊢
  obtain ⟨ps, bad, m, h1, h2, h3⟩ := h
  refine ⟨ps, bad, m, ?_, h2, h3⟩
  have : items = ps.map .ok ++ [bad] := by
    apply List.append_cancel_right (bs := rest)
    rw [h1]; simp
  rw [this]; simp

/-- C41: the only way to neither succeed nor fail is a panic in adding a pattern or in parsing a test message. -/
theorem C41_panic (I : MatcherImpl T) (items : List BuildResult) (e : Panic) :
    fromSource I items = .error e ↔ ∃ ps p rest m, items = ps.map .ok ++ .ok p :: rest ∧ Validated I ps m ∧ Panics I m p e :=
  fromSource_panic I items e

/-- C42: `from_source_ignore_errors` returns exactly the matcher built from all patterns the source delivers, provided that nothing panics. -/
theorem C42_ignore_errors (I : MatcherImpl T) (items : List BuildResult) (m : T) :
    fromSourceIgnoreErrors I items = .ok m ↔
      built I (delivered items) = .ok m ∧
      ∀ pre p post m1 e, delivered items = pre ++ p :: post → built I pre = .ok m1 → ¬ Panics I m1 p e :=
  ignoreLoop I items m I.new

/-- C42: it panics exactly if a pattern panics in the matcher built from the patterns before; the first of them determines the panic. -/
theorem C42_panic (I : MatcherImpl T) (items : List BuildResult) (e : Panic) :
    fromSourceIgnoreErrors I items = .error e ↔
      ∃ pre p post m, delivered items = pre ++ p :: post ∧ built I pre = .ok m ∧
        (∀ pre' q post' m' e', pre = pre' ++ q :: post' → built I pre' = .ok m' → ¬ Panics I m' q e') ∧ Panics I m p e :=
  ignoreLoop_panic I items e I.new

theorem delivered_map_ok (ps : List Pattern) : delivered (ps.map .ok) = ps := by
  unfold delivered
  rw [List.filterMap_map]
  exact List.filterMap_some

/-- C42: it is the matcher `from_source` returns, if that returns one. -/
theorem C42_agrees (I : MatcherImpl T) (items rest : List BuildResult) (m : T) (h : fromSource I items = .ok (.ok m, rest)) :
    fromSourceIgnoreErrors I items = .ok m := by
  rw [C40_from_source_ok] at h
  obtain ⟨rfl, ps, rfl, h1, h2⟩ := h
  rw [C42_ignore_errors, delivered_map_ok]
  refine ⟨h1, ?_⟩
  intro pre p post m1 e he hb hp
  obtain ⟨m2, h3, h4⟩ := h2 pre p post he
  have ha : I.addPattern m1 (loaded p) = .ok m2 := by
    unfold built at hb h3
    rw [List.map_append, List.foldlM_append, hb] at h3
    simp only [bind, Except.bind, List.map_cons, List.map_nil, List.foldlM_cons, List.foldlM_nil, pure, Except.pure] at h3
    cases h5 : I.addPattern m1 (loaded p) with
    | error e => rw [h5] at h3; simp at h3
    | ok m3 => rw [h5] at h3; simpa using h3
  exact panics_not_pass hp ha h4

/-! ### Concrete sources -/

namespace Samples

def withTests (p : Pattern) (ms : List TestMessage) : Pattern := { p with testMessages := some ms }
def msg (text : Bytes) (values : BMap) (tags : Option (List Bytes)) : TestMessage := { message := text, values, tags }

/-- A pattern with fixed values, tags and two test messages. -/
def user : Pattern :=
  { Pattern.withUuid 1 with
    pattern := [.literal b!"user ", .parser (int b!"id")], values := some [(b!"kind", b!"login")], tags := some [b!"a", b!"b"],
    testMessages := some [msg b!"user 5" [(b!"id", b!"5"), (b!"kind", b!"login")] (some [b!"b"]), msg b!"user 77" [] none] }

def host : Pattern := withTests (pat 2 [.literal b!"host ", .parser (greedy b!"h" none)]) [msg b!"host x" [(b!"h", b!"x")] none]

/-- A pattern whose second test message expects a wrong value. -/
def wrong : Pattern := withTests (pat 3 [.literal b!"w", .parser (int b!"n")]) [msg b!"w1" [(b!"n", b!"1")] none, msg b!"w2" [(b!"n", b!"3")] none]

end Samples

/-- A source for which `from_source` returns a matcher. -/
example : ∃ m, fromSource (trieMatcher Samples.sip) [.ok Samples.user, .ok Samples.host] = .ok (.ok m, []) := by
  have : (match fromSource (trieMatcher Samples.sip) [.ok Samples.user, .ok Samples.host] with | .ok (.ok _, []) => true | _ => false) = true := by
    decide +kernel
  revert this
  split
  · rename_i m h; intro _; exact ⟨m, h⟩
  · simp

/-- One for which it returns an error, without looking at the last item. -/
example : (match fromSource (trieMatcher Samples.sip) [.ok Samples.user, .ok Samples.wrong, .ok Samples.host] with
    | .ok (.error e, rest) => decide (e = .testMessage (.valueNotMatch 3 b!"n" b!"3" b!"2") ∧ rest.length = 1)
    | _ => false) = true := by decide +kernel

/-- `from_source_ignore_errors` keeps the pattern with the failed test message. -/
example : (do let m ← fromSourceIgnoreErrors (trieMatcher Samples.sip) [.ok Samples.wrong, .error (.io 2), .ok Samples.host]; m.parse b!"w8")
    = .ok (some { pattern := { Samples.wrong with pattern := [], testMessages := some [] }, values := [(b!"n", b!"8")] }) := by decide +kernel

/-! ### C43 -/

/-- C43 is false: the test message of the first pattern passes, and is not matched by the finished matcher. -/
theorem C43_refuted : ∃ (ps : List Pattern) (t : SuffixTree) (p : Pattern) (msg : TestMessage), (∀ p ∈ ps, AsciiLits p) ∧
    fromSource (trieMatcher Samples.sip) (ps.map .ok) = .ok (.ok t, []) ∧ p ∈ ps ∧ msg ∈ testsOf p ∧ t.parse msg.message = .ok none := by
  let ps := [Samples.withTests (Samples.pat 1 [.literal b!"app", .parser (Samples.int b!"a"), .literal b!"x"]) [Samples.msg b!"app5x" [] none],
    Samples.withTests (Samples.pat 2 [.literal b!"app", .parser (Samples.int b!"a"), .literal b!"y"]) [Samples.msg b!"app5y" [] none]]
  have h : (match fromSource (trieMatcher Samples.sip) (ps.map .ok) with
      | .ok (.ok t, []) => decide (t.parse b!"app5x" = .ok none)
      | _ => false) = true := by decide +kernel
  revert h
  split
  · rename_i t h
    intro h2
    refine ⟨ps, t, ps[0], Samples.msg b!"app5x" [] none, ?_, h, by simp [ps], by simp [ps, testsOf, Samples.withTests], of_decide_eq_true h2⟩
    intro p hp l hl
    simp [ps] at hp
    rcases hp with rfl | rfl <;> simp [Samples.pat, Samples.withTests] at hl <;> rcases hl with rfl | rfl <;> decide
  · simp

theorem built_trie (sip : Bytes → UInt64) (ps : List Pattern) : built (trieMatcher sip) ps = SuffixTree.build sip (ps.map loaded) := rfl

/-- A message that passed passes in the finished trie if the trie built from all patterns gives the same answer for it as the one built from the
patterns up to its own. -/
theorem still_passes {sip : Bytes → UInt64} {ps : List Pattern} {t : SuffixTree} {rest : List BuildResult}
    (h : fromSource (trieMatcher sip) (ps.map .ok) = .ok (.ok t, rest)) {p : Pattern} (hp : p ∈ ps) {msg : TestMessage} (hm : msg ∈ testsOf p)
    {a : Option MatchResult}
    (same : ∀ pre post m1 r, ps = pre ++ p :: post → SuffixTree.build sip ((pre ++ [p]).map loaded) = .ok m1 →
      SuffixTree.build sip (ps.map loaded) = .ok t → m1.parse msg.message = .ok (some r) → a = some r) : Passes p.uuid msg a := by
  rw [C40_from_source_ok] at h
  obtain ⟨-, qs, he, hb, hv⟩ := h
  have : ps = qs := by
    have := congrArg delivered he
    rwa [delivered_map_ok, delivered_map_ok] at this
  subst this
  obtain ⟨pre, post, hpp⟩ := List.append_of_mem hp
  obtain ⟨m1, hm1, hall⟩ := hv pre p post hpp
  obtain ⟨b, hb1, r, rfl, hr⟩ := hall msg hm
  exact ⟨r, same pre post m1 r hpp hm1 hb hb1, hr⟩

theorem utf8Lits_loaded {p : Pattern} (h : Utf8Lits p) : Utf8Lits (loaded p) := h
theorem nonemptyLits_loaded {p : Pattern} (h : NonemptyLits p) : NonemptyLits (loaded p) := h

theorem incomparable_loaded {ps : List Pattern} (h : Incomparable ps) : Incomparable (ps.map loaded) := by
  refine ⟨?_, ?_⟩
  · intro p hp
    simp at hp
    obtain ⟨q, hq, rfl⟩ := hp
    exact h.1 q hq
  · rw [List.pairwise_map]; exact h.2

theorem incomparable_prefix {ps qs : List Pattern} (h : Incomparable (ps ++ qs)) : Incomparable ps :=
  ⟨fun p hp => h.1 p (by simp [hp]), (List.pairwise_append.mp h.2).1⟩

/-- C43 for patterns starting with literals none of which is a prefix of another: what passed when it was checked passes in the finished matcher
(unless the final `parse` panics). -/
theorem C43_incomparable_partial (sip : Bytes → UInt64) (ps : List Pattern) (hu : ∀ p ∈ ps, Utf8Lits p) (hl : ∀ p ∈ ps, NonemptyLits p)
    (hinc : Incomparable ps) (t : SuffixTree) (rest : List BuildResult) (h : fromSource (trieMatcher sip) (ps.map .ok) = .ok (.ok t, rest))
    (p : Pattern) (hp : p ∈ ps) (msg : TestMessage) (hm : msg ∈ testsOf p) (hx : Utf8 msg.message) (a : Option MatchResult)
    (ha : t.parse msg.message = .ok a) : Passes p.uuid msg a := by
  refine still_passes h hp hm ?_
  intro pre post m1 r hpp hm1 ht hr
  have e : pre ++ p :: post = (pre ++ [p]) ++ post := by simp
  have hu' : ∀ q ∈ (pre ++ [p]).map loaded, Utf8Lits q := by
    intro q hq
    obtain ⟨q', hq', rfl⟩ := List.mem_map.mp hq
    exact utf8Lits_loaded (hu q' (by rw [hpp, e]; exact List.mem_append_left _ hq'))
  have hl' : ∀ q ∈ (pre ++ [p]).map loaded, NonemptyLits q := by
    intro q hq
    obtain ⟨q', hq', rfl⟩ := List.mem_map.mp hq
    exact nonemptyLits_loaded (hl q' (by rw [hpp, e]; exact List.mem_append_left _ hq'))
  have hinc' : Incomparable (pre ++ [p]) := by rw [hpp, e] at hinc; exact incomparable_prefix hinc
  obtain ⟨q, hq, caps, hc, hres⟩ := (C19_incomparable sip _ hu' hl' (incomparable_loaded hinc') m1 hm1 _ hx _ hr).2 r rfl
  have full := C19_incomparable sip (ps.map loaded)
    (by intro q hq; obtain ⟨q', hq', rfl⟩ := List.mem_map.mp hq; exact utf8Lits_loaded (hu q' hq'))
    (by intro q hq; obtain ⟨q', hq', rfl⟩ := List.mem_map.mp hq; exact nonemptyLits_loaded (hl q' hq'))
    (incomparable_loaded hinc) t ht _ hx _ ha
  have hq' : q ∈ ps.map loaded := by rw [hpp, e, List.map_append]; exact List.mem_append_left _ hq
  obtain ⟨res, h1, h2⟩ := full.1 q hq' caps hc
  rw [h1, isResult_unique h2 hres]

theorem first_of_exists {α : Type} {Q : α → Prop} {l : List α} (h : ∃ x ∈ l, Q x) : ∃ A x B, l = A ++ x :: B ∧ (∀ y ∈ A, ¬ Q y) ∧ Q x := by
  classical
  induction l with
  | nil => obtain ⟨x, hx, _⟩ := h; simp at hx
  | cons y l ih =>
    by_cases hy : Q y
    · exact ⟨[], y, l, rfl, by simp, hy⟩
    · obtain ⟨x, hx, hq⟩ := h
      rcases List.mem_cons.mp hx with rfl | hx
      · exact absurd hq hy
      · obtain ⟨A, z, B, e, hA, hz⟩ := ih ⟨x, hx, hq⟩
        refine ⟨y :: A, z, B, by rw [e]; rfl, ?_, hz⟩
        intro w hw
        rcases List.mem_cons.mp hw with rfl | hw
        · exact hy
        · exact hA w hw

/-- C43 for patterns starting with different parsers (unless the final `parse` panics). -/
theorem C43_parser_led_partial (sip : Bytes → UInt64) (ps : List Pattern) (hu : ∀ p ∈ ps, Utf8Lits p) (hl : ∀ p ∈ ps, NonemptyLits p)
    (hled : DistinctParserLed ps) (hcol : NoCollision sip ps) (t : SuffixTree) (rest : List BuildResult)
    (h : fromSource (trieMatcher sip) (ps.map .ok) = .ok (.ok t, rest)) (p : Pattern) (hp : p ∈ ps) (msg : TestMessage) (hm : msg ∈ testsOf p)
    (hx : Utf8 msg.message) (a : Option MatchResult) (ha : t.parse msg.message = .ok a) : Passes p.uuid msg a := by
  refine still_passes h hp hm ?_
  intro pre post m1 r hpp hm1 ht hr
  have e : pre ++ p :: post = (pre ++ [p]) ++ post := by simp
  have sub : ∀ q ∈ pre ++ [p], q ∈ ps := by intro q hq; rw [hpp, e]; exact List.mem_append_left _ hq
  have general : ∀ qs : List Pattern, (∀ q ∈ qs, q ∈ ps) → DistinctParserLed qs → ∀ t' a', SuffixTree.build sip (qs.map loaded) = .ok t' →
      t'.parse msg.message = .ok a' → FirstAnswer (qs.map loaded) msg.message a' := by
    intro qs hqs hd t' a' hb hr'
    refine C22_insertion_order sip _ ?_ ?_ ?_ ?_ t' hb _ hx _ hr'
    · intro q hq; obtain ⟨q', hq', rfl⟩ := List.mem_map.mp hq; exact utf8Lits_loaded (hu q' (hqs q' hq'))
    · intro q hq; obtain ⟨q', hq', rfl⟩ := List.mem_map.mp hq; exact nonemptyLits_loaded (hl q' (hqs q' hq'))
    · refine ⟨?_, ?_⟩
      · intro q hq; obtain ⟨q', hq', rfl⟩ := List.mem_map.mp hq; exact hd.1 q' hq'
      · rw [List.pairwise_map]; exact hd.2
    · rintro a b ⟨q, hq, ha⟩ ⟨q2, hq2, hb⟩ hh
      obtain ⟨q', hq', rfl⟩ := List.mem_map.mp hq
      obtain ⟨q2', hq2', rfl⟩ := List.mem_map.mp hq2
      exact hcol a b ⟨q', hqs q' hq', ha⟩ ⟨q2', hqs q2' hq2', hb⟩ hh
  have hled' : DistinctParserLed (pre ++ [p]) := by
    rw [hpp, e] at hled
    exact ⟨fun q hq => hled.1 q (List.mem_append_left _ hq), (List.pairwise_append.mp hled.2).1⟩
  have f1 := general _ sub hled' m1 _ hm1 hr
  have f2 := general ps (fun _ h => h) hled t _ ht ha
  have hex : ∃ q ∈ (pre ++ [p]).map loaded, ∃ caps, MatchesStrict q.pattern msg.message caps := by
    by_cases hc : ∃ q ∈ (pre ++ [p]).map loaded, ∃ caps, MatchesStrict q.pattern msg.message caps
    · exact hc
    · have := f1.2 (fun q hq hh => hc ⟨q, hq, hh⟩)
      simp at this
  obtain ⟨A, q, B, he, hA, caps, hq⟩ := first_of_exists hex
  obtain ⟨r1, h1, h2⟩ := f1.1 A q B caps he hA hq
  simp at h1; subst h1
  obtain ⟨r2, h3, h4⟩ := f2.1 A q (B ++ post.map loaded) caps (by rw [hpp, e, List.map_append, he]; simp) hA hq
  rw [h3, isResult_unique h4 h2]

/-- C43 for literal patterns no two of which are the same (unless the final `parse` panics). -/
theorem C43_literals_partial (sip : Bytes → UInt64) (ps : List Pattern) (hu : ∀ p ∈ ps, Utf8Lits p)
    (hl : ∀ p ∈ ps, ∃ l, p.pattern = [.literal l]) (hd : ps.Pairwise fun p q => p.pattern ≠ q.pattern) (t : SuffixTree) (rest : List BuildResult)
    (h : fromSource (trieMatcher sip) (ps.map .ok) = .ok (.ok t, rest)) (p : Pattern) (hp : p ∈ ps) (msg : TestMessage) (hm : msg ∈ testsOf p)
    (hx : Utf8 msg.message) (a : Option MatchResult) (ha : t.parse msg.message = .ok a) : Passes p.uuid msg a := by
  refine still_passes h hp hm ?_
  intro pre post m1 r hpp hm1 ht hr
  have e : pre ++ p :: post = (pre ++ [p]) ++ post := by simp
  have sub : ∀ q ∈ pre ++ [p], q ∈ ps := by intro q hq; rw [hpp, e]; exact List.mem_append_left _ hq
  have general : ∀ qs : List Pattern, (∀ q ∈ qs, q ∈ ps) → ∀ t' a', SuffixTree.build sip (qs.map loaded) = .ok t' →
      t'.parse msg.message = .ok a' →
      a' = (lastFor (qs.map loaded) msg.message).map fun p => { pattern := { p with pattern := [] }, values := [] } := by
    intro qs hqs t' a' hb hr'
    refine C16_literal_map sip _ ?_ ?_ t' hb _ hx _ hr'
    · intro q hq; obtain ⟨q', hq', rfl⟩ := List.mem_map.mp hq; exact utf8Lits_loaded (hu q' (hqs q' hq'))
    · intro q hq; obtain ⟨q', hq', rfl⟩ := List.mem_map.mp hq; exact hl q' (hqs q' hq')
  have f1 := general _ sub m1 _ hm1 hr
  have f2 := general ps (fun _ h => h) t _ ht ha
  cases hlf : lastFor ((pre ++ [p]).map loaded) msg.message with
  | none => rw [hlf] at f1; simp at f1
  | some q =>
    have hd2 : (ps.map loaded).Pairwise fun p q => p.pattern ≠ q.pattern := by rw [List.pairwise_map]; exact hd
    have hd1 : ((pre ++ [p]).map loaded).Pairwise fun p q => p.pattern ≠ q.pattern := by
      rw [hpp, e, List.map_append] at hd2
      exact (List.pairwise_append.mp hd2).1
    have h1 := (lastFor_distinct hd1).mp hlf
    have h2 : lastFor (ps.map loaded) msg.message = some q :=
      (lastFor_distinct hd2).mpr ⟨by rw [hpp, e, List.map_append]; exact List.mem_append_left _ h1.1, h1.2⟩
    rw [f2, f1, hlf, h2]

/-- The two sample patterns meet the hypotheses of `C43_incomparable_partial` (and, by the example above, `from_source` accepts them). -/
example : Incomparable [Samples.user, Samples.host] := by
  refine ⟨?_, ?_⟩
  · intro p hp
    simp at hp
    rcases hp with rfl | rfl <;> exact ⟨_, _, rfl⟩
  · simp only [List.pairwise_cons, List.mem_cons, List.not_mem_nil, or_false, forall_eq, Samples.user, Samples.host, Samples.withTests, Samples.pat,
      List.cons.injEq, Token.literal.injEq, and_imp]
    refine ⟨?_, by simp⟩
    rintro _ _ _ _ rfl rfl rfl rfl
    decide

/-! ### C44 -/

/-- C44: a test message accepts a match result iff the expected tags are there and every expected value is there. -/
theorem C44_verdict (msg : TestMessage) (r : MatchResult) : msg.testResult r = .ok () ↔ TagsOk msg r ∧ ValuesOk msg r := testResult_ok msg r

/-- C44: otherwise the error names the first check that is violated. -/
theorem C44_error (msg : TestMessage) (r : MatchResult) (e : TestError) : msg.testResult r = .error e ↔ Rejects msg r e := testResult_error msg r e

/-- C44: the value of a key is the captured one if there is one, and else the fixed one. -/
theorem C44_value (r : MatchResult) (h : OrderedMap r.values) (h' : ∀ vs, r.pattern.values = some vs → OrderedMap vs) (k : Bytes) :
    valueOf r k = (r.values.get? k).or (r.pattern.values.bind fun vs => vs.get? k) := valueOf_ordered h h' k

example : Rejects (Samples.msg b!"x" [(b!"id", b!"5"), (b!"kind", b!"logout")] (some [b!"b"]))
    { pattern := Samples.user, values := [(b!"id", b!"5")] } (.valueNotMatch 1 b!"kind" b!"logout" b!"login") := by
  rw [← C44_error]; decide

/-! ### C45 -/

/-- C45: the iterator over a pattern file delivers its patterns, the last one first. -/
theorem C45_file_order (ps : List Pattern) : fileItems ps = ps.reverse.map .ok := fileItems_eq ps

/-- C45: the test messages of a pattern are taken out, the last one first, and nothing else of the pattern changes. -/
theorem C45_message_order (p : Pattern) :
    extractTestMessages p = ((p.testMessages.getD []).reverse, { p with testMessages := p.testMessages.map fun _ => [] }) := extract_eq p

end Verif
