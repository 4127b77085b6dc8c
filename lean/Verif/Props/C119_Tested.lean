import Verif.Props.C116_Kept
import Verif.Props.C77_C78_FileToAnswer
/-! C119: a test message shows that a pattern was not lost when it was added. -/
namespace Verif
open Spec

theorem proper_loaded {sip : Bytes → UInt64} {ps : List Pattern} (h : Proper sip ps) : Proper sip (ps.map loaded) := by
  have key : ∀ {P : Pattern → Prop}, (∀ p, P (loaded p) ↔ P p) → (∀ p ∈ ps, P p) → ∀ p ∈ ps.map loaded, P p := by
    intro P hP hps p hp
    obtain ⟨q, hq, rfl⟩ := List.mem_map.mp hp
    exact (hP q).mpr (hps q hq)
  refine ⟨key (fun _ => Iff.rfl) h.utf8, key (fun _ => Iff.rfl) h.nonempty, key (fun _ => Iff.rfl) h.split, ?_⟩
  rintro a b ⟨p', hp', e⟩ ⟨q', hq', e'⟩
  obtain ⟨p, hp, rfl⟩ := List.mem_map.mp hp'
  obtain ⟨q, hq, rfl⟩ := List.mem_map.mp hq'
  exact h.hashes a b ⟨p, hp, e⟩ ⟨q, hq, e'⟩

theorem uuidsTell_loaded {ps : List Pattern} (h : UuidsTell ps) : UuidsTell (ps.map loaded) := by
  intro p' hp' q' hq' e
  obtain ⟨p, hp, rfl⟩ := List.mem_map.mp hp'
  obtain ⟨q, hq, rfl⟩ := List.mem_map.mp hq'
  exact h p hp q hq e

theorem distinct_loaded {ps : List Pattern} (h : DistinctHeads ps) : DistinctHeads (ps.map loaded) := List.pairwise_map.mpr h

theorem distinct_reverse {ps : List Pattern} (h : DistinctHeads ps) : DistinctHeads ps.reverse :=
  List.pairwise_reverse.mpr (h.imp fun hpq l hq hp => hpq l hp hq)

theorem leading_loaded {ps : List Pattern} {l : Bytes} : Leading (ps.map loaded) l ↔ Leading ps l := by
  constructor
  · rintro ⟨p, hp, rest, e⟩
    obtain ⟨q, hq, rfl⟩ := List.mem_map.mp hp
    exact ⟨q, hq, rest, e⟩
  · rintro ⟨p, hp, rest, e⟩
    exact ⟨loaded p, List.mem_map_of_mem hp, rest, e⟩

theorem leading_reverse {ps : List Pattern} {l : Bytes} : Leading ps.reverse l ↔ Leading ps l := by simp [Leading]

theorem leavesAt_loaded {ps : List Pattern} {l x : Bytes} (h : LeavesAt ps l x) : LeavesAt (ps.map loaded) l x :=
  fun l' hl' => h l' (leading_loaded.mp hl')

theorem leavesAt_reverse {ps : List Pattern} {l x : Bytes} (h : LeavesAt ps l x) : LeavesAt ps.reverse l x :=
  fun l' hl' => h l' (leading_reverse.mp hl')

theorem validated_of {T : Type} {I : MatcherImpl T} {ps : List Pattern} {m : T} {rest : List BuildResult}
    (h : fromSource I (ps.map .ok) = .ok (.ok m, rest)) : Validated I ps m := by
  rw [C40_from_source_ok] at h
  obtain ⟨-, qs, he, hv⟩ := h
  have : ps = qs := by
    have := congrArg delivered he
    rwa [delivered_map_ok, delivered_map_ok] at this
  rw [this]; exact hv

/-- A text answered with a pattern that goes on after a literal is matched by it. -/
theorem answer_goesOn {ps : List Pattern} (hu : UuidsTell ps) {q : Pattern} {l : Bytes} (hq : q ∈ ps) (hl : GoesOn q l) {x : Bytes} {r : MatchResult}
    (h : (Table.of ps).Answer x (some r)) (e : r.pattern.uuid = q.uuid) : ∃ caps, MatchesStrict q.pattern x caps := by
  obtain ⟨rest, g, g'⟩ := hl
  rcases answer_origin h with ⟨row, h1, p, h2, h3⟩ | ⟨row, h1, p, h2, h3, hm⟩ | ⟨p, h1, h3⟩
  · obtain ⟨h4, h5⟩ := table_whole ps row h1 p h2
    have := hu p h4 q hq (by rw [← e, h3])
    rw [h5, g'] at this
    simp at this
    exact absurd this.2 g
  · have := hu p (rowAt_source ps row h1 p h2).1 q hq (by rw [← e, h3])
    rwa [this] at hm
  · have := hu p (table_parserLed ps p h1) q hq (by rw [← e, h3])
    exact absurd ⟨rest, g, this.trans g'⟩ (parserLed_source ps p h1 l)

/-- C119: if a source of patterns was loaded and a pattern that goes on after its first literal has a test message, the pattern was not lost when it was
added: the trie that held the patterns up to it answers every text the pattern matches with it. -/
theorem C119_kept_when_added (sip : Bytes → UInt64) (A B : List Pattern) (p : Pattern) (hps : Proper sip (A ++ p :: B)) (hu : UuidsTell (A ++ p :: B))
    (t : SuffixTree) (rest : List BuildResult) (h : fromSource (trieMatcher sip) ((A ++ p :: B).map .ok) = .ok (.ok t, rest)) (l : Bytes) (hp : GoesOn p l)
    (msg : TestMessage) (hm : msg ∈ testsOf p) (hmu : Utf8 msg.message) (text : Bytes) (hx : Utf8 text) (caps) (hmatch : MatchesStrict p.pattern text caps)
    (r : Option MatchResult) (hr : (built (trieMatcher sip) (A ++ [p]) >>= fun t => t.parse text) = .ok r) : ∃ res, r = some res ∧ IsResult res (loaded p) caps := by
  obtain ⟨m1, hb, hall⟩ := (validated_of h).2 A p B rfl
  obtain ⟨a, ha, res, rfl, hid, _⟩ := hall msg hm
  have hsub : ∀ q ∈ A ++ [p], q ∈ A ++ p :: B := by intro q hq; simp at hq ⊢; rcases hq with hq | hq <;> simp [hq]
  have hps' : Proper sip (A.map loaded ++ [loaded p]) := by simpa using proper_loaded (proper_sub hps hsub)
  have hu' : UuidsTell (A.map loaded ++ [loaded p]) := by
    simpa using uuidsTell_loaded (ps := A ++ [p]) fun x hx y hy => hu x (hsub x hx) y (hsub y hy)
  have hbuilt : built (trieMatcher sip) (A ++ [p]) = SuffixTree.build sip (A.map loaded ++ [loaded p]) := by rw [built_trie]; simp
  rcases C116_all_or_nothing sip (A.map loaded) (loaded p) hps' hu' l hp with hk | hn
  · exact hk text caps r hx hmatch (by rw [← hbuilt]; exact hr)
  · refine absurd hid (hn msg.message res hmu ?_)
    rw [← hbuilt, hb]
    exact ha

/-- C119: it stays the answer in the finished trie, for every text it matches that follows no leading literal beyond the pattern's own one, if no later pattern
goes on after its literal or after a beginning of it. -/
theorem C119_kept (sip : Bytes → UInt64) (A B : List Pattern) (p : Pattern) (hps : Proper sip (A ++ p :: B)) (hu : UuidsTell (A ++ p :: B))
    (t : SuffixTree) (rest : List BuildResult) (h : fromSource (trieMatcher sip) ((A ++ p :: B).map .ok) = .ok (.ok t, rest)) (l : Bytes) (hp : GoesOn p l)
    (msg : TestMessage) (hm : msg ∈ testsOf p) (hmu : Utf8 msg.message) (hB : ∀ q ∈ B, ∀ l', l' <+: l → ¬ GoesOn q l') (text : Bytes) (hx : Utf8 text)
    (hleave : LeavesAt (A ++ p :: B) l text) (caps) (hmatch : MatchesStrict p.pattern text caps)
    (r : Option MatchResult) (hr : t.parse text = .ok r) : ∃ res, r = some res ∧ IsResult res (loaded p) caps := by
  have hv := validated_of h
  obtain ⟨m1, hb, hall⟩ := hv.2 A p B rfl
  obtain ⟨a, ha, res, rfl, hid, _⟩ := hall msg hm
  have hsub : ∀ q ∈ A ++ [p], q ∈ A ++ p :: B := by intro q hq; simp at hq ⊢; rcases hq with hq | hq <;> simp [hq]
  have hps' : Proper sip (A.map loaded ++ [loaded p]) := by simpa using proper_loaded (proper_sub hps hsub)
  have hu' : UuidsTell (A.map loaded ++ [loaded p]) := by
    simpa using uuidsTell_loaded (ps := A ++ [p]) fun x hx y hy => hu x (hsub x hx) y (hsub y hy)
  have hbuilt : built (trieMatcher sip) (A ++ [p]) = SuffixTree.build sip (A.map loaded ++ [loaded p]) := by rw [built_trie]; simp
  have hk : TakesEffect (A.map loaded) l := by
    false_or_by_contra
    rename_i hk
    refine no_effect_never (q := loaded p) hp hk hu' (proper_answer hps' hmu (r := some res) ?_) hid
    rw [← hbuilt, hb]
    exact ha
  have hmap : (A ++ p :: B).map loaded = A.map loaded ++ loaded p :: B.map loaded := by simp
  refine kept_found (sip := sip) (A := A.map loaded) (B := B.map loaded) (p := loaded p) (by rw [← hmap]; exact proper_loaded hps) hp hk ?_ hx (by rw [← hmap]; exact leavesAt_loaded hleave)
    hmatch ?_
  · intro q hq
    obtain ⟨s, hs, rfl⟩ := List.mem_map.mp hq
    exact hB s hs
  · rw [← hmap, ← built_trie, hv.1]
    exact hr

theorem tested_not_late {sip : Bytes → UInt64} {ps : List Pattern} (hps : Proper sip ps) (hd : DistinctHeads ps) (hu : UuidsTell ps)
    {t : SuffixTree} (h : Validated (trieMatcher sip) ps t) {p : Pattern}
    {msg : TestMessage} (hm : msg ∈ testsOf p) (hmu : Utf8 msg.message) : ¬ Late ps p := by
  rintro ⟨A, B, l, rfl, hg, hlong⟩
  obtain ⟨m1, hb, hall⟩ := h.2 A p B rfl
  obtain ⟨a, ha, res, rfl, hid, _⟩ := hall msg hm
  have hsub : ∀ q ∈ A ++ [p], q ∈ A ++ p :: B := by intro q hq; simp at hq ⊢; rcases hq with hq | hq <;> simp [hq]
  have hd' : DistinctHeads (A ++ [p]) := by
    rw [show A ++ p :: B = (A ++ [p]) ++ B by simp] at hd
    exact (List.pairwise_append.mp hd).1
  refine C117_late_never sip ((A ++ [p]).map loaded) (proper_loaded (proper_sub hps hsub)) (distinct_loaded hd')
    (uuidsTell_loaded fun x hx y hy => hu x (hsub x hx) y (hsub y hy)) (loaded p) (by simp) ?_ msg.message hmu res ?_ hid
  · obtain ⟨l', h1, h2, h3⟩ := hlong
    exact ⟨A.map loaded, [], l, by simp, hg, l', leading_loaded.mpr h1, h2, h3⟩
  · rw [← built_trie, hb]
    exact ha

theorem late_of_loaded {ps : List Pattern} {p : Pattern} {l : Bytes} (hd : DistinctHeads ps) (hp : p ∈ ps) (hg : GoesOn p l)
    (h : Late (ps.map loaded) (loaded p)) : Late ps p := by
  obtain ⟨A, B, l', e, hg', l2, h1, h2, h3⟩ := h
  obtain ⟨A', C', rfl, eA, eC⟩ := List.map_eq_append_iff.mp e
  obtain ⟨q, B', rfl, eq, eB⟩ := List.map_eq_cons_iff.mp eC
  have hgq : GoesOn q l' := by
    have : (loaded q).pattern = (loaded p).pattern := by rw [eq]
    obtain ⟨r, g1, g2⟩ := hg'
    exact ⟨r, g1, by rw [← g2]; exact this⟩
  have hl : l' = l := goesOn_unique hg' hg
  subst hl
  have : q = p := by
    false_or_by_contra
    rename_i hne
    unfold DistinctHeads at hd
    rw [List.pairwise_append, List.pairwise_cons] at hd
    rcases List.mem_append.mp hp with hp | hp
    · exact hd.2.2 p hp q (by simp) l' hg hgq
    · rcases List.mem_cons.mp hp with hp | hp
      · exact hne hp.symm
      · exact hd.2.1.1 p hp l' hgq hg
  subst this
  exact ⟨A', B', l', rfl, hg, l2, leading_loaded.mp (eA ▸ h1), h2, h3⟩

theorem tested_found {sip : Bytes → UInt64} {ps : List Pattern} (hps : Proper sip ps) (hd : DistinctHeads ps) (hu : UuidsTell ps)
    {t : SuffixTree} (h : Validated (trieMatcher sip) ps t) {p : Pattern} (hp : p ∈ ps) {l : Bytes} (hg : GoesOn p l)
    {msg : TestMessage} (hm : msg ∈ testsOf p) (hmu : Utf8 msg.message) {text : Bytes} (hx : Utf8 text) (hleave : LeavesAt ps l text) {caps}
    (hmatch : MatchesStrict p.pattern text caps) {r : Option MatchResult} (hr : t.parse text = .ok r) : ∃ res, r = some res ∧ IsResult res (loaded p) caps := by
  refine C117_found sip (ps.map loaded) (proper_loaded hps) (distinct_loaded hd) (loaded p) (List.mem_map_of_mem hp) l hg ?_ text hx
    (leavesAt_loaded hleave) caps hmatch r ?_
  · exact fun hl => tested_not_late hps hd hu h hm hmu (late_of_loaded hd hp hg hl)
  · rw [← built_trie, h.1]
    exact hr

/-- C119: a source in which no two patterns go on after the same literal cannot be loaded if a pattern with a test message comes after one with a longer leading
literal that begins with its own. -/
theorem C119_late_rejected (sip : Bytes → UInt64) (ps : List Pattern) (hps : Proper sip ps) (hd : DistinctHeads ps) (hu : UuidsTell ps) (p : Pattern)
    (hl : Late ps p) (msg : TestMessage) (hm : msg ∈ testsOf p) (hmu : Utf8 msg.message) (t : SuffixTree) (rest : List BuildResult) :
    fromSource (trieMatcher sip) (ps.map .ok) ≠ .ok (.ok t, rest) :=
  fun h => tested_not_late hps hd hu (validated_of h) hm hmu hl

/-- C119: if such a source was loaded, every pattern with a test message that goes on after a literal is the answer for each text it matches that follows no
leading literal beyond the pattern's own one. -/
theorem C119_none_lost (sip : Bytes → UInt64) (ps : List Pattern) (hps : Proper sip ps) (hd : DistinctHeads ps) (hu : UuidsTell ps) (t : SuffixTree)
    (rest : List BuildResult) (h : fromSource (trieMatcher sip) (ps.map .ok) = .ok (.ok t, rest)) (p : Pattern) (hp : p ∈ ps) (l : Bytes) (hg : GoesOn p l)
    (msg : TestMessage) (hm : msg ∈ testsOf p) (hmu : Utf8 msg.message) (text : Bytes) (hx : Utf8 text) (hleave : LeavesAt ps l text) (caps)
    (hmatch : MatchesStrict p.pattern text caps) (r : Option MatchResult) (hr : t.parse text = .ok r) : ∃ res, r = some res ∧ IsResult res (loaded p) caps :=
  tested_found hps hd hu (validated_of h) hp hg hm hmu hx hleave hmatch hr

/-- C119: the same for a file of patterns. -/
theorem C119_file (d : Deps) (hs : d.Utf8Strings) (sip : Bytes → UInt64) (path : Bytes) (t : SuffixTree)
    (h : fromFile d (trieMatcher sip) path = .ok (.ok t)) :
    ∃ file, loadFile d path = .ok (.ok file) ∧ (NoCollision sip file.patterns → DistinctHeads file.patterns → UuidsTell file.patterns →
      ∀ p ∈ file.patterns, ∀ l, GoesOn p l → ∀ msg ∈ testsOf p, Utf8 msg.message →
      ∀ text, Utf8 text → LeavesAt file.patterns l text → ∀ caps, MatchesStrict p.pattern text caps →
      ∀ r, t.parse text = .ok r → ∃ res, r = some res ∧ IsResult res (loaded p) caps) := by
  unfold fromFile at h
  cases hl : loadFile d path with
  | error e => rw [hl] at h; simp at h
  | ok x =>
    cases x with
    | error e => rw [hl] at h; simp at h
    | ok file =>
      rw [hl] at h
      simp only at h
      refine ⟨file, rfl, ?_⟩
      intro hcol hd hu p hp l hg msg hm hmu text hx hleave caps hmatch r hr
      cases hf : fromSource (trieMatcher sip) (fileItems file.patterns) with
      | error e => rw [hf] at h; simp at h
      | ok y =>
        obtain ⟨y, rest⟩ := y
        rw [hf] at h
        simp only [Except.ok.injEq] at h
        subst h
        rw [C45_file_order] at hf
        have hc := loaded_compiled d hs hl
        have hps : Proper sip file.patterns := ⟨fun p hp => (compiledUtf8_lits (hc p hp)).1, fun p hp => (compiledUtf8_lits (hc p hp)).2.1,
          fun p hp => (compiledUtf8_lits (hc p hp)).2.2, hcol⟩
        exact tested_found (proper_sub hps (fun p hp => by simpa using hp)) (distinct_reverse hd) (fun a ha b hb => hu a (by simpa using ha) b (by simpa using hb))
          (validated_of hf) (by simpa using hp) hg hm hmu hx (leavesAt_reverse hleave) hmatch hr

theorem tested_passes {sip : Bytes → UInt64} {ps : List Pattern} (hps : Proper sip ps) (hu : UuidsTell ps) {t : SuffixTree}
    {rest : List BuildResult} (h : fromSource (trieMatcher sip) (ps.map .ok) = .ok (.ok t, rest)) {p : Pattern} (hp : p ∈ ps) {l : Bytes} (hg : GoesOn p l)
    {msg : TestMessage} (hm : msg ∈ testsOf p) (hx : Utf8 msg.message) {a : Option MatchResult}
    (hfound : ∀ caps, MatchesStrict p.pattern msg.message caps → ∃ res, a = some res ∧ IsResult res (loaded p) caps) : Passes p.uuid msg a := by
  refine still_passes h hp hm ?_
  intro A B m1 res hpp hm1 _ hres
  subst hpp
  have hb1 : (built (trieMatcher sip) (A ++ [p]) >>= fun t => t.parse msg.message) = .ok (some res) := by rw [built_trie, hm1]; exact hres
  have hv := validated_of h
  have hid : res.pattern.uuid = p.uuid := by
    obtain ⟨m2, hm2, hall⟩ := hv.2 A p B rfl
    obtain ⟨b, hb, r, rfl, hr, _⟩ := hall msg hm
    rw [built_trie, hm1] at hm2
    simp only [Except.ok.injEq] at hm2
    subst hm2
    have : some r = some res := by
      have := hb.symm.trans hres
      simpa using this
    simp only [Option.some.injEq] at this
    rw [← this]; exact hr
  have hsub : ∀ q ∈ (A ++ [p]).map loaded, q ∈ (A ++ p :: B).map loaded := by
    intro q hq
    obtain ⟨s, hs, rfl⟩ := List.mem_map.mp hq
    exact List.mem_map_of_mem (by simp at hs ⊢; rcases hs with hs | hs <;> simp [hs])
  obtain ⟨caps, hmq⟩ := answer_goesOn (fun x hx y hy => uuidsTell_loaded hu x (hsub x hx) y (hsub y hy)) (q := loaded p) (by simp) hg
    (proper_answer (proper_sub (proper_loaded hps) hsub) hx hb1) hid
  obtain ⟨res1, e1, g1⟩ := C119_kept_when_added sip A B p hps hu t rest h l hg msg hm hx msg.message hx caps hmq _ hb1
  obtain ⟨res2, e2, g2⟩ := hfound caps hmq
  simp only [Option.some.injEq] at e1
  rw [e2, isResult_unique g2 g1, e1]

/-- C119: so a test message that follows no leading literal beyond that of its pattern passes in the finished trie too, if no two patterns go on after the same
literal. -/
theorem C119_still_passes (sip : Bytes → UInt64) (ps : List Pattern) (hps : Proper sip ps) (hd : DistinctHeads ps) (hu : UuidsTell ps) (t : SuffixTree)
    (rest : List BuildResult) (h : fromSource (trieMatcher sip) (ps.map .ok) = .ok (.ok t, rest)) (p : Pattern) (hp : p ∈ ps) (l : Bytes) (hg : GoesOn p l)
    (msg : TestMessage) (hm : msg ∈ testsOf p) (hx : Utf8 msg.message) (hleave : LeavesAt ps l msg.message) (a : Option MatchResult)
    (ha : t.parse msg.message = .ok a) : Passes p.uuid msg a :=
  tested_passes hps hu h hp hg hm hx fun caps hmatch => C119_none_lost sip ps hps hd hu t rest h p hp l hg msg hm hx msg.message hx hleave caps hmatch a ha

/-- C119: or if no later pattern goes on after the literal of its pattern or after a beginning of it. -/
theorem C119_kept_passes (sip : Bytes → UInt64) (A B : List Pattern) (p : Pattern) (hps : Proper sip (A ++ p :: B)) (hu : UuidsTell (A ++ p :: B))
    (t : SuffixTree) (rest : List BuildResult) (h : fromSource (trieMatcher sip) ((A ++ p :: B).map .ok) = .ok (.ok t, rest)) (l : Bytes) (hg : GoesOn p l)
    (hB : ∀ q ∈ B, ∀ l', l' <+: l → ¬ GoesOn q l') (msg : TestMessage) (hm : msg ∈ testsOf p) (hx : Utf8 msg.message)
    (hleave : LeavesAt (A ++ p :: B) l msg.message) (a : Option MatchResult) (ha : t.parse msg.message = .ok a) : Passes p.uuid msg a :=
  tested_passes hps hu h (by simp) hg hm hx fun caps hmatch =>
    C119_kept sip A B p hps hu t rest h l hg msg hm hx hB msg.message hx hleave caps hmatch a ha

/-! Three patterns that are loaded; with `a%{INT:z}` behind them loading fails if it has a test message, and without one the pattern is lost. -/

def testedSample1 : Pattern := Samples.withTests keptSample1 [Samples.msg b!"ab7" [(b!"x", b!"7")] none]
def testedSample3 : Pattern := Samples.withTests keptSample3 [Samples.msg b!"abc8" [(b!"y", b!"8")] none]
def testedSample4 : Pattern := Samples.withTests keptSample4 [Samples.msg b!"a9" [(b!"z", b!"9")] none]

theorem withTests_goesOn {p : Pattern} {ms : List TestMessage} {l : Bytes} : GoesOn (Samples.withTests p ms) l ↔ GoesOn p l := Iff.rfl

example : DistinctHeads [testedSample1, keptSample2, testedSample3] ∧ UuidsTell [testedSample1, keptSample2, testedSample3] ∧
    GoesOn testedSample1 b!"ab" ∧ MatchesStrict testedSample1.pattern b!"ab55" [(Samples.int b!"x", b!"55")] ∧
    LeavesAt [testedSample1, keptSample2, testedSample3] b!"ab" b!"ab55" := by
  have h2 : ∀ l, ¬ GoesOn keptSample2 l := by
    rintro l ⟨rest, h, e⟩
    simp only [keptSample2, Samples.pat, List.cons.injEq] at e
    exact h e.2.symm
  refine ⟨?_, by decide, ⟨_, by simp, rfl⟩, ?_, ?_⟩
  · simp [DistinctHeads, h2, testedSample1, testedSample3, withTests_goesOn, keptSample1, keptSample3, keptSample_goesOn]
  · refine .literal b!"ab" _ b!"55" _ (by simp) (.parser (Samples.int b!"x") [] b!"55" [] [] ?_ .nil)
    exact ⟨by decide, by decide, by decide +kernel, by simp, nofun, nofun⟩
  · rintro l' ⟨p, hp, rest, e⟩ _ c h1 h2
    have hl : l' = b!"ab" ∨ l' = b!"abc" := by
      simp only [List.mem_cons, List.not_mem_nil, or_false] at hp
      rcases hp with rfl | rfl | rfl <;> simp [testedSample1, testedSample3, Samples.withTests, keptSample1, keptSample2, keptSample3, Samples.pat] at e <;>
        simp [← e.1]
    rcases hl with rfl | rfl
    · exact h1.length_le
    · have := h1.length_le
      false_or_by_contra
      rename_i hn
      have e3 : c = b!"abc" := prefix_eq h1 (by revert this hn; generalize c.length = n; decide +revert)
      subst e3
      revert h2
      decide

example : (match fromSource (trieMatcher Samples.sip) [.ok testedSample1, .ok keptSample2, .ok testedSample3] with
      | .ok (.ok t, []) => decide (t.parse b!"ab55" = .ok (some ⟨loaded { testedSample1 with pattern := [] }, [(b!"x", b!"55")]⟩))
      | _ => false) = true ∧
    (match fromSource (trieMatcher Samples.sip) [.ok testedSample1, .ok keptSample2, .ok testedSample3, .ok testedSample4] with
      | .ok (.error e, []) => decide (e = .testMessage (.testMessageDoesntMatch 4 b!"a9"))
      | _ => false) = true ∧
    (match fromSource (trieMatcher Samples.sip) [.ok testedSample1, .ok keptSample2, .ok testedSample3, .ok keptSample4] with
      | .ok (.ok t, []) => decide (t.parse b!"a9" = .ok none)
      | _ => false) = true := by decide +kernel

end Verif
