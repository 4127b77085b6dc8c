import Verif.Spec.FilePanics
import Verif.Props.C96_AddPanics
/-! C78 for patterns and test messages in any script: exactly when loading a file into a trie panics. -/
namespace Verif
open Spec

section
variable {d : Deps} (hs : d.Utf8Strings) {sip : Bytes → UInt64} {path : Bytes} {file : PatternFile} (hl : loadFile d path = .ok (.ok file))
  (hcol : NoCollision sip file.patterns) (hm : ∀ p ∈ file.patterns, ∀ msg ∈ testsOf p, Utf8 msg.message)
include hs hl

theorem file_lits {ps : List Pattern} (hps : ∀ p ∈ ps, p ∈ file.patterns) : ∀ q ∈ ps.map loaded, Utf8Lits q ∧ NonemptyLits q ∧ SplitLiterals q := by
  intro q hq
  simp at hq
  obtain ⟨p, hp, rfl⟩ := hq
  exact compiledUtf8_lits (p := loaded p) (loaded_compiled d hs hl p (hps p hp))

include hcol hm

theorem file_parse {ps : List Pattern} (hps : ∀ p ∈ ps, p ∈ file.patterns) {t : SuffixTree} (hb : built (trieMatcher sip) ps = .ok t)
    {p : Pattern} (hp : p ∈ file.patterns) {msg : TestMessage} (hin : msg ∈ testsOf p) :
    ((Table.of (ps.map loaded)).Panics msg.message → t.parse msg.message = .error .slice) ∧
    (¬(Table.of (ps.map loaded)).Panics msg.message → ∃ r, t.parse msg.message = .ok r ∧ (Table.of (ps.map loaded)).Answer msg.message r) := by
  have hu := file_lits hs hl hps
  refine C66_panics_iff sip _ (fun q hq => (hu q hq).1) (fun q hq => (hu q hq).2.1) (fun q hq => (hu q hq).2.2) ?_ t hb msg.message (hm p hp msg hin)
  rintro a b ⟨p', hp', e1⟩ ⟨q', hq', e2⟩
  obtain ⟨p'', hp'', rfl⟩ := List.mem_map.mp hp'
  obtain ⟨q'', hq'', rfl⟩ := List.mem_map.mp hq'
  exact hcol a b ⟨p'', hps p'' hp'', e1⟩ ⟨q'', hps q'' hq'', e2⟩

theorem file_passes {ps : List Pattern} (hps : ∀ p ∈ ps, p ∈ file.patterns) {t : SuffixTree} (hb : built (trieMatcher sip) ps = .ok t)
    {p : Pattern} (hp : p ∈ file.patterns) {msg : TestMessage} (hin : msg ∈ testsOf p) :
    PassesIn (trieMatcher sip) t p.uuid msg ↔ TablePasses ps p.uuid msg := by
  obtain ⟨h1, h2⟩ := file_parse hs hl hcol hm hps hb hp hin
  constructor
  · rintro ⟨a, ha, h⟩
    have ha : t.parse msg.message = .ok a := ha
    have hn : ¬(Table.of (ps.map loaded)).Panics msg.message := fun hc => by rw [h1 hc] at ha; simp at ha
    obtain ⟨r, hr, hans⟩ := h2 hn
    rw [hr] at ha; simp at ha; subst ha
    exact ⟨hn, r, hans, h⟩
  · rintro ⟨hn, a, ha, h⟩
    obtain ⟨r, hr, hans⟩ := h2 hn
    rw [C65_answer_unique _ _ _ _ ha hans] at h
    exact ⟨r, hr, h⟩

/-- The matcher built from the patterns before: the pattern panics exactly if it is unloadable. -/
theorem file_panics {pre post : List Pattern} {p : Pattern} (he : file.patterns.reverse = pre ++ p :: post) {t : SuffixTree}
    (hb : built (trieMatcher sip) pre = .ok t) :
    (∀ e, Spec.Panics (trieMatcher sip) t p e → e = .slice) ∧ (Spec.Panics (trieMatcher sip) t p .slice ↔ Unloadable pre p) := by
  have hps : ∀ q ∈ pre ++ [p], q ∈ file.patterns := fun q hq => by
    rw [← List.mem_reverse, he]; simp at hq ⊢; rcases hq with h | h <;> simp [h]
  have hp := hps p (by simp)
  have hu : ∀ q ∈ (pre.map loaded) ++ [loaded p], Utf8Lits q ∧ NonemptyLits q ∧ SplitLiterals q := by
    have := file_lits hs hl hps
    simpa using this
  have hadd := C96_add_panics_iff sip (pre.map loaded) (loaded p) (fun q hq => (hu q hq).1) (fun q hq => (hu q hq).2.1) (fun q hq => (hu q hq).2.2) t hb
  have hsn := built_snoc (trieMatcher sip) pre p t hb
  constructor
  · intro e h
    cases h with
    | add _ h =>
      have h : t.addPattern sip (loaded p) = .error e := h
      by_cases hc : (Table.of (pre.map loaded)).AddPanics (loaded p)
      · rw [hadd.1 hc] at h; simpa using h.symm
      · obtain ⟨t', ht'⟩ := hadd.2 hc
        rw [ht'] at h; simp at h
    | message m1 A B msg _ g1 g2 g3 g4 =>
      rw [g1] at hsn
      obtain ⟨h1, h2⟩ := file_parse hs hl hcol hm hps hsn hp (msg := msg) (by rw [g2]; simp)
      have g4 : m1.parse msg.message = .error e := g4
      by_cases hc : (Table.of ((pre ++ [p]).map loaded)).Panics msg.message
      · rw [h1 hc] at g4; simpa using g4.symm
      · obtain ⟨r, hr, _⟩ := h2 hc
        rw [hr] at g4; simp at g4
  · constructor
    · intro h
      cases h with
      | add _ h =>
        refine .inl (Classical.byContradiction fun hc => ?_)
        obtain ⟨t', ht'⟩ := hadd.2 hc
        have h : t.addPattern sip (loaded p) = .error .slice := h
        rw [ht'] at h; simp at h
      | message m1 A B msg _ g1 g2 g3 g4 =>
        rw [g1] at hsn
        refine .inr ⟨A, msg, B, g2, fun x hx => ?_, Classical.byContradiction fun hc => ?_⟩
        · exact (file_passes hs hl hcol hm hps hsn hp (by rw [g2]; simp [hx])).mp (g3 x hx)
        · obtain ⟨r, hr, _⟩ := (file_parse hs hl hcol hm hps hsn hp (msg := msg) (by rw [g2]; simp)).2 hc
          have g4 : m1.parse msg.message = .error .slice := g4
          rw [hr] at g4; simp at g4
    · intro h
      by_cases hc : (Table.of (pre.map loaded)).AddPanics (loaded p)
      · exact .add _ (hadd.1 hc)
      · obtain ⟨t', ht'⟩ := hadd.2 hc
        have ht' : (trieMatcher sip).addPattern t (loaded p) = .ok t' := ht'
        rw [ht'] at hsn
        rcases h with h | ⟨A, msg, B, g2, g3, g4⟩
        · exact absurd h hc
        · refine .message t' A B msg _ ht' g2 (fun x hx => ?_) ?_
          · exact (file_passes hs hl hcol hm hps hsn hp (by rw [g2]; simp [hx])).mpr (g3 x hx)
          · exact (file_parse hs hl hcol hm hps hsn hp (msg := msg) (by rw [g2]; simp)).1 g4

/-- The first patterns of the file can be added, if the table says so of each of them. -/
theorem file_built {ps post : List Pattern} (he : file.patterns.reverse = ps ++ post)
    (hn : ∀ pre p post', ps = pre ++ p :: post' → ¬(Table.of (pre.map loaded)).AddPanics (loaded p)) : ∃ t, built (trieMatcher sip) ps = .ok t := by
  have hps : ∀ q ∈ ps, q ∈ file.patterns := fun q hq => by rw [← List.mem_reverse, he]; simp [hq]
  have hu := file_lits hs hl hps
  refine (C96_build_panics_iff sip _ (fun q hq => (hu q hq).1) (fun q hq => (hu q hq).2.1) (fun q hq => (hu q hq).2.2)).2 ?_
  intro A q B hA
  rw [List.map_eq_append_iff] at hA
  obtain ⟨A', B', rfl, rfl, hB⟩ := hA
  rw [List.map_eq_cons_iff] at hB
  obtain ⟨p, B'', rfl, rfl, rfl⟩ := hB
  exact hn A' p B'' rfl

end

/-- The first position with the property. -/
theorem first_split {α : Type} (P : List α → α → Prop) {l : List α} (h : ∃ pre p post, l = pre ++ p :: post ∧ P pre p) :
    ∃ pre p post, l = pre ++ p :: post ∧ P pre p ∧ ∀ pre' q post', pre = pre' ++ q :: post' → ¬P pre' q := by
  obtain ⟨pre, p, post, he, hp⟩ := h
  generalize hn : pre.length = n
  induction n using Nat.strongRecOn generalizing pre p post with
  | _ n ih =>
    by_cases hc : ∃ pre' q post', pre = pre' ++ q :: post' ∧ P pre' q
    · obtain ⟨pre', q, post', rfl, hq⟩ := hc
      refine ih pre'.length ?_ pre' q (post' ++ p :: post) (by rw [he]; simp) hq rfl
      rw [← hn]; simp
    · exact ⟨pre, p, post, he, hp, fun pre' q post' h1 h2 => hc ⟨pre', q, post', h1, h2⟩⟩

/-- C78: ignoring errors, loading a file into a trie panics exactly if one of the patterns is unloadable, and otherwise returns a matcher. -/
theorem C78_trie_ignoring_panics_iff (d : Deps) (hs : d.Utf8Strings) (sip : Bytes → UInt64) (path : Bytes) (file : PatternFile)
    (hl : loadFile d path = .ok (.ok file)) (hcol : NoCollision sip file.patterns)
    (hm : ∀ p ∈ file.patterns, ∀ msg ∈ testsOf p, Utf8 msg.message) :
    ((∃ pre p post, file.patterns.reverse = pre ++ p :: post ∧ Unloadable pre p) → fromFileIgnoreErrors d (trieMatcher sip) path = .error .slice) ∧
    ((∀ pre p post, file.patterns.reverse = pre ++ p :: post → ¬Unloadable pre p) →
      ∃ t, fromFileIgnoreErrors d (trieMatcher sip) path = .ok (.ok t)) := by
  have hdel : delivered (fileItems file.patterns) = file.patterns.reverse := by rw [C45_file_order, delivered_map_ok]
  constructor
  · intro h
    obtain ⟨pre, p, post, he, hp, hfirst⟩ := first_split Unloadable h
    obtain ⟨t, hb⟩ := file_built hs hl hcol hm he fun pre' q post' h1 h2 => hfirst pre' q post' h1 (.inl h2)
    unfold fromFileIgnoreErrors
    rw [hl]
    simp only
    rw [(C42_panic _ _ _).mpr ⟨pre, p, post, t, by rw [hdel, he], hb, ?_, ((file_panics hs hl hcol hm he hb).2).mpr hp⟩]
    intro pre' q post' m' e' h1 h2 h3
    have he' : file.patterns.reverse = pre' ++ q :: (post' ++ p :: post) := by rw [he, h1]; simp
    have hpan := file_panics hs hl hcol hm he' h2
    have := hpan.1 e' h3
    subst this
    exact hfirst pre' q post' h1 (hpan.2.mp h3)
  · intro h
    obtain ⟨t, hb⟩ := file_built hs hl hcol hm (ps := file.patterns.reverse) (post := []) (by simp) fun pre p post h1 h2 => h pre p post h1 (.inl h2)
    refine ⟨t, ?_⟩
    unfold fromFileIgnoreErrors
    rw [hl]
    simp only
    rw [(C42_ignore_errors _ (fileItems file.patterns) t).mpr ?_]
    rw [hdel]
    refine ⟨hb, fun pre p post m e he hb' hp => ?_⟩
    have hpan := file_panics hs hl hcol hm he hb'
    have := hpan.1 e hp
    subst this
    exact h pre p post he (hpan.2.mp hp)

/-- C78: without ignoring errors, it panics exactly if the patterns before an unloadable one pass their test messages, and otherwise returns a
matcher or an error. -/
theorem C78_trie_panics_iff (d : Deps) (hs : d.Utf8Strings) (sip : Bytes → UInt64) (path : Bytes) (file : PatternFile)
    (hl : loadFile d path = .ok (.ok file)) (hcol : NoCollision sip file.patterns)
    (hm : ∀ p ∈ file.patterns, ∀ msg ∈ testsOf p, Utf8 msg.message) (e : Panic) :
    fromFile d (trieMatcher sip) path = .error e ↔
      e = .slice ∧ ∃ pre p post, file.patterns.reverse = pre ++ p :: post ∧ Unloadable pre p ∧
        ∀ pre' q post', pre = pre' ++ q :: post' →
          ¬(Table.of (pre'.map loaded)).AddPanics (loaded q) ∧ ∀ msg ∈ testsOf q, TablePasses (pre' ++ [q]) q.uuid msg := by
  have hsrc : fromFile d (trieMatcher sip) path = .error e ↔ fromSource (trieMatcher sip) (fileItems file.patterns) = .error e := by
    unfold fromFile
    rw [hl]
    simp only
    cases fromSource (trieMatcher sip) (fileItems file.patterns) <;> simp
  rw [hsrc, C41_panic, C45_file_order]
  constructor
  · rintro ⟨ps, p, rest, m, h1, ⟨hb, hv⟩, h3⟩
    obtain ⟨l1, l2, h4, h5, h6⟩ := List.map_eq_append_iff.mp h1
    obtain ⟨p', l3, rfl, h7, h8⟩ := List.map_eq_cons_iff.mp h6
    have h5 : l1 = ps := by
      have := congrArg delivered h5
      rwa [delivered_map_ok, delivered_map_ok] at this
    simp at h7; subst h5; subst h7
    have hpan := file_panics hs hl hcol hm h4 hb
    have := hpan.1 e h3
    subst this
    refine ⟨rfl, l1, p', l3, h4, hpan.2.mp h3, ?_⟩
    intro pre' q post' hp
    have h4' : file.patterns.reverse = pre' ++ q :: (post' ++ p' :: l3) := by rw [h4, hp]; simp
    have hps : ∀ x ∈ pre' ++ [q], x ∈ file.patterns := fun x hx => by
      rw [← List.mem_reverse, h4']; simp at hx ⊢; rcases hx with h | h <;> simp [h]
    obtain ⟨m1, hm1, hall⟩ := hv pre' q post' hp
    have hu := file_lits hs hl hps
    refine ⟨fun hc => ?_, fun msg hmsg => (file_passes hs hl hcol hm hps hm1 (hps q (by simp)) hmsg).mp (hall msg hmsg)⟩
    have := (C96_build_panics_iff sip ((pre' ++ [q]).map loaded) (fun q hq => (hu q hq).1) (fun q hq => (hu q hq).2.1) (fun q hq => (hu q hq).2.2)).1
      ⟨pre'.map loaded, loaded q, [], by simp, hc⟩
    have hm1 : SuffixTree.build sip ((pre' ++ [q]).map loaded) = .ok m1 := hm1
    rw [this] at hm1
    simp at hm1
  · rintro ⟨rfl, pre, p, post, he, hp, hall⟩
    obtain ⟨t, hb⟩ := file_built hs hl hcol hm he fun pre' q post' h1 => (hall pre' q post' h1).1
    refine ⟨pre, p, post.map .ok, t, by rw [he]; simp, ⟨hb, ?_⟩, ((file_panics hs hl hcol hm he hb).2).mpr hp⟩
    intro pre' q post' h1
    have he' : file.patterns.reverse = (pre' ++ [q]) ++ (post' ++ p :: post) := by rw [he, h1]; simp
    have hps : ∀ x ∈ pre' ++ [q], x ∈ file.patterns := fun x hx => by rw [← List.mem_reverse, he']; simp at hx ⊢; rcases hx with h | h <;> simp [h]
    obtain ⟨t', hb'⟩ := file_built hs hl hcol hm he' fun A x B h2 => (hall A x (B ++ post') (by
      rw [h1]
      have := congrArg (· ++ post') h2
      simpa using this)).1
    exact ⟨t', hb', fun msg hmsg => (file_passes hs hl hcol hm hps hb' (hps q (by simp)) hmsg).mpr ((hall pre' q post' h1).2 msg hmsg)⟩

/-! Files meeting the hypotheses: `é` in a pattern and in a test message. -/

namespace Samples

def accentDoc (first second text : Bytes) : Val :=
  .obj [(.str b!"patterns", .arr [
    .obj [(.str b!"pattern", .str first), (.str b!"uuid", .num 1)],
    .obj [(.str b!"pattern", .str second), (.str b!"uuid", .num 2), (.str b!"test_messages", .arr [.obj [(.str b!"message", .str text)]])]])]

/-- Libraries that deliver ASCII strings and `aé`, and a file `p.json` with two pattern strings, the second one tried on the text. -/
def accentDeps (first second text : Bytes) : Deps :=
  { deps with
    string := fun v => match v with
      | .str s => if s = b!"aé" ∨ s.all (fun c => decide (c.toNat < 128)) then .ok s else .error (.other 1)
      | _ => .error (.other 1)
    openFile := fun _ => .ok b!"{}"
    json := fun _ => .ok (accentDoc first second text) }

def accentFile (first second text : Bytes) : PatternFile :=
  { patterns := [pat 1 [.literal first], withTests (pat 2 [.literal second]) [msg text [] none]] }

theorem accentDeps_utf8 (first second text : Bytes) : (accentDeps first second text).Utf8Strings := by
  intro v s h
  cases v with
  | str s' =>
    simp only [accentDeps] at h
    split at h
    · rename_i h1
      simp at h; subst h
      rcases h1 with rfl | h1
      · exact ⟨['a', 'é'], by decide⟩
      · exact ascii_utf8 fun c hc => by simpa using List.all_eq_true.mp h1 c hc
    · simp at h
  | _ => simp [accentDeps] at h

theorem accentDeps_loads {first second text : Bytes}
    (h : deserFile (accentDeps first second text) (accentDoc first second text) = .ok (.ok (accentFile first second text))) :
    loadFile (accentDeps first second text) b!"p.json" = .ok (.ok (accentFile first second text)) := by
  have hx : HasExt b!"p.json" b!"json" := by rw [← pathExtension_iff]; decide
  have hu : Utf8 b!"{}" := ascii_utf8 (by decide)
  rw [(C46_json _ b!"p.json" b!"{}" hx ⟨b!"{}", rfl, fun _ => rfl, fun h => absurd hu h⟩).1]
  refine ⟨_, rfl, ?_⟩
  rw [← C63_file]
  exact h

theorem accentFile_meets {first second text : Bytes} (ht : Utf8 text) :
    NoCollision sip (accentFile first second text).patterns ∧ ∀ p ∈ (accentFile first second text).patterns, ∀ msg ∈ testsOf p, Utf8 msg.message := by
  refine ⟨?_, ?_⟩
  · rintro a b ⟨p, hp, e⟩
    simp [accentFile] at hp
    rcases hp with rfl | rfl <;> simp [pat, withTests] at e
  · intro p hp m hm
    simp [accentFile] at hp
    rcases hp with rfl | rfl
    · simp [testsOf, pat, Pattern.withUuid] at hm
    · simp [testsOf, withTests] at hm
      subst hm
      exact ht

/-- `a` is added first and passes its test, then `aé` cannot be added: `from_file` panics, so a pattern is unloadable. -/
theorem accent_panics : ∃ pre p post, (accentFile b!"aé" b!"a" b!"a").patterns.reverse = pre ++ p :: post ∧ Unloadable pre p := by
  have hl := accentDeps_loads (first := b!"aé") (second := b!"a") (text := b!"a") (by decide +kernel)
  have hx := accentFile_meets (first := b!"aé") (second := b!"a") (text := b!"a") ⟨['a'], by decide⟩
  have h : fromFile (accentDeps b!"aé" b!"a" b!"a") (trieMatcher sip) b!"p.json" = .error .slice := by
    unfold fromFile
    rw [hl]
    have : (match fromSource (trieMatcher sip) (fileItems (accentFile b!"aé" b!"a" b!"a").patterns) with
        | .error e => decide (e = .slice)
        | _ => false) = true := by decide +kernel
    split at this
    · rename_i e h
      simp at this
      subst this
      simp only [h]
    · simp at this
  obtain ⟨_, pre, p, post, h1, h2, _⟩ := (C78_trie_panics_iff _ (accentDeps_utf8 _ _ _) sip _ _ hl hx.1 hx.2 _).mp h
  exact ⟨pre, p, post, h1, h2⟩

example : fromFileIgnoreErrors (accentDeps b!"aé" b!"a" b!"a") (trieMatcher sip) b!"p.json" = .error .slice :=
  have hx := accentFile_meets (first := b!"aé") (second := b!"a") (text := b!"a") ⟨['a'], by decide⟩
  (C78_trie_ignoring_panics_iff _ (accentDeps_utf8 _ _ _) sip _ _ (accentDeps_loads (by decide +kernel)) hx.1 hx.2).1 accent_panics

/-- If the test of `a` fails instead, `from_file` returns an error before it comes to `aé`, and ignoring the error panics. -/
example : (match fromSource (trieMatcher sip) (fileItems (accentFile b!"aé" b!"a" b!"aé").patterns) with
      | .ok (.error e, _) => decide (e = .testMessage (.testMessageDoesntMatch 2 b!"aé"))
      | _ => false) = true ∧
    (fromSourceIgnoreErrors (trieMatcher sip) (fileItems (accentFile b!"aé" b!"a" b!"aé").patterns)).map (fun _ => ()) = .error .slice := by
  decide +kernel

/-- The other way round, `aé` is added first and passes its test, then `a` is added: no pattern is unloadable. -/
example : ∀ pre p post, (accentFile b!"a" b!"aé" b!"aé").patterns.reverse = pre ++ p :: post → ¬Unloadable pre p := by
  have hl := accentDeps_loads (first := b!"a") (second := b!"aé") (text := b!"aé") (by decide +kernel)
  have hx := accentFile_meets (first := b!"a") (second := b!"aé") (text := b!"aé") ⟨['a', 'é'], by decide⟩
  intro pre p post he hp
  have h := (C78_trie_ignoring_panics_iff _ (accentDeps_utf8 _ _ _) sip _ _ hl hx.1 hx.2).1 ⟨pre, p, post, he, hp⟩
  unfold fromFileIgnoreErrors at h
  rw [hl] at h
  have : (fromSourceIgnoreErrors (trieMatcher sip) (fileItems (accentFile b!"a" b!"aé" b!"aé").patterns)).map (fun _ => ()) = .ok () := by
    decide +kernel
  simp only at h
  cases hc : fromSourceIgnoreErrors (trieMatcher sip) (fileItems (accentFile b!"a" b!"aé" b!"aé").patterns) with
  | error e => rw [hc] at this; simp [Except.map] at this
  | ok m => rw [hc] at h; simp at h

end Samples

end Verif
