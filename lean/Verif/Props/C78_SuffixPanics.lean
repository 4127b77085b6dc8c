import Verif.Props.C78_TriePanics
import Verif.Props.C98_SuffixChange
/-! C78 for patterns and test messages in any script: exactly when loading a file into a suffix array panics. -/
namespace Verif
open Spec

section
variable {d : Deps} (hs : d.Utf8Strings) {sip : Bytes → UInt64} {path : Bytes} {file : PatternFile} (hl : loadFile d path = .ok (.ok file))
  (hcol : NoCollision sip file.patterns) (hm : ∀ p ∈ file.patterns, ∀ msg ∈ testsOf p, Utf8 msg.message)

theorem sfile_built (sip : Bytes → UInt64) (ps : List Pattern) : ∃ t, built (suffixArrayMatcher sip) ps = .ok t := by
  obtain ⟨t, h, _⟩ := C26_never_panics sip (ps.map loaded)
  exact ⟨t, h⟩

include hs hl hcol hm

theorem sfile_parse {ps : List Pattern} (hps : ∀ p ∈ ps, p ∈ file.patterns) {t : SuffixTable} (hb : built (suffixArrayMatcher sip) ps = .ok t)
    {p : Pattern} (hp : p ∈ file.patterns) {msg : TestMessage} (hin : msg ∈ testsOf p) :
    (SuffixTrouble (ps.map loaded) msg.message → t.parse msg.message = .error .slice) ∧
    (¬SuffixTrouble (ps.map loaded) msg.message → ∃ r, t.parse msg.message = .ok r ∧ SuffixAnswer (ps.map loaded) msg.message r) := by
  have hu := file_lits hs hl hps
  have hb : SuffixTable.build sip (ps.map loaded) = .ok t := hb
  have := C74_panics_iff sip (ps.map loaded) (fun q hq => (hu q hq).1) (by
    rintro a b ⟨p', hp', e1⟩ ⟨q', hq', e2⟩
    obtain ⟨p'', hp'', rfl⟩ := List.mem_map.mp hp'
    obtain ⟨q'', hq'', rfl⟩ := List.mem_map.mp hq'
    exact hcol a b ⟨p'', hps p'' hp'', e1⟩ ⟨q'', hps q'' hq'', e2⟩) msg.message (hm p hp msg hin)
  rw [hb] at this
  exact this

theorem sfile_passes {ps : List Pattern} (hps : ∀ p ∈ ps, p ∈ file.patterns) {t : SuffixTable} (hb : built (suffixArrayMatcher sip) ps = .ok t)
    {p : Pattern} (hp : p ∈ file.patterns) {msg : TestMessage} (hin : msg ∈ testsOf p) :
    PassesIn (suffixArrayMatcher sip) t p.uuid msg ↔ SuffixPasses ps p.uuid msg := by
  obtain ⟨h1, h2⟩ := sfile_parse hs hl hcol hm hps hb hp hin
  have hu := file_lits hs hl hps
  constructor
  · rintro ⟨a, ha, h⟩
    have ha : t.parse msg.message = .ok a := ha
    have hn : ¬SuffixTrouble (ps.map loaded) msg.message := fun hc => by rw [h1 hc] at ha; simp at ha
    obtain ⟨r, hr, hans⟩ := h2 hn
    rw [hr] at ha; simp at ha; subst ha
    exact ⟨hn, r, hans, h⟩
  · rintro ⟨hn, a, ha, h⟩
    obtain ⟨r, hr, hans⟩ := h2 hn
    rw [C73_answer_unique _ (fun q hq => (hu q hq).1) _ (hm p hp msg hin) _ _ ha hans] at h
    exact ⟨r, hr, h⟩

/-- The matcher built from the patterns before: the pattern panics exactly if it is unloadable. -/
theorem sfile_panics {pre post : List Pattern} {p : Pattern} (he : file.patterns.reverse = pre ++ p :: post) {t : SuffixTable}
    (hb : built (suffixArrayMatcher sip) pre = .ok t) :
    (∀ e, Spec.Panics (suffixArrayMatcher sip) t p e → e = .slice) ∧ (Spec.Panics (suffixArrayMatcher sip) t p .slice ↔ SuffixUnloadable pre p) := by
  have hps : ∀ q ∈ pre ++ [p], q ∈ file.patterns := fun q hq => by
    rw [← List.mem_reverse, he]; simp at hq ⊢; rcases hq with h | h <;> simp [h]
  have hp := hps p (by simp)
  have hsn := built_snoc (suffixArrayMatcher sip) pre p t hb
  obtain ⟨t', ht'⟩ := sfile_built sip (pre ++ [p])
  have hadd : (suffixArrayMatcher sip).addPattern t (loaded p) = .ok t' := by rw [← hsn, ht']
  constructor
  · intro e h
    cases h with
    | add _ h => rw [hadd] at h; simp at h
    | message m1 A B msg _ g1 g2 g3 g4 =>
      rw [g1] at hsn
      obtain ⟨h1, h2⟩ := sfile_parse hs hl hcol hm hps hsn hp (msg := msg) (by rw [g2]; simp)
      have g4 : m1.parse msg.message = .error e := g4
      by_cases hc : SuffixTrouble ((pre ++ [p]).map loaded) msg.message
      · rw [h1 hc] at g4; simpa using g4.symm
      · obtain ⟨r, hr, _⟩ := h2 hc
        rw [hr] at g4; simp at g4
  · constructor
    · intro h
      cases h with
      | add _ h => rw [hadd] at h; simp at h
      | message m1 A B msg _ g1 g2 g3 g4 =>
        rw [g1] at hsn
        refine ⟨A, msg, B, g2, fun x hx => ?_, Classical.byContradiction fun hc => ?_⟩
        · exact (sfile_passes hs hl hcol hm hps hsn hp (by rw [g2]; simp [hx])).mp (g3 x hx)
        · obtain ⟨r, hr, _⟩ := (sfile_parse hs hl hcol hm hps hsn hp (msg := msg) (by rw [g2]; simp)).2 hc
          have g4 : m1.parse msg.message = .error .slice := g4
          rw [hr] at g4; simp at g4
    · rintro ⟨A, msg, B, g2, g3, g4⟩
      refine .message t' A B msg _ hadd g2 (fun x hx => ?_) ?_
      · exact (sfile_passes hs hl hcol hm hps ht' hp (by rw [g2]; simp [hx])).mpr (g3 x hx)
      · exact (sfile_parse hs hl hcol hm hps ht' hp (msg := msg) (by rw [g2]; simp)).1 g4

end

/-- C78: ignoring errors, loading a file into a suffix array panics exactly if one of the patterns is unloadable, and otherwise returns a matcher. -/
theorem C78_suffix_ignoring_panics_iff (d : Deps) (hs : d.Utf8Strings) (sip : Bytes → UInt64) (path : Bytes) (file : PatternFile)
    (hl : loadFile d path = .ok (.ok file)) (hcol : NoCollision sip file.patterns)
    (hm : ∀ p ∈ file.patterns, ∀ msg ∈ testsOf p, Utf8 msg.message) :
    ((∃ pre p post, file.patterns.reverse = pre ++ p :: post ∧ SuffixUnloadable pre p) →
      fromFileIgnoreErrors d (suffixArrayMatcher sip) path = .error .slice) ∧
    ((∀ pre p post, file.patterns.reverse = pre ++ p :: post → ¬SuffixUnloadable pre p) →
      ∃ t, fromFileIgnoreErrors d (suffixArrayMatcher sip) path = .ok (.ok t)) := by
  have hdel : delivered (fileItems file.patterns) = file.patterns.reverse := by rw [C45_file_order, delivered_map_ok]
  constructor
  · intro h
    obtain ⟨pre, p, post, he, hp, hfirst⟩ := first_split SuffixUnloadable h
    obtain ⟨t, hb⟩ := sfile_built sip pre
    unfold fromFileIgnoreErrors
    rw [hl]
    simp only
    rw [(C42_panic _ _ _).mpr ⟨pre, p, post, t, by rw [hdel, he], hb, ?_, ((sfile_panics hs hl hcol hm he hb).2).mpr hp⟩]
    intro pre' q post' m' e' h1 h2 h3
    have he' : file.patterns.reverse = pre' ++ q :: (post' ++ p :: post) := by rw [he, h1]; simp
    have hpan := sfile_panics hs hl hcol hm he' h2
    have := hpan.1 e' h3
    subst this
    exact hfirst pre' q post' h1 (hpan.2.mp h3)
  · intro h
    obtain ⟨t, hb⟩ := sfile_built sip file.patterns.reverse
    refine ⟨t, ?_⟩
    unfold fromFileIgnoreErrors
    rw [hl]
    simp only
    rw [(C42_ignore_errors _ (fileItems file.patterns) t).mpr ?_]
    rw [hdel]
    refine ⟨hb, fun pre p post m e he hb' hp => ?_⟩
    have hpan := sfile_panics hs hl hcol hm he hb'
    have := hpan.1 e hp
    subst this
    exact h pre p post he (hpan.2.mp hp)

/-- C78: without ignoring errors, it panics exactly if the patterns before an unloadable one pass their test messages, and otherwise returns a
matcher or an error. -/
theorem C78_suffix_panics_iff (d : Deps) (hs : d.Utf8Strings) (sip : Bytes → UInt64) (path : Bytes) (file : PatternFile)
    (hl : loadFile d path = .ok (.ok file)) (hcol : NoCollision sip file.patterns)
    (hm : ∀ p ∈ file.patterns, ∀ msg ∈ testsOf p, Utf8 msg.message) (e : Panic) :
    fromFile d (suffixArrayMatcher sip) path = .error e ↔
      e = .slice ∧ ∃ pre p post, file.patterns.reverse = pre ++ p :: post ∧ SuffixUnloadable pre p ∧
        ∀ pre' q post', pre = pre' ++ q :: post' → ∀ msg ∈ testsOf q, SuffixPasses (pre' ++ [q]) q.uuid msg := by
  have hsrc : fromFile d (suffixArrayMatcher sip) path = .error e ↔ fromSource (suffixArrayMatcher sip) (fileItems file.patterns) = .error e := by
    unfold fromFile
    rw [hl]
    simp only
    cases fromSource (suffixArrayMatcher sip) (fileItems file.patterns) <;> simp
  rw [hsrc, C41_panic, C45_file_order]
  constructor
  · rintro ⟨ps, p, rest, m, h1, ⟨hb, hv⟩, h3⟩
    obtain ⟨l1, l2, h4, h5, h6⟩ := List.map_eq_append_iff.mp h1
    obtain ⟨p', l3, rfl, h7, h8⟩ := List.map_eq_cons_iff.mp h6
    have h5 : l1 = ps := by
      have := congrArg delivered h5
      rwa [delivered_map_ok, delivered_map_ok] at this
    simp at h7; subst h5; subst h7
    have hpan := sfile_panics hs hl hcol hm h4 hb
    have := hpan.1 e h3
    subst this
    refine ⟨rfl, l1, p', l3, h4, hpan.2.mp h3, ?_⟩
    intro pre' q post' hp msg hmsg
    have h4' : file.patterns.reverse = pre' ++ q :: (post' ++ p' :: l3) := by rw [h4, hp]; simp
    have hps : ∀ x ∈ pre' ++ [q], x ∈ file.patterns := fun x hx => by
      rw [← List.mem_reverse, h4']; simp at hx ⊢; rcases hx with h | h <;> simp [h]
    obtain ⟨m1, hm1, hall⟩ := hv pre' q post' hp
    exact (sfile_passes hs hl hcol hm hps hm1 (hps q (by simp)) hmsg).mp (hall msg hmsg)
  · rintro ⟨rfl, pre, p, post, he, hp, hall⟩
    obtain ⟨t, hb⟩ := sfile_built sip pre
    refine ⟨pre, p, post.map .ok, t, by rw [he]; simp, ⟨hb, ?_⟩, ((sfile_panics hs hl hcol hm he hb).2).mpr hp⟩
    intro pre' q post' h1
    have he' : file.patterns.reverse = (pre' ++ [q]) ++ (post' ++ p :: post) := by rw [he, h1]; simp
    have hps : ∀ x ∈ pre' ++ [q], x ∈ file.patterns := fun x hx => by rw [← List.mem_reverse, he']; simp at hx ⊢; rcases hx with h | h <;> simp [h]
    obtain ⟨t', hb'⟩ := sfile_built sip (pre' ++ [q])
    exact ⟨t', hb', fun msg hmsg => (sfile_passes hs hl hcol hm hps hb' (hps q (by simp)) hmsg).mpr (hall pre' q post' h1 msg hmsg)⟩

/-! Files meeting the hypotheses: the SET of `é` tried on `aÃ` and on `aé`. -/

namespace Samples

def setDoc (text : Bytes) : Val :=
  .obj [(.str b!"patterns", .arr [
    .obj [(.str b!"pattern", .str b!"a%{SET(\"é\"):s}"), (.str b!"uuid", .num 1),
      (.str b!"test_messages", .arr [.obj [(.str b!"message", .str text)]])]])]

/-- Libraries that deliver ASCII strings, `aÃ`, `aé` and a pattern string with `é`, and a file `p.json` with this pattern tried on the text. -/
def setDeps (text : Bytes) : Deps :=
  { deps with
    string := fun v => match v with
      | .str s => if s = b!"aÃ" ∨ s = b!"aé" ∨ s = b!"a%{SET(\"é\"):s}" ∨ s.all (fun c => decide (c.toNat < 128)) then .ok s else .error (.other 1)
      | _ => .error (.other 1)
    openFile := fun _ => .ok b!"{}"
    json := fun _ => .ok (setDoc text) }

def setFile (text : Bytes) : PatternFile := { patterns := [withTests (pat 1 [.literal b!"a", .parser (set b!"s" b!"é")]) [msg text [] none]] }

theorem setDeps_utf8 (text : Bytes) : (setDeps text).Utf8Strings := by
  intro v s h
  cases v with
  | str s' =>
    simp only [setDeps] at h
    split at h
    · rename_i h1
      simp at h; subst h
      rcases h1 with rfl | rfl | rfl | h1
      · exact ⟨['a', 'Ã'], by decide⟩
      · exact ⟨['a', 'é'], by decide⟩
      · exact ⟨['a', '%', '{', 'S', 'E', 'T', '(', '"', 'é', '"', ')', ':', 's', '}'], by decide⟩
      · exact ascii_utf8 fun c hc => by simpa using List.all_eq_true.mp h1 c hc
    · simp at h
  | _ => simp [setDeps] at h

theorem setDeps_loads {text : Bytes} (h : deserFile (setDeps text) (setDoc text) = .ok (.ok (setFile text))) :
    loadFile (setDeps text) b!"p.json" = .ok (.ok (setFile text)) := by
  have hx : HasExt b!"p.json" b!"json" := by rw [← pathExtension_iff]; decide
  have hu : Utf8 b!"{}" := ascii_utf8 (by decide)
  rw [(C46_json _ b!"p.json" b!"{}" hx ⟨b!"{}", rfl, fun _ => rfl, fun h => absurd hu h⟩).1]
  refine ⟨_, rfl, ?_⟩
  rw [← C63_file]
  exact h

theorem setFile_meets {text : Bytes} (ht : Utf8 text) :
    NoCollision sip (setFile text).patterns ∧ ∀ p ∈ (setFile text).patterns, ∀ msg ∈ testsOf p, Utf8 msg.message := by
  refine ⟨?_, ?_⟩
  · rintro a b ⟨p, hp, e⟩ ⟨q, hq, e'⟩ _
    simp [setFile] at hp hq
    subst hp; subst hq
    simp [pat, withTests] at e e'
  · intro p hp m hm
    simp [setFile] at hp
    subst hp
    simp [testsOf, withTests] at hm
    subst hm
    exact ht

/-- `aÃ` cannot be parsed: the pattern is unloadable, and `from_file` panics. -/
theorem set_unloadable : SuffixUnloadable [] (withTests (pat 1 [.literal b!"a", .parser (set b!"s" b!"é")]) [msg b!"aÃ" [] none]) := by
  have hl := setDeps_loads (text := b!"aÃ") (by decide +kernel)
  have hx := setFile_meets (text := b!"aÃ") ⟨['a', 'Ã'], by decide⟩
  have h : fromFile (setDeps b!"aÃ") (suffixArrayMatcher sip) b!"p.json" = .error .slice := by
    unfold fromFile
    rw [hl]
    have : (match fromSource (suffixArrayMatcher sip) (fileItems (setFile b!"aÃ").patterns) with
        | .error e => decide (e = .slice)
        | _ => false) = true := by decide +kernel
    split at this
    · rename_i e h
      simp at this
      subst this
      simp only [h]
    · simp at this
  obtain ⟨_, pre, p, post, h1, h2, _⟩ := (C78_suffix_panics_iff _ (setDeps_utf8 _) sip _ _ hl hx.1 hx.2 _).mp h
  cases pre with
  | nil => simp [setFile] at h1; rw [h1.1]; exact h2
  | cons a pre => simp [setFile] at h1

example : fromFileIgnoreErrors (setDeps b!"aÃ") (suffixArrayMatcher sip) b!"p.json" = .error .slice :=
  have hx := setFile_meets (text := b!"aÃ") ⟨['a', 'Ã'], by decide⟩
  (C78_suffix_ignoring_panics_iff _ (setDeps_utf8 _) sip _ _ (setDeps_loads (by decide +kernel)) hx.1 hx.2).1 ⟨[], _, [], rfl, set_unloadable⟩

/-- `aé` can be parsed: no pattern is unloadable. -/
example : ∀ pre p post, (setFile b!"aé").patterns.reverse = pre ++ p :: post → ¬SuffixUnloadable pre p := by
  have hl := setDeps_loads (text := b!"aé") (by decide +kernel)
  have hx := setFile_meets (text := b!"aé") ⟨['a', 'é'], by decide⟩
  intro pre p post he hp
  have h := (C78_suffix_ignoring_panics_iff _ (setDeps_utf8 _) sip _ _ hl hx.1 hx.2).1 ⟨pre, p, post, he, hp⟩
  unfold fromFileIgnoreErrors at h
  rw [hl] at h
  have : (fromSourceIgnoreErrors (suffixArrayMatcher sip) (fileItems (setFile b!"aé").patterns)).map (fun _ => ()) = .ok () := by
    decide +kernel
  simp only at h
  cases hc : fromSourceIgnoreErrors (suffixArrayMatcher sip) (fileItems (setFile b!"aé").patterns) with
  | error e => rw [hc] at this; simp [Except.map] at this
  | ok m => rw [hc] at h; simp at h

end Samples

end Verif
