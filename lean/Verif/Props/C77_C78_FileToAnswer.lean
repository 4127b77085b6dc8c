import Verif.Props.C11_C14_TrieSound
import Verif.Props.C46_C48_Files
import Verif.Props.C66_Panics
import Verif.Props.C73_C74_SuffixAnswer
import Verif.Props.C75_C76_Families
/-! C77, C78: from a pattern file to the answers of the matcher. -/
namespace Verif
open Spec

/-- The tokens of the pattern were compiled from a UTF-8 pattern string. -/
def CompiledUtf8 (p : Pattern) : Prop := ∃ s, Utf8 s ∧ compile s = .ok (.ok p.pattern)

theorem compiledUtf8_lits {p : Pattern} (h : CompiledUtf8 p) : Utf8Lits p ∧ NonemptyLits p ∧ SplitLiterals p := by
  obtain ⟨s, hs, hc⟩ := h
  obtain ⟨_, h2, h3, _⟩ := C34_shape s hs _ hc
  refine ⟨(compiled_utf8 hs hc).1, (by intro l hl e; subst e; exact h2 hl), ?_⟩
  intro l rest e l' he
  cases rest with
  | nil => simp at he
  | cons tok rest =>
    simp at he
    subst he
    exact h3 [] l l' rest (by simpa using e)

/-- C65 for patterns compiled from pattern strings in any script (unless adding or parsing panics). -/
theorem C65_table_compiled_utf8 (sip : Bytes → UInt64) (ps : List Pattern) (hc : ∀ p ∈ ps, CompiledUtf8 p) (hcol : NoCollision sip ps)
    (t : SuffixTree) (hb : SuffixTree.build sip ps = .ok t) (text : Bytes) (hx : Utf8 text) (r : Option MatchResult) (hr : t.parse text = .ok r) :
    (Table.of ps).Answer text r :=
  C65_table sip ps (fun p hp => (compiledUtf8_lits (hc p hp)).1) (fun p hp => (compiledUtf8_lits (hc p hp)).2.1)
    (fun p hp => (compiledUtf8_lits (hc p hp)).2.2) hcol t hb text hx r hr

/-- The library delivers strings in UTF-8, as Rust's strings are. -/
def Deps.Utf8Strings (d : Deps) : Prop := ∀ v s, d.string v = .ok s → Utf8 s

theorem each_mem {α β : Type} {R : α → β → Prop} {as : List α} {bs : List β} (h : Each R as bs) {b : β} (hb : b ∈ bs) : ∃ a ∈ as, R a b := by
  induction h with
  | nil => simp at hb
  | cons a b' as bs hr _ ih =>
    rcases List.mem_cons.mp hb with rfl | hb
    · exact ⟨a, by simp, hr⟩
    · obtain ⟨a', h1, h2⟩ := ih hb
      exact ⟨a', by simp [h1], h2⟩

/-- A pattern of a file that can be loaded is one that a document describes. -/
theorem loaded_isPattern (d : Deps) {path : Bytes} {file : PatternFile} (h : loadFile d path = .ok (.ok file)) {p : Pattern} (hp : p ∈ file.patterns) :
    ∃ v, IsPattern d v p := by
  have key : ∀ (read : Bytes → Except DeError Val) err content, parseFile d read err content = .ok (.ok file) → ∃ v, IsFile d v file := by
    intro read err content h
    unfold parseFile at h
    cases hr : read content with
    | error e => rw [hr] at h; simp at h
    | ok v =>
      rw [hr] at h; simp only at h
      refine ⟨v, (deserFile_ok d v file).mp ?_⟩
      cases hf : deserFile d v with
      | error e => rw [hf] at h; simp at h
      | ok x =>
        rw [hf] at h
        cases x with
        | error e => simp at h
        | ok f => simp at h; rw [h]
  have : ∃ v, IsFile d v file := by
    unfold loadFile at h
    cases hx : pathExtension path with
    | none => rw [hx] at h; simp at h
    | some ext =>
      rw [hx] at h; simp only at h
      cases ht : toStr ext with
      | none => rw [ht] at h; simp at h
      | some ext =>
        rw [ht] at h; simp only at h
        split at h
        · cases hr : readFile d path with
          | error e => rw [hr] at h; simp at h
          | ok c => rw [hr] at h; exact key _ _ _ h
        · split at h
          · cases hr : readFile d path with
            | error e => rw [hr] at h; simp at h
            | ok c => rw [hr] at h; exact key _ _ _ h
          · simp at h
  obtain ⟨v, l, _, _, w, _, vs, _, he⟩ := this
  obtain ⟨a, _, ha⟩ := each_mem he hp
  exact ⟨a, ha⟩

theorem loaded_compiled (d : Deps) (hs : d.Utf8Strings) {path : Bytes} {file : PatternFile} (h : loadFile d path = .ok (.ok file)) :
    ∀ p ∈ file.patterns, CompiledUtf8 p := by
  intro p hp
  obtain ⟨v, l, _, _, ⟨s, ⟨w, _, hw⟩, hc⟩, _⟩ := loaded_isPattern d h hp
  exact ⟨s, hs w s hw, hc⟩

theorem loaded_mem {P : Pattern → Prop} (hP : ∀ p, P (loaded p) ↔ P p) {ps : List Pattern} (h : ∀ p ∈ ps, P p) :
    ∀ p ∈ ps.reverse.map loaded, P p := by
  intro p hp
  simp at hp
  obtain ⟨q, hq, rfl⟩ := hp
  exact (hP q).mpr (h q hq)

theorem loaded_noCollision {sip : Bytes → UInt64} {ps : List Pattern} (h : NoCollision sip ps) : NoCollision sip (ps.reverse.map loaded) := by
  rintro a b ⟨p, hp, e⟩ ⟨q, hq, e'⟩
  simp at hp hq
  obtain ⟨p, hp, rfl⟩ := hp
  obtain ⟨q, hq, rfl⟩ := hq
  exact h a b ⟨p, hp, e⟩ ⟨q, hq, e'⟩

/-- C77: the answers of a trie loaded from a file, whether test messages are enforced or not: they are those of the table of the file's patterns
(without their test messages), added in reverse order. -/
theorem C77_trie_answers (d : Deps) (hs : d.Utf8Strings) (sip : Bytes → UInt64) (path : Bytes) (t : SuffixTree)
    (h : fromFile d (trieMatcher sip) path = .ok (.ok t) ∨ fromFileIgnoreErrors d (trieMatcher sip) path = .ok (.ok t)) :
    ∃ file, loadFile d path = .ok (.ok file) ∧
      (NoCollision sip file.patterns → ∀ text, Utf8 text → ∀ r, t.parse text = .ok r → (Table.of (file.patterns.reverse.map loaded)).Answer text r) := by
  have h : fromFileIgnoreErrors d (trieMatcher sip) path = .ok (.ok t) := by
    rcases h with h | h
    · exact C61_agrees d _ _ _ h
    · exact h
  obtain ⟨file, hl, hb⟩ := C61_all_patterns d _ _ _ h
  refine ⟨file, hl, fun hcol text hx r hr => ?_⟩
  exact C65_table_compiled_utf8 sip _ (loaded_mem (P := CompiledUtf8) (fun _ => Iff.rfl) (loaded_compiled d hs hl)) (loaded_noCollision hcol) t hb
    text hx r hr

/-- C77 for the suffix-array matcher. -/
theorem C77_suffix_answers (d : Deps) (hs : d.Utf8Strings) (sip : Bytes → UInt64) (path : Bytes) (t : SuffixTable)
    (h : fromFile d (suffixArrayMatcher sip) path = .ok (.ok t) ∨ fromFileIgnoreErrors d (suffixArrayMatcher sip) path = .ok (.ok t)) :
    ∃ file, loadFile d path = .ok (.ok file) ∧
      (NoCollision sip file.patterns → ∀ text, Utf8 text → ∀ r, t.parse text = .ok r → SuffixAnswer (file.patterns.reverse.map loaded) text r) := by
  have h : fromFileIgnoreErrors d (suffixArrayMatcher sip) path = .ok (.ok t) := by
    rcases h with h | h
    · exact C61_agrees d _ _ _ h
    · exact h
  obtain ⟨file, hl, hb⟩ := C61_all_patterns d _ _ _ h
  refine ⟨file, hl, fun hcol text hx r hr => ?_⟩
  obtain ⟨t', hb', ht⟩ := C73_answer sip (file.patterns.reverse.map loaded)
    (fun p hp => (compiledUtf8_lits (loaded_mem (P := CompiledUtf8) (fun _ => Iff.rfl) (loaded_compiled d hs hl) p hp)).1) (loaded_noCollision hcol)
  have : t' = t := by
    have e : SuffixTable.build sip (file.patterns.reverse.map loaded) = .ok t := hb
    rw [hb'] at e
    simpa using e
  subst this
  exact ht text hx r hr

/-! ### C78 -/

theorem parseFile_panic (d : Deps) (read : Bytes → Except DeError Val) (err : DeError → BuildError) (content : Bytes) (e : Panic) :
    parseFile d read err content = .error e ↔ ∃ v, read content = .ok v ∧ FilePanics d v e := by
  unfold parseFile
  cases hr : read content with
  | error e => simp
  | ok v =>
    simp only [Except.ok.injEq, exists_eq_left', ← deserFile_panic]
    cases hf : deserFile d v with
    | error e => simp
    | ok x => cases x <;> simp

/-- C78: reading a file panics exactly if the document in it has nothing wrong in it up to a pattern string that makes compilation panic, that is, one
with too large a number (see C32). -/
theorem C78_load_panics (d : Deps) (path text : Bytes) (ht : FileText d path text) (e : Panic) :
    loadFile d path = .error e ↔
      (HasExt path b!"json" ∧ ∃ v, d.json text = .ok v ∧ FilePanics d v e) ∨
      ((∃ ext ∈ yamlExts, HasExt path ext) ∧ ∃ v, d.yaml text = .ok v ∧ FilePanics d v e) := by
  by_cases h1 : HasExt path b!"json"
  · have h2 : ¬ ∃ ext ∈ yamlExts, HasExt path ext := by
      rintro ⟨ext, he, h⟩
      have := hasExt_unique h1 h
      subst this
      simp [yamlExts] at he
    rw [loadFile_json d h1, readFile_text d ht]
    simp only [parseFile_panic, h1, h2, true_and, false_and, or_false]
  · by_cases h2 : ∃ ext ∈ yamlExts, HasExt path ext
    · obtain ⟨ext, he, h⟩ := h2
      have h2 : ∃ ext ∈ yamlExts, HasExt path ext := ⟨ext, he, h⟩
      rw [loadFile_yaml d he h, readFile_text d ht]
      simp only [parseFile_panic, h1, h2, true_and, false_and, false_or]
    · refine iff_of_false ?_ (by simp [h1, h2])
      intro h
      unfold loadFile at h
      cases hx : pathExtension path with
      | none => rw [hx] at h; simp at h
      | some ext =>
        rw [hx] at h; simp only at h
        have hx := (pathExtension_iff _ _).mp hx
        unfold toStr at h
        split at h
        · simp at h
        · rename_i ext' he
          split at he
          · simp at he
            subst he
            split at h
            · rename_i e; exact h1 (e ▸ hx)
            · split at h
              · rename_i e
                exact h2 ⟨ext, by simpa [yamlExts] using e, hx⟩
              · simp at h
          · simp at he

theorem fromFile_total {T : Type} (d : Deps) (I : MatcherImpl T) {path : Bytes} {file : PatternFile} (hl : loadFile d path = .ok (.ok file))
    (hp : ∀ pre p post m e, file.patterns.reverse = pre ++ p :: post → built I pre = .ok m → ¬ Spec.Panics I m p e)
    (hb : ∃ m, built I file.patterns.reverse = .ok m) :
    (∃ r, fromFile d I path = .ok r) ∧ ∃ m, fromFileIgnoreErrors d I path = .ok (.ok m) := by
  refine ⟨?_, ?_⟩
  · unfold fromFile
    rw [hl]
    simp only
    cases hs : fromSource I (fileItems file.patterns) with
    | ok x => exact ⟨x.1, rfl⟩
    | error e =>
      obtain ⟨ps, p, rest, m, h1, h2, h3⟩ := (C41_panic I _ e).mp hs
      have := congrArg delivered h1
      rw [C45_file_order, delivered_map_ok] at this
      have e1 : delivered (ps.map Except.ok ++ Except.ok p :: rest) = ps ++ p :: delivered rest := by
        have h0 := delivered_map_ok ps
        unfold delivered at h0 ⊢
        rw [List.filterMap_append, h0]
        simp
      rw [e1] at this
      exact absurd h3 (hp ps p _ m e this h2.1)
  · obtain ⟨m, hm⟩ := hb
    refine ⟨m, ?_⟩
    unfold fromFileIgnoreErrors
    rw [hl]
    simp only
    rw [(C42_ignore_errors I (fileItems file.patterns) m).mpr ?_]
    rw [C45_file_order, delivered_map_ok]
    exact ⟨hm, hp⟩

theorem built_snoc {T : Type} (I : MatcherImpl T) (ps : List Pattern) (p : Pattern) (m : T) (h : built I ps = .ok m) :
    built I (ps ++ [p]) = I.addPattern m (loaded p) := by
  unfold built at h ⊢
  rw [List.map_append, List.foldlM_append, h]
  simp [Bind.bind, Except.bind]
  cases I.addPattern m (loaded p) <;> rfl

/-- C78: loading a file of patterns compiled from ASCII strings, with ASCII test messages, into a trie never panics: `from_file` returns a matcher
or an error, and `from_file_ignore_errors` a matcher. -/
theorem C78_trie_never_panics (d : Deps) (sip : Bytes → UInt64) (path : Bytes) (file : PatternFile) (hl : loadFile d path = .ok (.ok file))
    (hc : ∀ p ∈ file.patterns, CompiledAscii p) (hm : ∀ p ∈ file.patterns, ∀ msg ∈ testsOf p, Ascii msg.message) :
    (∃ r, fromFile d (trieMatcher sip) path = .ok r) ∧ ∃ t, fromFileIgnoreErrors d (trieMatcher sip) path = .ok (.ok t) := by
  have hall : ∀ ps : List Pattern, (∀ p ∈ ps, p ∈ file.patterns) →
      ∃ t, built (trieMatcher sip) ps = .ok t ∧ ∀ text, Ascii text → ∃ r, t.parse text = .ok r := by
    intro ps hps
    obtain ⟨t, h1, _, h2⟩ := C13_ascii_never_panics sip (ps.map loaded) (by
      intro p hp
      simp at hp
      obtain ⟨q, hq, rfl⟩ := hp
      exact (compiledAscii_lits (hc q (hps q hq))).1)
    exact ⟨t, h1, h2⟩
  refine fromFile_total d _ hl ?_ ?_
  · intro pre p post m e he hb hpan
    have hmem : ∀ q ∈ pre ++ [p], q ∈ file.patterns := by
      intro q hq
      rw [← List.mem_reverse, he]
      simp at hq ⊢
      rcases hq with hq | hq <;> simp [hq]
    obtain ⟨t', h1, h2⟩ := hall (pre ++ [p]) hmem
    rw [built_snoc _ _ _ _ hb] at h1
    cases hpan with
    | add e h => rw [h] at h1; simp at h1
    | message m1 A B msg e g1 g2 g3 g4 =>
      rw [g1] at h1
      simp at h1
      subst h1
      obtain ⟨r, hr⟩ := h2 msg.message (hm p (hmem p (by simp)) msg (by rw [g2]; simp))
      have : m1.parse msg.message = .error e := g4
      rw [hr] at this
      simp at this
  · obtain ⟨t, h1, _⟩ := hall file.patterns.reverse (by simp)
    exact ⟨t, h1⟩

/-- C78 for the suffix-array matcher: the pattern strings may be in any script. -/
theorem C78_suffix_never_panics (d : Deps) (hs : d.Utf8Strings) (sip : Bytes → UInt64) (path : Bytes) (file : PatternFile)
    (hl : loadFile d path = .ok (.ok file)) (hcol : NoCollision sip file.patterns)
    (hm : ∀ p ∈ file.patterns, ∀ msg ∈ testsOf p, Ascii msg.message) :
    (∃ r, fromFile d (suffixArrayMatcher sip) path = .ok r) ∧ ∃ t, fromFileIgnoreErrors d (suffixArrayMatcher sip) path = .ok (.ok t) := by
  have hall : ∀ ps : List Pattern, (∀ p ∈ ps, p ∈ file.patterns) →
      ∃ t, built (suffixArrayMatcher sip) ps = .ok t ∧ ∀ text, Ascii text → ∃ r, t.parse text = .ok r := by
    intro ps hps
    obtain ⟨t, h1, _⟩ := C26_never_panics sip (ps.map loaded)
    refine ⟨t, h1, fun text hx => ?_⟩
    obtain ⟨r, h2, _⟩ := C74_ascii sip (ps.map loaded) (by
      intro p hp
      simp at hp
      obtain ⟨q, hq, rfl⟩ := hp
      exact (compiledUtf8_lits (loaded_compiled d hs hl q (hps q hq))).1) (by
      rintro a b ⟨p, hp, e⟩ ⟨q, hq, e'⟩
      simp at hp hq
      obtain ⟨p, hp, rfl⟩ := hp
      obtain ⟨q, hq, rfl⟩ := hq
      exact hcol a b ⟨p, hps p hp, e⟩ ⟨q, hps q hq, e'⟩) text hx
    rw [h1] at h2
    exact ⟨r, h2⟩
  refine fromFile_total d _ hl ?_ ?_
  · intro pre p post m e he hb hpan
    have hmem : ∀ q ∈ pre ++ [p], q ∈ file.patterns := by
      intro q hq
      rw [← List.mem_reverse, he]
      simp at hq ⊢
      rcases hq with hq | hq <;> simp [hq]
    obtain ⟨t', h1, h2⟩ := hall (pre ++ [p]) hmem
    rw [built_snoc _ _ _ _ hb] at h1
    cases hpan with
    | add e h => rw [h] at h1; simp at h1
    | message m1 A B msg e g1 g2 g3 g4 =>
      rw [g1] at h1
      simp at h1
      subst h1
      obtain ⟨r, hr⟩ := h2 msg.message (hm p (hmem p (by simp)) msg (by rw [g2]; simp))
      have : m1.parse msg.message = .error e := g4
      rw [hr] at this
      simp at this
  · obtain ⟨t, h1, _⟩ := hall file.patterns.reverse (by simp)
    exact ⟨t, h1⟩

/-! A file meeting the hypotheses: it has two patterns, the first of which has a test message. -/

namespace Samples

/-- Libraries that deliver ASCII strings only, and a file `p.json` with the document below. -/
def fileDeps : Deps :=
  { deps with
    string := fun v => match v with | .str s => if s.all (fun c => decide (c.toNat < 128)) then .ok s else .error (.other 1) | _ => .error (.other 1)
    openFile := fun _ => .ok b!"{}"
    json := fun _ => .ok (.obj [(.str b!"patterns", .arr [doc,
      .obj [(.str b!"pattern", .str b!"%{GREEDY:g}"), (.str b!"uuid", .num 8)]])]) }

def file : PatternFile := { patterns := [docPattern, pat 8 [.parser (greedy b!"g" none)]] }

theorem fileDeps_utf8 : fileDeps.Utf8Strings := by
  intro v s h
  cases v with
  | str s' =>
    simp only [fileDeps] at h
    split at h
    · rename_i h1
      simp at h; subst h
      refine ascii_utf8 fun c hc => ?_
      simpa using List.all_eq_true.mp h1 c hc
    · simp at h
  | _ => simp [fileDeps] at h

theorem fileDeps_loads : loadFile fileDeps b!"p.json" = .ok (.ok file) := by
  have hx : HasExt b!"p.json" b!"json" := by rw [← pathExtension_iff]; decide
  have hu : Utf8 b!"{}" := ascii_utf8 (by decide)
  rw [(C46_json fileDeps b!"p.json" b!"{}" hx ⟨b!"{}", rfl, fun _ => rfl, fun h => absurd hu h⟩).1]
  refine ⟨_, rfl, ?_⟩
  rw [← C63_file]
  decide +kernel

theorem file_ascii : (∀ p ∈ file.patterns, CompiledAscii p) ∧ ∀ p ∈ file.patterns, ∀ msg ∈ testsOf p, Ascii msg.message := by
  refine ⟨?_, ?_⟩
  · intro p hp
    simp [file] at hp
    rcases hp with rfl | rfl
    · exact ⟨b!"x %{INT:n}", by decide, by decide +kernel⟩
    · exact ⟨b!"%{GREEDY:g}", by decide, by decide +kernel⟩
  · decide

/-- `from_file` rejects this file, because the pattern does not have the tag the test message expects … -/
theorem file_rejected : fromFile fileDeps (trieMatcher sip) b!"p.json" = .ok (.error (.testMessage (.unexpectedTags 7 (some [b!"t"]) none))) := by
  unfold fromFile
  rw [fileDeps_loads]
  have h : fromSource (trieMatcher sip) (fileItems file.patterns) = .ok (.error (.testMessage (.unexpectedTags 7 (some [b!"t"]) none)), []) := by
    have : (match fromSource (trieMatcher sip) (fileItems file.patterns) with
        | .ok (.error e, rest) => decide (e = .testMessage (.unexpectedTags 7 (some [b!"t"]) none) ∧ rest = [])
        | _ => false) = true := by decide +kernel
    split at this
    · rename_i e rest h
      simp at this
      rw [h, this.1, this.2]
    · simp at this
  simp only [h]

/-- … and `from_file_ignore_errors` accepts it. -/
example : ∃ t, fromFileIgnoreErrors fileDeps (trieMatcher sip) b!"p.json" = .ok (.ok t) :=
  (C78_trie_never_panics fileDeps sip b!"p.json" file fileDeps_loads file_ascii.1 file_ascii.2).2

end Samples

end Verif
