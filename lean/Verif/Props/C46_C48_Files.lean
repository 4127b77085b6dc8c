import Verif.Proofs.Deser
import Verif.Proofs.Path
import Verif.Props.C40_C45_Loader
/-! C46–C48, C59–C64: documents and files. -/
namespace Verif
open Spec

variable (d : Deps)

/-! ### C46: file types -/

/-- The text the loader sees: the contents of the file, or nothing if they are not UTF-8. -/
def FileText (d : Deps) (path text : Bytes) : Prop :=
  ∃ contents, d.openFile path = .ok contents ∧ (Utf8 contents → text = contents) ∧ (¬ Utf8 contents → text = [])

/-- The extensions that are read as YAML. -/
def yamlExts : List Bytes := [b!"yaml", b!"yml", b!"YAML", b!"YML"]

theorem readFile_text {path text : Bytes} (h : FileText d path text) : readFile d path = .ok text := by
  obtain ⟨c, h1, h2, h3⟩ := h
  unfold readFile
  rw [h1]
  simp only
  by_cases hc : Utf8 c
  · rw [if_pos hc, h2 hc]
  · rw [if_neg hc, h3 hc]

theorem loadFile_json {path : Bytes} (hx : HasExt path b!"json") :
    loadFile d path = match readFile d path with | .error e => .ok (.error e) | .ok content => parseFile d d.json .deserJson content := by
  unfold loadFile
  rw [(pathExtension_iff _ _).mpr hx]
  simp only [toStr]
  rw [if_pos (ascii_utf8 (by decide))]
  simp
  rfl

theorem loadFile_yaml {path ext : Bytes} (he : ext ∈ yamlExts) (hx : HasExt path ext) :
    loadFile d path = match readFile d path with | .error e => .ok (.error e) | .ok content => parseFile d d.yaml .deserYaml content := by
  unfold loadFile
  rw [(pathExtension_iff _ _).mpr hx]
  simp only [toStr]
  simp [yamlExts] at he
  rcases he with rfl | rfl | rfl | rfl <;> rw [if_pos (ascii_utf8 (by decide))] <;> simp <;> rfl

/-- C46: a file with the extension `json` is read as a JSON document describing a pattern file. -/
theorem C46_json (path text : Bytes) (hx : HasExt path b!"json") (ht : FileText d path text) :
    (∀ file, loadFile d path = .ok (.ok file) ↔ ∃ v, d.json text = .ok v ∧ IsFile d v file) ∧
    (∀ e, loadFile d path = .ok (.error e) ↔
      ∃ e', e = .deserJson e' ∧ (d.json text = .error e' ∨ ∃ v, d.json text = .ok v ∧ FileError d v e')) := by
  rw [loadFile_json d hx, readFile_text d ht]
  simp only [parseFile]
  cases hj : d.json text with
  | error e => simp [eq_comm]
  | ok v =>
    simp only [Except.ok.injEq, exists_eq_left', reduceCtorEq, false_or, ← deserFile_ok, ← deserFile_error]
    cases hf : deserFile d v with
    | error e => simp
    | ok r => cases r <;> simp [eq_comm]

/-- C46: a file with one of the extensions `yaml`, `yml`, `YAML` and `YML` is read as a YAML document describing a pattern file. -/
theorem C46_yaml (path ext text : Bytes) (he : ext ∈ yamlExts) (hx : HasExt path ext) (ht : FileText d path text) :
    (∀ file, loadFile d path = .ok (.ok file) ↔ ∃ v, d.yaml text = .ok v ∧ IsFile d v file) ∧
    (∀ e, loadFile d path = .ok (.error e) ↔
      ∃ e', e = .deserYaml e' ∧ (d.yaml text = .error e' ∨ ∃ v, d.yaml text = .ok v ∧ FileError d v e')) := by
  rw [loadFile_yaml d he hx, readFile_text d ht]
  simp only [parseFile]
  cases hj : d.yaml text with
  | error e => simp [eq_comm]
  | ok v =>
    simp only [Except.ok.injEq, exists_eq_left', reduceCtorEq, false_or, ← deserFile_ok, ← deserFile_error]
    cases hf : deserFile d v with
    | error e => simp
    | ok r => cases r <;> simp [eq_comm]

/-- C46: if the file cannot be opened, the error is an I/O error. -/
theorem C46_io (path ext : Bytes) (he : ext ∈ b!"json" :: yamlExts) (hx : HasExt path ext) (e : Nat) (ho : d.openFile path = .error e) :
    loadFile d path = .ok (.error (.io e)) := by
  rcases List.mem_cons.mp he with rfl | he
  · rw [loadFile_json d hx]; simp [readFile, ho]
  · rw [loadFile_yaml d he hx]; simp [readFile, ho]

/-- C46: a path with another extension, or without one, is an error; the answer is the same whatever the file system contains (`d` is arbitrary). -/
theorem C46_unsupported (path : Bytes) (hp : Utf8 path) (hx : ∀ ext ∈ b!"json" :: yamlExts, ¬ HasExt path ext) :
    loadFile d path = .ok (.error .unsupportedFileExtension) := by
  unfold loadFile
  cases hext : pathExtension path with
  | none => rfl
  | some ext =>
    have h := (pathExtension_iff _ _).mp hext
    simp only [toStr]
    rw [if_pos (hasExt_utf8 hp h)]
    simp only
    rw [if_neg (by rintro rfl; exact hx _ (by simp) h), if_neg]
    rintro (rfl | rfl | rfl | rfl) <;> exact hx _ (by simp [yamlExts]) h

/-- A path has at most one extension, so the cases of C46 exclude each other. -/
theorem C46_one_extension (path e e' : Bytes) (h : HasExt path e) (h' : HasExt path e') : e = e' := hasExt_unique h h'

example : HasExt b!"/etc/p.d/patterns.yml/." b!"yml" := ⟨b!"patterns",
  ⟨b!"/etc/p.d/", b!"/.", by decide, .inr ⟨b!"/etc/p.d", by decide⟩, .dot [] .nil, by decide, by decide, by decide, by decide⟩, by decide, by decide⟩
example : ¬ HasExt b!"patterns.d/.json" b!"json" := by rw [← pathExtension_iff]; decide
example : ¬ HasExt b!"patterns.json.bak" b!"json" := by rw [← pathExtension_iff]; decide

/-- C59: the error "not UTF-8 file name" is never returned, because paths are given as strings. -/
theorem C59_never_notUtf8 (path : Bytes) (hp : Utf8 path) : loadFile d path ≠ .ok (.error .notUtf8FileName) := by
  intro h
  by_cases hx : ∃ ext ∈ b!"json" :: yamlExts, HasExt path ext
  · obtain ⟨ext, he, hx⟩ := hx
    cases ho : d.openFile path with
    | error e => rw [C46_io d path ext he hx e ho] at h; simp at h
    | ok c =>
      have ht : ∃ text, FileText d path text := by
        by_cases hc : Utf8 c
        · exact ⟨c, c, ho, fun _ => rfl, fun h => absurd hc h⟩
        · exact ⟨[], c, ho, fun h => absurd h hc, fun _ => rfl⟩
      obtain ⟨text, ht⟩ := ht
      rcases List.mem_cons.mp he with rfl | he
      · obtain ⟨e', h1, _⟩ := ((C46_json d path text hx ht).2 _).mp h
        simp at h1
      · obtain ⟨e', h1, _⟩ := ((C46_yaml d path ext text he hx ht).2 _).mp h
        simp at h1
  · rw [C46_unsupported d path hp (fun ext he hh => hx ⟨ext, he, hh⟩)] at h
    simp at h

/-! ### C47, C48, C62, C63: documents -/

/-- C47: a document is accepted as a pattern iff it is an object with the fields of a pattern, and the pattern has the values of these fields. -/
theorem C47_pattern (v : Val) (p : Pattern) : deserPattern d v = .ok (.ok p) ↔ IsPattern d v p := deserPattern_ok d v p

/-- C47: the error for a document that is not accepted tells the first thing that is wrong with it. -/
theorem C47_error (v : Val) (e : DeError) : deserPattern d v = .ok (.error e) ↔ PatternError d v e := deserPattern_error d v e

/-- C47: deserializing a pattern panics exactly if nothing is wrong with the entries and compiling the pattern string panics. -/
theorem C47_panic (v : Val) (e : Panic) : deserPattern d v = .error e ↔ PatternPanics d v e := deserPattern_panic d v e

/-- C62: a document is accepted as a test message iff it is an object with the fields of a test message. -/
theorem C62_test_message (v : Val) (msg : TestMessage) : deserTestMessage d v = .ok msg ↔ IsMessage d v msg := deserTestMessage_ok d v msg

/-- C62: the error for a document that is not accepted tells the first thing that is wrong with it. -/
theorem C62_error (v : Val) (e : DeError) : deserTestMessage d v = .error e ↔ MessageError d v e := deserTestMessage_error d v e

/-- C63: a document is accepted as a pattern file iff it is an object whose only key is `patterns`, with a list of patterns. -/
theorem C63_file (v : Val) (file : PatternFile) : deserFile d v = .ok (.ok file) ↔ IsFile d v file := deserFile_ok d v file

/-- C63: the error for a document that is not accepted tells the first thing that is wrong with it. -/
theorem C63_error (v : Val) (e : DeError) : deserFile d v = .ok (.error e) ↔ FileError d v e := deserFile_error d v e

/-- C63: deserializing a pattern file panics exactly if one of its patterns does and nothing before it is wrong. -/
theorem C63_panic (v : Val) (e : Panic) : deserFile d v = .error e ↔ FilePanics d v e := deserFile_panic d v e

namespace Samples

/-- Libraries that accept strings, lists and objects as what they are, and numbers as uuids. -/
def deps : Deps where
  string v := match v with | .str s => .ok s | _ => .error (.other 1)
  seq v := match v with | .arr l => .ok l | _ => .error (.other 2)
  entries v := match v with | .obj l => .ok l | _ => .error (.other 3)
  uuid v := match v with | .num (.ofNat n) => .ok n | _ => .error (.other 4)
  wrongType _ := .other 5
  json _ := .error (.other 6)
  yaml _ := .error (.other 7)
  openFile _ := .error 2

/-- A document that describes a pattern; the field `name` is given twice. -/
def doc : Val := .obj [(.str b!"name", .str b!"old"), (.str b!"uuid", .num 7), (.str b!"pattern", .str b!"x %{INT:n}"),
  (.str b!"name", .str b!"new"), (.str b!"values", .obj [(.str b!"b", .str b!"1"), (.str b!"a", .str b!"2"), (.str b!"b", .str b!"3")]),
  (.str b!"test_messages", .arr [.obj [(.str b!"message", .str b!"x 5"), (.str b!"tags", .arr [.str b!"t"])]])]

def docPattern : Pattern :=
  { name := some b!"new", uuid := 7, pattern := [.literal b!"x ", .parser (int b!"n")], values := some [(b!"a", b!"2"), (b!"b", b!"3")],
    tags := none, testMessages := some [{ message := b!"x 5", values := [], tags := some [b!"t"] }] }

/-- A document without uuid. -/
def noUuid : Val := .obj [(.str b!"pattern", .str b!"abc")]

end Samples

example : IsPattern Samples.deps Samples.doc Samples.docPattern := by rw [← C47_pattern]; decide +kernel
example : IsFile Samples.deps (.obj [(.str b!"patterns", .arr [Samples.doc])]) { patterns := [Samples.docPattern] } := by
  rw [← C63_file]; decide +kernel
example : MessageError Samples.deps (.obj [(.str b!"message", .str b!"m"), (.str b!"tags", .arr [.str b!"t", .num 1, .null])]) (.other 1) := by
  rw [← C62_error]; rfl
example : FileError Samples.deps (.obj [(.str b!"patterns", .arr [Samples.doc, .obj [(.str b!"uuid", .num 1), (.str b!"tag", .null), (.null, .null)]])])
    (.custom b!"Unexpected field: tag") := by
  rw [← C63_error]; decide +kernel
example : FilePanics Samples.deps (.obj [(.str b!"patterns", .arr [Samples.doc, .obj [(.str b!"pattern", .str b!"%{INT(min_len=18446744073709551616)}")], .null]),
    (.null, .null)]) .unwrap := by
  rw [← C63_panic]; decide +kernel

/-- C48 is false: if the uuid is missing, the error says that `pattern` is. -/
theorem C48_refuted : ∃ (d : Deps) (l : List (Val × Val)), (∀ k w, (k, w) ∈ l → PatternEntry d k w) ∧
    (∃ s toks, Field l b!"pattern" (IsString d) (some s) ∧ compile s = .ok (.ok toks)) ∧
    Field l b!"uuid" (fun w u => d.uuid w = .ok u) none ∧ deserPattern d (.obj l) = .ok (.error (.missingField b!"pattern")) := by
  refine ⟨Samples.deps, [(.str b!"pattern", .str b!"abc")], ?_, ?_, ?_, by decide +kernel⟩
  · intro k w h
    simp at h
    obtain ⟨rfl, rfl⟩ := h
    exact .inr (.inr (.inl ⟨rfl, _, rfl⟩))
  · exact ⟨b!"abc", [.literal b!"abc"], ⟨_, ⟨[], [], rfl, by simp⟩, rfl⟩, by decide +kernel⟩
  · simp [Field]

/-- C48, what holds: without a uuid the document is not accepted, and if nothing else is wrong the error is that a field is missing — but it names the
wrong field. -/
theorem C48_missing_uuid_partial (l : List (Val × Val)) (hu : Field l b!"uuid" (fun w u => d.uuid w = .ok u) none) :
    (∀ p, deserPattern d (.obj l) ≠ .ok (.ok p)) ∧
    ((∀ k w, (k, w) ∈ l → PatternEntry d k w) → (∃ s toks, Field l b!"pattern" (IsString d) (some s) ∧ compile s = .ok (.ok toks)) →
      deserPattern d (.obj l) = .ok (.error (.missingField b!"pattern"))) := by
  refine ⟨?_, ?_⟩
  · intro p hp
    obtain ⟨l', e, _, _, ⟨v, hv, _⟩, _⟩ := (C47_pattern d _ _).mp hp
    simp at e; subst e
    exact lastEntry_absent hv hu
  · rintro h ⟨s, toks, hs, hc⟩
    rw [C47_error]
    exact .inr ⟨l, rfl, .inr ⟨h, .inr ⟨s, hs, .inr ⟨⟨toks, hc⟩, hu, rfl⟩⟩⟩⟩

/-! ### C60, C61, C64: loading a file -/

/-- C60: `from_file` returns a matcher iff the file can be loaded, and the matcher is the one built from its patterns in reverse order, all test
messages passing when they are checked. -/
theorem C60_from_file {T : Type} (I : MatcherImpl T) (path : Bytes) (m : T) :
    fromFile d I path = .ok (.ok m) ↔ ∃ file, loadFile d path = .ok (.ok file) ∧ Validated I file.patterns.reverse m := by
  unfold fromFile
  cases hl : loadFile d path with
  | error e => simp
  | ok r =>
    cases r with
    | error e => simp
    | ok file =>
      simp only [Except.ok.injEq, exists_eq_left']
      have key : Validated I file.patterns.reverse m ↔ fromSource I (fileItems file.patterns) = .ok (.ok m, []) := by
        rw [C40_from_source_ok, C45_file_order]
        constructor
        · intro h; exact ⟨rfl, _, rfl, h⟩
        · rintro ⟨-, ps, e, h⟩
          have := congrArg delivered e
          rw [delivered_map_ok, delivered_map_ok] at this
          rw [this]; exact h
      rw [key]
      cases hs : fromSource I (fileItems file.patterns) with
      | error e => simp
      | ok x =>
        obtain ⟨r, rest⟩ := x
        simp only [Except.ok.injEq, Prod.mk.injEq]
        constructor
        · rintro rfl
          exact ⟨rfl, ((C40_from_source_ok _ _ _ _).mp hs).1⟩
        · exact fun h => h.1

/-- C61: `from_file_ignore_errors` returns an error only if the file cannot be loaded, and then `from_file` returns the same error. -/
theorem C61_same_load_errors {T : Type} (I : MatcherImpl T) (path : Bytes) (e : BuildError) :
    (fromFileIgnoreErrors d I path = .ok (.error e) ↔ loadFile d path = .ok (.error e)) ∧
    (loadFile d path = .ok (.error e) → fromFile d I path = .ok (.error e)) := by
  unfold fromFileIgnoreErrors fromFile
  cases hl : loadFile d path with
  | error e => simp
  | ok r =>
    cases r with
    | error e => simp
    | ok file =>
      simp only
      cases hs : fromSourceIgnoreErrors I (fileItems file.patterns) <;> simp

/-- C61: it returns the matcher built from all patterns of the file, also of those whose test messages fail, in reverse order. -/
theorem C61_all_patterns {T : Type} (I : MatcherImpl T) (path : Bytes) (m : T) (h : fromFileIgnoreErrors d I path = .ok (.ok m)) :
    ∃ file, loadFile d path = .ok (.ok file) ∧ built I file.patterns.reverse = .ok m := by
  unfold fromFileIgnoreErrors at h
  cases hl : loadFile d path with
  | error e => rw [hl] at h; simp at h
  | ok r =>
    cases r with
    | error e => rw [hl] at h; simp at h
    | ok file =>
      rw [hl] at h; simp only at h
      refine ⟨file, rfl, ?_⟩
      cases hs : fromSourceIgnoreErrors I (fileItems file.patterns) with
      | error e => rw [hs] at h; simp at h
      | ok m' =>
        rw [hs] at h; simp at h; subst h
        have := ((C42_ignore_errors I _ _).mp hs).1
        rwa [C45_file_order, delivered_map_ok] at this

/-- C61: whenever `from_file` returns a matcher, `from_file_ignore_errors` returns the same. -/
theorem C61_agrees {T : Type} (I : MatcherImpl T) (path : Bytes) (m : T) (h : fromFile d I path = .ok (.ok m)) :
    fromFileIgnoreErrors d I path = .ok (.ok m) := by
  unfold fromFile at h
  unfold fromFileIgnoreErrors
  cases hl : loadFile d path with
  | error e => rw [hl] at h; simp at h
  | ok r =>
    cases r with
    | error e => rw [hl] at h; simp at h
    | ok file =>
      rw [hl] at h; simp only at h
      cases hs : fromSource I (fileItems file.patterns) with
      | error e => rw [hs] at h; simp at h
      | ok x =>
        obtain ⟨r, rest⟩ := x
        rw [hs] at h; simp at h; subst h
        simp only
        rw [C42_agrees I _ _ _ hs]

/-- C64 is false: a file whose contents are not UTF-8 is not reported as an I/O error but read like an empty file. -/
theorem C64_refuted : ∃ (d : Deps) (path contents : Bytes), d.openFile path = .ok contents ∧ ¬ Utf8 contents ∧ HasExt path b!"json" ∧
    ∃ file, loadFile d path = .ok (.ok file) := by
  have hnot : ¬ Utf8 [255] := fun h => utf8_ne_ff h (by simp)
  let d : Deps := { Samples.deps with openFile := fun _ => .ok [255], json := fun _ => .ok (.obj [(.str b!"patterns", .arr [])]) }
  have hx : HasExt b!"p.json" b!"json" := by rw [← pathExtension_iff]; decide
  refine ⟨d, b!"p.json", [255], rfl, hnot, hx, { patterns := [] }, ?_⟩
  rw [(C46_json d b!"p.json" [] hx ⟨[255], rfl, fun h => absurd h hnot, fun _ => rfl⟩).1]
  refine ⟨_, rfl, ?_⟩
  rw [← C63_file]
  decide +kernel

/-- C64, what holds: the only I/O error is the one of opening the file. -/
theorem C64_io_only_open_partial (path : Bytes) (hp : Utf8 path) (e : Nat) (h : loadFile d path = .ok (.error (.io e))) :
    d.openFile path = .error e := by
  by_cases hx : ∃ ext ∈ b!"json" :: yamlExts, HasExt path ext
  · obtain ⟨ext, he, hx⟩ := hx
    cases ho : d.openFile path with
    | error e' => rw [C46_io d path ext he hx e' ho] at h; simp at h; rw [h]
    | ok c =>
      have ht : ∃ text, FileText d path text := by
        by_cases hc : Utf8 c
        · exact ⟨c, c, ho, fun _ => rfl, fun h => absurd hc h⟩
        · exact ⟨[], c, ho, fun h => absurd h hc, fun _ => rfl⟩
      obtain ⟨text, ht⟩ := ht
      rcases List.mem_cons.mp he with rfl | he
      · obtain ⟨e', h1, _⟩ := ((C46_json d path text hx ht).2 _).mp h
        simp at h1
      · obtain ⟨e', h1, _⟩ := ((C46_yaml d path ext text he hx ht).2 _).mp h
        simp at h1
  · rw [C46_unsupported d path hp (fun ext he hh => hx ⟨ext, he, hh⟩)] at h
    simp at h

/-- C64, what happens instead: a file whose contents are not UTF-8 is loaded exactly like an empty file with the same extension. -/
theorem C64_like_empty (path path' ext contents : Bytes) (hx : HasExt path ext) (hx' : HasExt path' ext) (ho : d.openFile path = .ok contents)
    (hn : ¬ Utf8 contents) (ho' : d.openFile path' = .ok []) : loadFile d path = loadFile d path' := by
  have hr : readFile d path = .ok [] := by unfold readFile; rw [ho]; simp [hn]
  have hr' : readFile d path' = .ok [] := by unfold readFile; rw [ho']; simp
  unfold loadFile
  rw [hr, hr', (pathExtension_iff _ _).mpr hx, (pathExtension_iff _ _).mpr hx']

end Verif
