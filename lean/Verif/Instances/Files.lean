import Verif.Instances.Suffix
import Verif.Props.C78_TriePanics
import Verif.Props.C78_SuffixPanics
import Verif.Props.C81_Validated
import Verif.Props.C82_LoadErrors
/-! The theorems about loading, applied to concrete cases. -/
namespace Verif.Instances
open Verif.Spec Samples

/-! ### Loading from a source -/

/-- the matcher `from_source` returned -/
def isMatcher {T : Type} : M (Except BuildError T × List BuildResult) → Bool
  | .ok (.ok _, []) => true
  | _ => false

def matcherOf {T : Type} : (m : M (Except BuildError T × List BuildResult)) → isMatcher m = true → T
  | .ok (.ok t, []), _ => t

theorem matcherOf_eq {T : Type} (m : M (Except BuildError T × List BuildResult)) (h : isMatcher m = true) : m = .ok (.ok (matcherOf m h), []) := by
  match m, h with
  | .ok (.ok t, []), _ => rfl

/-- the answer of the matcher -/
theorem matcherOf_parse {m : M (Except BuildError SuffixTree × List BuildResult)} (h : isMatcher m = true) (text : Bytes) {r : Option MatchResult}
    (e : (m >>= fun x => match x.1 with | .ok t => t.parse text | .error _ => .ok none) = .ok r) : (matcherOf m h).parse text = .ok r := by
  match m, h with
  | .ok (.ok t, []), _ => exact e

/-- which error it returned -/
def errorOf {T : Type} : M (Except BuildError T × List BuildResult) → Option (BuildError × Nat)
  | .ok (.error e, rest) => some (e, rest.length)
  | _ => none

theorem errorOf_eq {T : Type} (m : M (Except BuildError T × List BuildResult)) (e : BuildError) (h : errorOf m = some (e, 0)) : m = .ok (.error e, []) := by
  match m, h with
  | .ok (.error e', []), h => cases h; rfl

theorem loaded_ok : isMatcher (fromSource (trieMatcher sip) ([user, host].map .ok)) = true := by decide +kernel

example := C42_agrees (trieMatcher sip) _ [] _ (matcherOf_eq _ loaded_ok)
theorem wrong_error : errorOf (fromSource (trieMatcher sip) ([.ok user, .ok wrong] : List BuildResult)) = some (.testMessage (.valueNotMatch 3 b!"n" b!"3" b!"2"), 0) := by decide +kernel

example := C41_later_items_ignored (trieMatcher sip) [.ok user, .ok wrong] [] [.ok host, .error (.io 2)] _ (errorOf_eq _ _ wrong_error)

/-- `user 5` -/
example := C43_incomparable_partial sip [user, host] (utf8Lits (by decide +kernel)) (by decide +kernel) (by decide +kernel) _ [] (matcherOf_eq _ loaded_ok) user (by simp)
  (msg b!"user 5" [(b!"id", b!"5"), (b!"kind", b!"login")] (some [b!"b"])) (by decide +kernel) u8!"user 5" (some ⟨{ user with pattern := [], testMessages := some [] }, [(b!"id", b!"5")]⟩)
  (matcherOf_parse loaded_ok b!"user 5" (by decide +kernel))

def testedWords : List Pattern := [withTests (pat 1 [.literal b!"app"]) [msg b!"app" [] none], withTests (pat 2 [.literal b!"apple"]) [msg b!"apple" [] none]]
theorem testedWords_ok : isMatcher (fromSource (trieMatcher sip) (testedWords.map .ok)) = true := by decide +kernel

example := C43_literals_partial sip testedWords (utf8Lits (by decide +kernel))
  (by intro p hp; simp only [testedWords, List.mem_cons, List.not_mem_nil, or_false] at hp; rcases hp with rfl | rfl <;> exact ⟨_, rfl⟩) (by decide +kernel) _ []
  (matcherOf_eq _ testedWords_ok) (withTests (pat 1 [.literal b!"app"]) [msg b!"app" [] none]) (by decide +kernel) (msg b!"app" [] none) (by decide +kernel) u8!"app"
  (some ⟨withTests (pat 1 []) [], []⟩) (matcherOf_parse testedWords_ok b!"app" (by decide +kernel))

def testedParsers : List Pattern :=
  [withTests (pat 1 [.parser (int b!"i"), .literal b!"!"]) [msg b!"7!" [(b!"i", b!"7")] none], withTests (pat 2 [.parser (greedy b!"g" none)]) [msg b!"x" [] none]]
theorem testedParsers_ok : isMatcher (fromSource (trieMatcher sip) (testedParsers.map .ok)) = true := by decide +kernel

example := C43_parser_led_partial sip testedParsers (utf8Lits (by decide +kernel)) (by decide +kernel) (by decide +kernel) (by decide +kernel) _ []
  (matcherOf_eq _ testedParsers_ok) (withTests (pat 1 [.parser (int b!"i"), .literal b!"!"]) [msg b!"7!" [(b!"i", b!"7")] none]) (by decide +kernel) _ (List.mem_singleton_self _) u8!"7!"
  (some ⟨withTests (pat 1 []) [], [(b!"i", b!"7")]⟩) (matcherOf_parse testedParsers_ok b!"7!" (by decide +kernel))

instance (m : BMap) : Decidable (OrderedMap m) :=
  decidable_of_iff ((m.map Prod.fst).Pairwise fun a b => a < b) (by
    unfold OrderedMap
    constructor
    · intro h; exact h.imp fun h => h
    · intro h; exact h.imp fun h => h)

example := C44_value ⟨user, [(b!"id", b!"5"), (b!"kind", b!"x")]⟩ (by decide +kernel) (by intro vs h; cases h; decide +kernel) b!"kind"

/-! ### Loading a file -/

/-- A document with two patterns, whose test messages pass. -/
def goodDoc : Val := .obj [(.str b!"patterns", .arr
  [.obj [(.str b!"uuid", .num 1), (.str b!"pattern", .str b!"user %{INT:id}"),
     (.str b!"test_messages", .arr [.obj [(.str b!"message", .str b!"user 5"), (.str b!"values", .obj [(.str b!"id", .str b!"5")])]])],
   .obj [(.str b!"uuid", .num 2), (.str b!"pattern", .str b!"host %{GREEDY:h}"), (.str b!"test_messages", .arr [.obj [(.str b!"message", .str b!"host x")]])]])]

def goodFile : PatternFile :=
  ⟨[withTests (pat 1 [.literal b!"user ", .parser (.int (intDelegate (some b!"id")))]) [msg b!"user 5" [(b!"id", b!"5")] none],
    withTests (pat 2 [.literal b!"host ", .parser (greedy b!"h" none)]) [msg b!"host x" [] none]]⟩

def goodDeps : Deps := { fileDeps with json := fun _ => .ok goodDoc }

theorem ext (path e : Bytes) (h : pathExtension path = some e) : HasExt path e := by rw [← pathExtension_iff]; exact h
theorem noExt (path : Bytes) (h : (b!"json" :: yamlExts).all (fun e => decide (pathExtension path ≠ some e)) = true) : ∀ e ∈ b!"json" :: yamlExts, ¬ HasExt path e := by
  intro e he hx
  rw [← pathExtension_iff] at hx
  have := List.all_eq_true.mp h e he
  simp [hx] at this

theorem good_utf8 : goodDeps.Utf8Strings := fun v s h => fileDeps_utf8 v s h
theorem good_text : FileText goodDeps b!"p.json" b!"{}" := ⟨b!"{}", rfl, fun _ => rfl, fun h => absurd u8!"{}" h⟩
theorem good_loads : loadFile goodDeps b!"p.json" = .ok (.ok goodFile) := by
  rw [(C46_json goodDeps b!"p.json" b!"{}" (ext _ _ (by decide)) good_text).1]
  refine ⟨_, rfl, ?_⟩
  rw [← C63_file]
  decide +kernel

theorem good_source : isMatcher (fromSource (trieMatcher sip) (fileItems goodFile.patterns)) = true := by decide +kernel
theorem good_arraySource : isMatcher (fromSource (suffixArrayMatcher sip) (fileItems goodFile.patterns)) = true := by decide +kernel

theorem fromFile_of {T : Type} {I : MatcherImpl T} {d : Deps} {path : Bytes} {file : PatternFile} (hl : loadFile d path = .ok (.ok file))
    (h : isMatcher (fromSource I (fileItems file.patterns)) = true) : fromFile d I path = .ok (.ok (matcherOf _ h)) := by
  unfold fromFile
  rw [hl]
  simp only
  generalize fromSource I (fileItems file.patterns) = m at h ⊢
  match m, h with
  | .ok (.ok t, []), _ => rfl

theorem good_trie : fromFile goodDeps (trieMatcher sip) b!"p.json" = .ok (.ok (matcherOf _ good_source)) := fromFile_of good_loads good_source
theorem good_array : fromFile goodDeps (suffixArrayMatcher sip) b!"p.json" = .ok (.ok (matcherOf _ good_arraySource)) := fromFile_of good_loads good_arraySource

example := C46_io { deps with openFile := fun _ => .error 13 } b!"p/x.yml" b!"yml" (by decide) (ext _ _ (by decide)) 13 rfl
example := C46_json goodDeps b!"p.json" b!"{}" (ext _ _ (by decide)) good_text
example := C46_yaml { goodDeps with yaml := fun _ => .ok goodDoc } b!"a.d/p.YML" b!"YML" b!"{}" (by decide) (ext _ _ (by decide)) good_text
example := C46_one_extension b!"p.json.yml" b!"yml" b!"yml" (ext _ _ (by decide)) (ext _ _ (by decide))
example := C46_unsupported goodDeps b!"é.json.bak" u8!"é.json.bak" (noExt _ (by decide))
example := C48_missing_uuid_partial deps [(.str b!"pattern", .str b!"abc"), (.str b!"name", .str b!"n")] (by
    intro e he; simp only [List.mem_cons, List.not_mem_nil, or_false] at he; rcases he with rfl | rfl <;> simp)
example := C59_never_notUtf8 goodDeps b!"é" u8!"é"
example := C61_agrees goodDeps (trieMatcher sip) b!"p.json" _ good_trie
example := C61_all_patterns goodDeps (trieMatcher sip) b!"p.json" _ (C61_agrees goodDeps (trieMatcher sip) b!"p.json" _ good_trie)

def missing : Deps := { deps with openFile := fun path => if path = b!"bad.json" then .ok [255] else if path = b!"empty.json" then .ok [] else .error 13 }
example := C64_io_only_open_partial missing b!"p/x.yml" u8!"p/x.yml" 13 (C46_io missing b!"p/x.yml" b!"yml" (by decide) (ext _ _ (by decide)) 13 (by rfl))

theorem notUtf8 : ¬ Utf8 [255] := fun h => utf8_ne_ff h (by simp)

example := C64_like_empty missing b!"bad.json" b!"empty.json" b!"json" [255] (ext _ _ (by decide)) (ext _ _ (by decide)) rfl notUtf8 rfl

/-! ### From the file to the answer -/

theorem good_hashes : NoCollision sip goodFile.patterns := by decide +kernel
theorem good_compiled : ∀ p ∈ goodFile.patterns, CompiledAscii p := by
  intro p hp
  simp only [goodFile, List.mem_cons, List.not_mem_nil, or_false] at hp
  rcases hp with rfl | rfl
  · exact ⟨b!"user %{INT:id}", by decide, by decide +kernel⟩
  · exact ⟨b!"host %{GREEDY:h}", by decide, by decide +kernel⟩
theorem good_messages : ∀ p ∈ goodFile.patterns, ∀ msg ∈ testsOf p, Ascii msg.message := by decide +kernel
theorem good_messages8 : ∀ p ∈ goodFile.patterns, ∀ msg ∈ testsOf p, Utf8 msg.message := fun p hp m hm => ascii_utf8 (good_messages p hp m hm)

example := C65_table_compiled_utf8 sip [single] (by intro p hp; simp only [List.mem_singleton] at hp; subst hp; exact ⟨b!"né%{INT:i}!", u8!"né%{INT:i}!", by decide +kernel⟩)
  (by decide +kernel) _ (okOf_eq _ single_built) b!"né77!" u8!"né77!" _ (answers single_built _ (some ⟨pat 1 [], [(b!"i", b!"77")]⟩) (by decide +kernel))
example := C77_trie_answers goodDeps good_utf8 sip b!"p.json" _ (.inl good_trie)
example := C77_suffix_answers goodDeps good_utf8 sip b!"p.json" _ (.inl good_array)
example := C78_load_panics { goodDeps with json := fun _ => .ok (.obj [(.str b!"patterns", .arr [.obj [(.str b!"pattern", .str b!"%{INT(min_len=18446744073709551616)}")]])]) }
  b!"p.json" b!"{}" good_text .unwrap
example := C78_trie_never_panics goodDeps sip b!"p.json" goodFile good_loads good_compiled good_messages
example := C78_suffix_never_panics goodDeps good_utf8 sip b!"p.json" goodFile good_loads good_hashes good_messages
example := C78_trie_panics_iff goodDeps good_utf8 sip b!"p.json" goodFile good_loads good_hashes good_messages8 .slice
example := C78_suffix_panics_iff goodDeps good_utf8 sip b!"p.json" goodFile good_loads good_hashes good_messages8 .slice
example := C78_trie_ignoring_panics_iff goodDeps good_utf8 sip b!"p.json" goodFile good_loads good_hashes good_messages8
example := C78_suffix_ignoring_panics_iff goodDeps good_utf8 sip b!"p.json" goodFile good_loads good_hashes good_messages8

theorem validated {T : Type} {I : MatcherImpl T} {ps : List Pattern} (h : isMatcher (fromSource I (ps.map .ok)) = true) : Validated I ps (matcherOf _ h) := by
  obtain ⟨_, ps', e, h'⟩ := (C40_from_source_ok I _ _ _).mp (matcherOf_eq _ h)
  have := congrArg delivered e
  rw [delivered_map_ok, delivered_map_ok] at this
  subst this
  exact h'

theorem validatedSample_ok : isMatcher (fromSource (trieMatcher sip) (validatedSample.map .ok)) = true := by decide +kernel

theorem different {ps : List Pattern} (h : ps.Pairwise fun p q => ∀ a ∈ (firstParser q).toList, firstParser p ≠ some a) : DifferentLeadingParsers ps :=
  h.imp fun h a ha hp => h a (by simp [firstParser_iff.mpr ha]) (firstParser_iff.mpr hp)

example := C81_validated sip validatedSample validatedSample_plain.proper (different (by decide +kernel)) _ (validated validatedSample_ok) []
  _ (validatedSample.drop 1) rfl (msg b!"apple 1" [] none) (by decide +kernel) u8!"apple 1" (some ⟨pat 2 [], [(b!"i", b!"1")]⟩)
  (matcherOf_parse validatedSample_ok b!"apple 1" (by decide +kernel))
example := C81_validated_ascii sip validatedSample validatedSample_plain (different (by decide +kernel)) _ (validated validatedSample_ok) []
  _ (validatedSample.drop 1) rfl (msg b!"applx" [] none) (by decide +kernel) (by decide)

theorem host_far : ∀ q ∈ [host], ∀ l, q.pattern.head? = some (.literal l) → ¬ l <+: b!"user 5" ∧
    ∀ p' ∈ [user, host], ∀ l0, p'.pattern.head? = some (.literal l0) → l0 ≠ l → ∀ c, c ≠ [] → c <+: b!"user 5" → ¬ CommonStart l0 l c := by
  intro q hq l hl
  cases List.mem_singleton.mp hq
  cases hl
  refine ⟨by decide, ?_⟩
  intro p' _ l0 _ _ c hc hp h
  have := prefixes (P := fun c => c ≠ [] → ¬ c <+: b!"host ") (by decide) c hp hc
  exact this h.2.1

example := C81_still_passes sip [user, host] (proper (by decide +kernel)) (different (by decide +kernel)) _ (validated loaded_ok) [] user [host] rfl
  (msg b!"user 5" [(b!"id", b!"5"), (b!"kind", b!"login")] (some [b!"b"])) (by decide +kernel) u8!"user 5" host_far
  (some ⟨{ user with pattern := [], testMessages := some [] }, [(b!"id", b!"5")]⟩) (matcherOf_parse loaded_ok b!"user 5" (by decide +kernel))
example := C81_still_passes_ascii sip [user, host] (plain (by decide +kernel)) (different (by decide +kernel)) _ (validated loaded_ok) [] user [host] rfl
  (msg b!"user 5" [(b!"id", b!"5"), (b!"kind", b!"login")] (some [b!"b"])) (by decide +kernel) (by decide) host_far
example := C81_from_file goodDeps sip b!"p.json" _ good_trie
example (L : ErrorTexts) := C82_from_file fileDeps (trieMatcher sip) L b!"p.json" _ file_rejected
example (L : ErrorTexts) := C82_from_source (trieMatcher sip) L [.ok user, .ok wrong] [] _ (by intro e h; simp at h) (errorOf_eq _ _ wrong_error)

end Verif.Instances
