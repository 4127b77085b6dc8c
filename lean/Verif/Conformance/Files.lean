import Verif.Model.Deser
import Verif.Rust.SipHash
/-! The integration tests in /repo/tests and the unit tests of /repo/src/matcher/pattern, run on the model.  These are tests of
the model, not proofs.  The documents are given as trees; texts that are not JSON (a missing brace, a trailing comma) are read
as an error. -/
namespace Verif.Conformance

/-- A hexadecimal digit. -/
def hexDigit (c : UInt8) : Option Nat :=
  if 48 ≤ c.toNat ∧ c.toNat ≤ 57 then some (c.toNat - 48)
  else if 97 ≤ c.toNat ∧ c.toNat ≤ 102 then some (c.toNat - 87)
  else if 65 ≤ c.toNat ∧ c.toNat ≤ 70 then some (c.toNat - 55)
  else none

/-- A uuid is 32 hexadecimal digits, with or without dashes after the digits 8, 12, 16 and 20. -/
def readUuid (s : Bytes) : Except DeError Nat :=
  let digits := if s[8]? = some 45 ∧ s[13]? = some 45 ∧ s[18]? = some 45 ∧ s[23]? = some 45 then
      ((((s.eraseIdx 23).eraseIdx 18).eraseIdx 13).eraseIdx 8) else s
  match digits.mapM hexDigit with
  | some ds => if ds.length = 32 then .ok (ds.foldl (fun n d => 16 * n + d) 0) else .error (.other 4)
  | none => .error (.other 4)

/-- The libraries, with one file that holds the document. -/
def libs (path : Bytes) (doc : Except DeError Val) : Deps where
  string v := match v with | .str s => .ok s | _ => .error (.other 1)
  seq v := match v with | .arr l => .ok l | _ => .error (.other 2)
  entries v := match v with | .obj l => .ok l | _ => .error (.other 3)
  uuid v := match v with | .str s => readUuid s | _ => .error (.other 4)
  wrongType _ := .other 5
  json _ := doc
  yaml _ := doc
  openFile p := if p = path then .ok [] else .error 2

theorem json_utf8 : Utf8 b!"json" := ⟨"json".toList, by decide +kernel⟩
theorem yaml_utf8 : Utf8 b!"yaml" := ⟨"yaml".toList, by decide +kernel⟩

/-- What `from_file` does with the one file, if its name ends in `.json`. -/
def built (path : Bytes) (doc : Except DeError Val) : M (Except BuildError SuffixTree) :=
  match parseFile (libs path doc) (libs path doc).json .deserJson [] with
  | .error e => .error e
  | .ok (.error e) => .ok (.error e)
  | .ok (.ok file) =>
    match fromSource (trieMatcher Rust.sipHasher) (fileItems file.patterns) with
    | .error e => .error e
    | .ok (r, _) => .ok r

theorem read_libs (path : Bytes) (doc : Except DeError Val) : readFile (libs path doc) path = .ok [] := by
  unfold readFile; simp [libs]

theorem load_json {path : Bytes} (h : pathExtension path = some b!"json") (doc : Except DeError Val) :
    loadFile (libs path doc) path = parseFile (libs path doc) (libs path doc).json .deserJson [] := by
  unfold loadFile; rw [h]; simp only [toStr, json_utf8, if_true, read_libs]

theorem load_yaml {path : Bytes} (h : pathExtension path = some b!"yaml") (doc : Except DeError Val) :
    loadFile (libs path doc) path = parseFile (libs path doc) (libs path doc).yaml .deserYaml [] := by
  unfold loadFile; rw [h]
  simp only [toStr, yaml_utf8, if_true, read_libs, show (b!"yaml" = b!"json") = False from by decide, if_false, true_or]

theorem from_json_file {path : Bytes} (h : pathExtension path = some b!"json") (doc : Except DeError Val) :
    fromFile (libs path doc) (trieMatcher Rust.sipHasher) path = built path doc := by
  unfold fromFile built; rw [load_json h]
  cases parseFile (libs path doc) (libs path doc).json .deserJson [] with
  | error e => rfl
  | ok r =>
    cases r with
    | error e => rfl
    | ok f => dsimp only; cases fromSource (trieMatcher Rust.sipHasher) (fileItems f.patterns) <;> rfl

/-- `matcher.ok()` is `Some` (`some true`) or `None` (`some false`); `none` is a panic. -/
def succeeds {α : Type} (r : M (Except BuildError α)) : Option Bool :=
  match r with
  | .ok (.ok _) => some true
  | .ok (.error _) => some false
  | .error _ => none

/-- The number of patterns in a loaded file. -/
def patternCount (r : M (Except BuildError PatternFile)) : Option Nat :=
  match r with
  | .ok (.ok f) => some f.patterns.length
  | _ => none

/-- No JSON. -/
def malformed : Except DeError Val := .error (.other 9)

/-- /repo/tests/matcher/ssh_ok.json -/
def ssh_ok : Val := .obj [(.str b!"patterns", .arr [
  .obj [(.str b!"uuid", .str b!"c11c806a-766d-4a09-9f24-7de1fe02e51e"), (.str b!"name", .str b!"SSH_PUBKEY"),
  (.str b!"pattern", .str b!"Jun %{INT:day} %{INT:hour}:%{INT:min}:%{INT:sec} lobotomy sshd[%{INT:pid}]: Accepted publickey for zts from %{INT:oct0}.%{INT:oct1}.%{INT:oct2}.%{INT:oct3} port %{INT:port} ssh2")], .obj [(.str b!"name", .str b!"SSH_DISCONNECT"),
  (.str b!"uuid", .str b!"9a49c47d-29e9-4072-be84-3b76c6814743"),
  (.str b!"pattern", .str b!"Jun %{INT:day} %{INT:hour}:%{INT:min}:%{INT:sec} lobotomy sshd[%{INT:pid}]: Received disconnect from %{GREEDY:ipaddr}: %{INT:dunno}: disconnected by user")], .obj [(.str b!"uuid", .str b!"fa8bdbcb-e0fd-4da1-9fa4-15ecfec28ad2"),
  (.str b!"pattern", .str b!"Jun %{INT:day} %{INT:hour}:%{INT:min}:%{INT:sec} lobotomy sshd[%{INT:pid}]: pam_unix(sshd:session): session closed for user zts"), (.str b!"values", .obj [(.str b!"add1", .str b!"v1"), (.str b!"add2", .str b!"v2")]), (.str b!"tags", .arr [.str b!"foo", .str b!"bar", .str b!"baz"]),
  (.str b!"test_messages", .arr [
  .obj [(.str b!"message", .str b!"Jun 25 14:09:41 lobotomy sshd[26478]: pam_unix(sshd:session): session closed for user zts"), (.str b!"values", .obj [(.str b!"day", .str b!"25"), (.str b!"hour", .str b!"14"), (.str b!"min", .str b!"09"), (.str b!"sec", .str b!"41"), (.str b!"pid", .str b!"26478"), (.str b!"add1", .str b!"v1"), (.str b!"add2", .str b!"v2")]), (.str b!"tags", .arr [.str b!"foo", .str b!"bar", .str b!"baz"])]])]])]

/-- /repo/tests/matcher/ssh_tags_are_not_there.json -/
def ssh_tags_are_not_there : Val := .obj [(.str b!"patterns", .arr [
  .obj [(.str b!"uuid", .str b!"c11c806a-766d-4a09-9f24-7de1fe02e51e"), (.str b!"name", .str b!"SSH_PUBKEY"),
  (.str b!"pattern", .str b!"Jun %{INT:day} %{INT:hour}:%{INT:min}:%{INT:sec} lobotomy sshd[%{INT:pid}]: Accepted publickey for zts from %{INT:oct0}.%{INT:oct1}.%{INT:oct2}.%{INT:oct3} port %{INT:port} ssh2")], .obj [(.str b!"name", .str b!"SSH_DISCONNECT"),
  (.str b!"uuid", .str b!"9a49c47d-29e9-4072-be84-3b76c6814743"),
  (.str b!"pattern", .str b!"Jun %{INT:day} %{INT:hour}:%{INT:min}:%{INT:sec} lobotomy sshd[%{INT:pid}]: Received disconnect from %{GREEDY:ipaddr}: %{INT:dunno}: disconnected by user")], .obj [(.str b!"uuid", .str b!"fa8bdbcb-e0fd-4da1-9fa4-15ecfec28ad2"),
  (.str b!"pattern", .str b!"Jun %{INT:day} %{INT:hour}:%{INT:min}:%{INT:sec} lobotomy sshd[%{INT:pid}]: pam_unix(sshd:session): session closed for user zts"), (.str b!"values", .obj [(.str b!"add1", .str b!"v1"), (.str b!"add2", .str b!"v2")]), (.str b!"tags", .arr [.str b!"foo", .str b!"baz"]),
  (.str b!"test_messages", .arr [
  .obj [(.str b!"message", .str b!"Jun 25 14:09:41 lobotomy sshd[26478]: pam_unix(sshd:session): session closed for user zts"), (.str b!"values", .obj [(.str b!"day", .str b!"25"), (.str b!"hour", .str b!"14"), (.str b!"min", .str b!"09"), (.str b!"sec", .str b!"41"), (.str b!"pid", .str b!"26478"), (.str b!"add1", .str b!"v1"), (.str b!"add2", .str b!"v2")]), (.str b!"tags", .arr [.str b!"foo", .str b!"bar", .str b!"baz"])]])]])]

/-- /repo/tests/matcher/ssh_only_expected_tags_are_checked.json -/
def ssh_only_expected_tags_are_checked : Val := .obj [(.str b!"patterns", .arr [
  .obj [(.str b!"uuid", .str b!"c11c806a-766d-4a09-9f24-7de1fe02e51e"), (.str b!"name", .str b!"SSH_PUBKEY"),
  (.str b!"pattern", .str b!"Jun %{INT:day} %{INT:hour}:%{INT:min}:%{INT:sec} lobotomy sshd[%{INT:pid}]: Accepted publickey for zts from %{INT:oct0}.%{INT:oct1}.%{INT:oct2}.%{INT:oct3} port %{INT:port} ssh2")], .obj [(.str b!"name", .str b!"SSH_DISCONNECT"),
  (.str b!"uuid", .str b!"9a49c47d-29e9-4072-be84-3b76c6814743"),
  (.str b!"pattern", .str b!"Jun %{INT:day} %{INT:hour}:%{INT:min}:%{INT:sec} lobotomy sshd[%{INT:pid}]: Received disconnect from %{GREEDY:ipaddr}: %{INT:dunno}: disconnected by user")], .obj [(.str b!"uuid", .str b!"fa8bdbcb-e0fd-4da1-9fa4-15ecfec28ad2"),
  (.str b!"pattern", .str b!"Jun %{INT:day} %{INT:hour}:%{INT:min}:%{INT:sec} lobotomy sshd[%{INT:pid}]: pam_unix(sshd:session): session closed for user zts"), (.str b!"values", .obj [(.str b!"add1", .str b!"v1"), (.str b!"add2", .str b!"v2")]), (.str b!"tags", .arr [.str b!"foo", .str b!"baz"]),
  (.str b!"test_messages", .arr [
  .obj [(.str b!"message", .str b!"Jun 25 14:09:41 lobotomy sshd[26478]: pam_unix(sshd:session): session closed for user zts"), (.str b!"values", .obj [(.str b!"day", .str b!"25"), (.str b!"hour", .str b!"14"), (.str b!"min", .str b!"09"), (.str b!"sec", .str b!"41"), (.str b!"pid", .str b!"26478"), (.str b!"add1", .str b!"v1"), (.str b!"add2", .str b!"v2")]), (.str b!"tags", .arr [.str b!"foo", .str b!"bar", .str b!"baz"])]])]])]

/-- /repo/tests/matcher/ssh_only_expected_values_are_checked.json -/
def ssh_only_expected_values_are_checked : Val := .obj [(.str b!"patterns", .arr [
  .obj [(.str b!"uuid", .str b!"fa8bdbcb-e0fd-4da1-9fa4-15ecfec28ad2"),
  (.str b!"pattern", .str b!"Jun %{INT:day} %{INT:hour}:%{INT:min}:%{INT:sec} lobotomy sshd[%{INT:pid}]: pam_unix(sshd:session): session closed for user zts"), (.str b!"values", .obj [(.str b!"add2", .str b!"v2")]),
  (.str b!"test_messages", .arr [
  .obj [(.str b!"message", .str b!"Jun 25 14:09:41 lobotomy sshd[26478]: pam_unix(sshd:session): session closed for user zts"), (.str b!"values", .obj [(.str b!"add2", .str b!"v2"), (.str b!"day", .str b!"25")])]])]])]

/-- /repo/tests/matcher/ssh_when_an_expected_value_is_not_found_we_fail.json -/
def ssh_when_an_expected_value_is_not_found_we_fail : Val := .obj [(.str b!"patterns", .arr [
  .obj [(.str b!"uuid", .str b!"fa8bdbcb-e0fd-4da1-9fa4-15ecfec28ad2"),
  (.str b!"pattern", .str b!"Jun %{INT:day} %{INT:hour}:%{INT:min}:%{INT:sec} lobotomy sshd[%{INT:pid}]: pam_unix(sshd:session): session closed for user zts"), (.str b!"values", .obj [(.str b!"key", .str b!"value")]),
  (.str b!"test_messages", .arr [
  .obj [(.str b!"message", .str b!"Jun 25 14:09:41 lobotomy sshd[26478]: pam_unix(sshd:session): session closed for user zts"), (.str b!"values", .obj [(.str b!"not_there", .str b!"v2")])]])]])]

/-- /repo/tests/matcher/ssh_we_can_parse_multiline_messages.json -/
def ssh_we_can_parse_multiline_messages : Val := .obj [(.str b!"patterns", .arr [
  .obj [(.str b!"uuid", .str b!"fa8bdbcb-e0fd-4da1-9fa4-15ecfec28ad2"),
  (.str b!"pattern", .str b!"lobotomy sshd[%{INT:pid}]:\npam_unix(%{GREEDY:session}): session closed for user zts"),
  (.str b!"test_messages", .arr [
  .obj [(.str b!"message", .str b!"lobotomy sshd[26478]:\npam_unix(sshd:session): session closed for user zts"), (.str b!"values", .obj [(.str b!"pid", .str b!"26478"), (.str b!"session", .str b!"sshd:session")])]])]])]

/-- /repo/tests/matcher/pattern_validation_should_not_be_local.json -/
def pattern_validation_should_not_be_local : Val := .obj [(.str b!"patterns", .arr [
  .obj [(.str b!"pattern", .str b!"%{GREEDY:foo}"),
  (.str b!"test_messages", .arr [
  .obj [(.str b!"message", .str b!"named: zone coagulants.devotions.tld/IN: NS 'gateway.pecs-mikro.hu.coagulants.devotions.tld' has no address records (A or AAAA)")]]),
  (.str b!"uuid", .str b!"4a853792-2fad-44da-9b4b-059a0caad6e2")], .obj [(.str b!"uuid", .str b!"1252c927-b0a3-4ce7-b863-da1427dc57ef"),
  (.str b!"pattern", .str b!"named: zone %{GREEDY:appacct.zone_name}/IN: NS '%{GREEDY:appacct.zone_ns}' has no address records (A or AAAA)"),
  (.str b!"test_messages", .arr [
  .obj [(.str b!"message", .str b!"named: zone foo.bar.tld/IN: NS 'gateway.pecs-mikro.hu.coagulants.devotions.tld' has no address records (A or AAAA)")]])]])]

/-- /repo/tests/file/ssh_ok.json and /repo/tests/file/ssh_ok.yaml -/
def file_ssh_ok : Val := .obj [(.str b!"patterns", .arr [
  .obj [(.str b!"uuid", .str b!"c11c806a-766d-4a09-9f24-7de1fe02e51e"), (.str b!"name", .str b!"SSH_PUBKEY"),
  (.str b!"pattern", .str b!"Jun %{INT:day} %{INT:hour}:%{INT:min}:%{INT:sec} lobotomy sshd[%{INT:pid}]: Accepted publickey for zts from %{INT:oct0}.%{INT:oct1}.%{INT:oct2}.%{INT:oct3} port %{INT:port} ssh2")], .obj [(.str b!"name", .str b!"SSH_DISCONNECT"),
  (.str b!"uuid", .str b!"9a49c47d-29e9-4072-be84-3b76c6814743"),
  (.str b!"pattern", .str b!"Jun %{INT:day} %{INT:hour}:%{INT:min}:%{INT:sec} lobotomy sshd[%{INT:pid}]: Received disconnect from %{GREEDY:ipaddr}: %{INT:dunno}: disconnected by user")], .obj [(.str b!"uuid", .str b!"fa8bdbcb-e0fd-4da1-9fa4-15ecfec28ad2"),
  (.str b!"pattern", .str b!"Jun %{INT:day} %{INT:hour}:%{INT:min}:%{INT:sec} lobotomy sshd[%{INT:pid}]: pam_unix(sshd:session): session closed for user zts"),
  (.str b!"test_messages", .arr [
  .obj [(.str b!"message", .str b!"Jun 12 1:2:3 lobotomy sshd[2000]: pam_unix(sshd:session): session closed for user zts"), (.str b!"values", .obj [(.str b!"day", .str b!"12"), (.str b!"hour", .str b!"1"), (.str b!"min", .str b!"2"), (.str b!"sec", .str b!"3"), (.str b!"pid", .str b!"2000")])]])]])]

/-! /repo/tests/file/mod.rs -/

-- test_given_a_valid_json_pattern_file_when_it_is_deserialized_then_we_can_extract_the_patterns_from_it
example : patternCount (loadFile (libs b!"tests/file/ssh_ok.json" (.ok file_ssh_ok)) b!"tests/file/ssh_ok.json") = some 3 := by
  rw [load_json (by decide +kernel)]; decide +kernel

-- test_given_an_invalid_json_pattern_file_when_it_is_deserialized_then_we_get_deserialization_error
example : ∃ e, loadFile (libs b!"tests/file/ssh_wrong.json" malformed) b!"tests/file/ssh_wrong.json" = .ok (.error (.deserJson e)) := by
  rw [load_json (by decide +kernel)]; exact ⟨_, rfl⟩

-- test_given_a_non_existing_pattern_file_when_it_is_deserialized_then_we_get_io_error
example : ∃ e, loadFile (libs b!"other" malformed) b!"tests/file/ssh_non_existing.json" = .ok (.error (.io e)) := by
  refine ⟨2, ?_⟩
  unfold loadFile
  rw [show pathExtension b!"tests/file/ssh_non_existing.json" = some b!"json" from by decide +kernel]
  simp only [toStr, json_utf8, if_true]; rfl

-- test_given_valid_yaml_pattern_file_when_it_is_deserialized_then_we_get_the_deserialized_contents
example : patternCount (loadFile (libs b!"tests/file/ssh_ok.yaml" (.ok file_ssh_ok)) b!"tests/file/ssh_ok.yaml") = some 3 := by
  rw [load_yaml (by decide +kernel)]; decide +kernel

-- test_given_not_existing_yaml_pattern_file_when_it_is_opened_we_get_io_error
example : ∃ e, loadFile (libs b!"other" malformed) b!"tests/file/ssh_non_existing.yaml" = .ok (.error e) := by
  refine ⟨.io 2, ?_⟩
  unfold loadFile
  rw [show pathExtension b!"tests/file/ssh_non_existing.yaml" = some b!"yaml" from by decide +kernel]
  simp only [toStr, yaml_utf8, if_true, show (b!"yaml" = b!"json") = False from by decide, if_false, true_or]; rfl

/-! /repo/tests/matcher/mod.rs -/

-- test_given_json_file_when_its_syntax_is_ok_then_matcher_can_be_built_from_it
-- test_given_json_file_when_matcher_is_created_by_factory_then_the_right_file_type_is_used_based_on_the_extension
example : succeeds (fromFile (libs b!"tests/matcher/ssh_ok.json" (.ok ssh_ok)) (trieMatcher Rust.sipHasher) b!"tests/matcher/ssh_ok.json") = some true := by
  rw [from_json_file (by decide +kernel)]; decide +kernel

-- test_given_json_file_when_its_syntax_is_not_ok_then_matcher_cannot_be_built_from_it
example : succeeds (fromFile (libs b!"tests/matcher/ssh_wrong.json" malformed) (trieMatcher Rust.sipHasher) b!"tests/matcher/ssh_wrong.json") = some false := by
  rw [from_json_file (by decide +kernel)]; decide +kernel

-- test_given_non_existing_json_file_when_it_is_loaded_then_matcher_cannot_be_created_from_it
example : succeeds (fromFile (libs b!"other" malformed) (trieMatcher Rust.sipHasher) b!"tests/matcher/ssh_non_existing.json") = some false := by
  unfold fromFile loadFile
  rw [show pathExtension b!"tests/matcher/ssh_non_existing.json" = some b!"json" from by decide +kernel]
  simp only [toStr, json_utf8, if_true]; rfl

-- test_given_json_file_when_the_tests_contain_tags_but_the_pattern_does_not_have_them_then_we_fail
example : succeeds (fromFile (libs b!"tests/matcher/ssh_tags_are_not_there.json" (.ok ssh_tags_are_not_there)) (trieMatcher Rust.sipHasher) b!"tests/matcher/ssh_tags_are_not_there.json") = some false := by
  rw [from_json_file (by decide +kernel)]; decide +kernel

-- test_given_json_file_when_a_pattern_contains_test_tags_then_we_only_check_the_expected_ones
example : succeeds (fromFile (libs b!"tests/matcher/ssh_only_expected_tags_are_checked.json" (.ok ssh_only_expected_tags_are_checked)) (trieMatcher Rust.sipHasher) b!"tests/matcher/ssh_only_expected_tags_are_checked.json") = some false := by
  rw [from_json_file (by decide +kernel)]; decide +kernel

-- test_given_json_file_when_a_pattern_contains_test_values_then_we_only_check_the_expected_ones
example : succeeds (fromFile (libs b!"tests/matcher/ssh_only_expected_values_are_checked.json" (.ok ssh_only_expected_values_are_checked)) (trieMatcher Rust.sipHasher) b!"tests/matcher/ssh_only_expected_values_are_checked.json") = some true := by
  rw [from_json_file (by decide +kernel)]; decide +kernel

-- test_given_json_file_when_an_expected_value_is_not_found_then_we_fail
example : succeeds (fromFile (libs b!"tests/matcher/ssh_when_an_expected_value_is_not_found_we_fail.json" (.ok ssh_when_an_expected_value_is_not_found_we_fail)) (trieMatcher Rust.sipHasher) b!"tests/matcher/ssh_when_an_expected_value_is_not_found_we_fail.json") = some false := by
  rw [from_json_file (by decide +kernel)]; decide +kernel

-- test_given_json_file_when_a_pattern_contains_cr_characters_then_we_handle_it_properly
example : succeeds (fromFile (libs b!"tests/matcher/ssh_we_can_parse_multiline_messages.json" (.ok ssh_we_can_parse_multiline_messages)) (trieMatcher Rust.sipHasher) b!"tests/matcher/ssh_we_can_parse_multiline_messages.json") = some true := by
  rw [from_json_file (by decide +kernel)]; decide +kernel

-- test_given_json_file_when_we_check_the_test_messages_then_the_resulting_pattern_should_be_the_tested_one
example : succeeds (fromFile (libs b!"tests/matcher/pattern_validation_should_not_be_local.json" (.ok pattern_validation_should_not_be_local)) (trieMatcher Rust.sipHasher) b!"tests/matcher/pattern_validation_should_not_be_local.json") = some false := by
  rw [from_json_file (by decide +kernel)]; decide +kernel

/-! /repo/src/matcher/pattern/test.rs -/

/-- `Pattern::from_json` succeeds and the pattern has the property (`some true`), or it fails (`none`). -/
def patternFrom (doc : Except DeError Val) (p : Pattern → Bool) : Option Bool :=
  match fromJson (libs b!"" doc) [] with
  | .ok (.ok q) => some (p q)
  | _ => none

-- test_given_json_document_when_it_does_not_contain_errors_then_pattern_can_be_created_from_it
example : patternFrom (.ok (.obj [(.str b!"name", .str b!"SSH_DISCONNECT"), (.str b!"pattern", .str b!"Jun %{INT:day} %{INT:hour}:%{INT:min}:%{INT:sec} lobotomy sshd[%{INT:pid}]: Received disconnect from %{GREEDY:ipaddr}: %{INT:dunno}: disconnected by user"), (.str b!"uuid", .str b!"9a49c47d-29e9-4072-be84-3b76c6814743"), (.str b!"values", .obj [(.str b!"key1", .str b!"value1"), (.str b!"key2", .str b!"value2")]), (.str b!"tags", .arr [.str b!"tag1", .str b!"tag2"])])) (fun p => p.name == some b!"SSH_DISCONNECT" && p.uuid == 0x9a49c47d29e94072be843b76c6814743 &&
    ((p.values.getD []).get? b!"key1") == some b!"value1" && ((p.values.getD []).get? b!"key2") == some b!"value2" &&
    ((p.values.getD []).get? b!"key3") == none && p.tags == some [b!"tag1", b!"tag2"] && p.pattern.length == 15) = some true := by decide +kernel

-- test_given_json_pattern_when_it_does_not_have_the_optional_paramaters_then_pattern_can_be_built_from_it
example : patternFrom (.ok (.obj [(.str b!"uuid", .str b!"9a49c47d-29e9-4072-be84-3b76c6814743"), (.str b!"pattern", .str b!"Jun %{INT:day} %{INT:hour}:%{INT:min}:%{INT:sec} lobotomy sshd[%{INT:pid}]: Received disconnect from %{GREEDY:ipaddr}: %{INT:dunno}: disconnected by user")])) (fun p => p.name == none) = some true := by decide +kernel

-- test_given_json_pattern_when_its_uuid_is_invalid_then_pattern_cannot_be_built_from_it
example : patternFrom (.ok (.obj [(.str b!"uuid", .str b!"sdfsdf-12f-sdfd--23"), (.str b!"pattern", .str b!"Jun %{INT:day} %{INT:hour}:%{INT:min}:%{INT:sec} lobotomy sshd[%{INT:pid}]: Received disconnect from %{GREEDY:ipaddr}: %{INT:dunno}: disconnected by user")])) (fun _ => true) = none := by decide +kernel

-- test_given_json_pattern_when_its_pattern_is_invalid_then_pattern_cannot_be_built_from_it
example : patternFrom (.ok (.obj [(.str b!"uuid", .str b!"9a49c47d-29e9-4072-be84-3b76c6814743"), (.str b!"pattern", .str b!"Jun %{INT:da")])) (fun _ => true) = none := by decide +kernel

-- test_given_json_pattern_when_test_messages_are_specified_then_they_are_parsed
example : patternFrom (.ok (.obj [(.str b!"uuid", .str b!"9a49c47d-29e9-4072-be84-3b76c6814743"), (.str b!"pattern", .str b!"Jun %{INT:day}"), (.str b!"test_messages", .arr [.obj [(.str b!"message", .str b!"Jun 1"), (.str b!"values", .obj [(.str b!"day", .str b!"1")])]])])) (fun _ => true) = some true := by decide +kernel

-- test_given_json_pattern_with_invalid_uuid_when_we_try_to_create_pattern_then_it_fails
example : patternFrom (.ok (.obj [(.str b!"uuid", .str b!"not valid uuid"), (.str b!"pattern", .str b!"Jun %{INT:day}")])) (fun _ => true) = none := by decide +kernel

-- test_given_json_pattern_when_it_does_not_have_the_pattern_field_then_it_cannot_be_created (the document of the test has a trailing comma)
example : patternFrom malformed (fun _ => true) = none := by decide +kernel

-- the same without the trailing comma
example : patternFrom (.ok (.obj [(.str b!"uuid", .str b!"9a49c47d-29e9-4072-be84-3b76c6814743")])) (fun _ => true) = none := by decide +kernel

-- test_given_json_pattern_when_it_does_not_have_a_name_it_can_be_successfully_deserialized
example : patternFrom (.ok (.obj [(.str b!"uuid", .str b!"b3c778e3-f476-4df9-b5a1-aaf27a3b4e21"), (.str b!"pattern", .str b!"Jun %{INT:day}")])) (fun _ => true) = some true := by decide +kernel

-- test_invalid_uuid_wont_make_uuid_library_panic, test_invalid_uuid_wont_make_uuid_library_panic_during_deserialization
example : patternFrom (.ok (.obj [(.str b!"uuid", .str b!"231231212212423424324323477343246663"), (.str b!"pattern", .str b!"Jun %{INT:day}")])) (fun _ => true) = none := by decide +kernel

/-! /repo/src/matcher/pattern/testmessage/test.rs -/

/-- A test message is deserialized and has the property (`some true`), or it fails (`none`). -/
def messageFrom (doc : Except DeError Val) (p : TestMessage → Bool) : Option Bool :=
  match doc with
  | .error _ => none
  | .ok v =>
    match deserTestMessage (libs b!"" doc) v with
    | .ok m => some (p m)
    | .error _ => none

-- test_given_json_test_message_when_it_is_deserialized_then_we_get_the_right_instance
example : messageFrom (.ok (.obj [(.str b!"message", .str b!"lame-servers: info: unexpected RCODE (REFUSED) resolving 'ns1.example.org/AAAA/IN': 192.0.2.1#53"), (.str b!"values", .obj [(.str b!"dnsqry.query", .str b!"ns1.example.org"), (.str b!"dnsqry.type", .str b!"AAAA"), (.str b!"dnsqry.class", .str b!"IN"), (.str b!"dnsqry.client_ip", .str b!"192.0.2.1"), (.str b!"dnsqry.client_port", .str b!"53"), (.str b!"dnslame.reason", .str b!"unexpected RCODE (REFUSED)")]), (.str b!"tags", .arr [.str b!"tag1", .str b!"tag2"])])) (fun m => m.message == b!"lame-servers: info: unexpected RCODE (REFUSED) resolving 'ns1.example.org/AAAA/IN': 192.0.2.1#53" &&
    m.values.length == 6 && m.tags == some [b!"tag1", b!"tag2"] && m.values.get? b!"dnsqry.type" == some b!"AAAA") = some true := by decide +kernel

-- test_given_json_test_message_when_it_does_not_have_a_message_field_then_error_is_returned (the document of the test has a trailing comma)
example : messageFrom malformed (fun _ => true) = none := by decide +kernel

-- the same without the trailing comma
example : messageFrom (.ok (.obj [(.str b!"values", .obj [(.str b!"dnsqry.query", .str b!"ns1.example.org")])])) (fun _ => true) = none := by decide +kernel

-- test_given_json_test_message_when_it_does_not_have_the_optional_fields_then_it_can_be_loaded_successfully
example : messageFrom (.ok (.obj [(.str b!"message", .str b!"lame-servers: info: unexpected RCODE (REFUSED) resolving 'ns1.example.org/AAAA/IN': 192.0.2.1#53")])) (fun m => m.message == b!"lame-servers: info: unexpected RCODE (REFUSED) resolving 'ns1.example.org/AAAA/IN': 192.0.2.1#53" && m.values.length == 0) = some true := by decide +kernel

-- test_given_json_test_message_when_it_contains_not_just_the_valid_fields_then_we_return_an_error
example : messageFrom (.ok (.obj [(.str b!"message", .str b!"lame-servers: info: unexpected RCODE (REFUSED) resolving 'ns1.example.org/AAAA/IN': 192.0.2.1#53"), (.str b!"field", .str b!"this field is not in TestMessage")])) (fun _ => true) = none := by decide +kernel

end Verif.Conformance
