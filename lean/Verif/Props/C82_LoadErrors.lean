import Verif.Props.C69_C72_Messages
import Verif.Props.C40_C45_Loader
/-! C82: what a failed load says. -/
namespace Verif
open Spec

theorem failsWith_names (debug : Option (List Bytes) → Bytes) {uuid : Nat} {msg : TestMessage} {a : Option MatchResult} {e : TestError}
    (h : FailsWith uuid msg a e) : b!"uuid=" ++ hyphenated uuid ++ b!" " <:+: e.display debug := by
  have key : ∀ e : TestError, textUuid e = uuid → b!"uuid=" ++ hyphenated uuid ++ b!" " <:+: e.display debug := by
    rintro e rfl
    cases e with
    | valueNotMatch u k x y =>
      exact ⟨b!"A parsed value does not equal to its expected value: ", b!"key=" ++ k ++ b!" expected=" ++ x ++ b!" got=" ++ y,
        by simp [TestError.display, textUuid]⟩
    | keyNotFound u k => exact ⟨b!"A parsed key in not found among the expected ones: ", b!"key=" ++ k, by simp [TestError.display, textUuid]⟩
    | testMessageDoesntMatch u m =>
      exact ⟨b!"A test message did not match its pattern: ", b!"message='" ++ m ++ b!"'", by simp [TestError.display, textUuid]⟩
    | matchedToOtherPattern u v m =>
      exact ⟨b!"The test message matched to an other pattern: expected_", b!"got_uuid=" ++ hyphenated v ++ b!" test_message='" ++ m ++ b!"'",
        by simp [TestError.display, textUuid]⟩
    | unexpectedTags u x y =>
      exact ⟨b!"Unexpected tags found either in the parse result or among the expected ones: ", b!"expected: " ++ debug x ++ b!" got=" ++ debug y,
        by simp [TestError.display, textUuid]⟩
  refine key e ?_
  cases h with
  | noMatch => rfl
  | other r h => rfl
  | rejected r e hu hr => cases hr <;> exact hu

/-- C82: if `from_source` fails because of a test message, the displayed text names the uuid of the pattern at which it stopped. -/
theorem C82_from_source {T : Type} (I : MatcherImpl T) (L : ErrorTexts) (items rest : List BuildResult) (e : TestError)
    (hd : ∀ e, .error (.testMessage e) ∉ items) (h : fromSource I items = .ok (.error (.testMessage e), rest)) :
    ∃ (ps : List Pattern) (p : Pattern), items = ps.map .ok ++ .ok p :: rest ∧ b!"uuid=" ++ hyphenated p.uuid ++ b!" " <:+: (BuildError.testMessage e).display L := by
  obtain ⟨ps, bad, m, e1, -, hp⟩ := (C41_from_source_error I items _ rest).mp h
  cases hp with
  | item e => exact absurd (by rw [e1]; simp) (hd e)
  | message p m1 A B msg a e h1 h2 h3 h4 h5 => exact ⟨ps, p, e1, failsWith_names L.debug h5⟩

/-- C82: `from_file` fails iff the file cannot be loaded, or one of its patterns, the ones after it in the file being all right, has a test
message that does not pass. -/
theorem C82_from_file_error {T : Type} (d : Deps) (I : MatcherImpl T) (path : Bytes) (e : BuildError) :
    fromFile d I path = .ok (.error e) ↔ loadFile d path = .ok (.error e) ∨
      ∃ file before p after m, loadFile d path = .ok (.ok file) ∧ file.patterns = before ++ p :: after ∧ Validated I after.reverse m ∧
        Problem I m (.ok p) e := by
  unfold fromFile
  cases hl : loadFile d path with
  | error e' => simp
  | ok r =>
    cases r with
    | error e' => simp
    | ok file =>
      have key : (∃ rest, fromSource I (fileItems file.patterns) = .ok (.error e, rest)) ↔
          ∃ before p after m, file.patterns = before ++ p :: after ∧ Validated I after.reverse m ∧ Problem I m (.ok p) e := by
        simp only [C41_from_source_error, C45_file_order]
        constructor
        · rintro ⟨rest, ps, bad, m, e1, hv, hp⟩
          obtain ⟨A, B, e2, e3, e4⟩ := List.map_eq_append_iff.mp e1
          cases B with
          | nil => simp at e4
          | cons p B =>
            simp only [List.map_cons, List.cons.injEq] at e4
            obtain ⟨rfl, rfl⟩ := e4
            have : A = ps := by
              have := congrArg delivered e3
              rwa [delivered_map_ok, delivered_map_ok] at this
            subst this
            refine ⟨B.reverse, p, A.reverse, m, ?_, by rwa [List.reverse_reverse], hp⟩
            have := congrArg List.reverse e2
            simpa using this
        · rintro ⟨before, p, after, m, e1, hv, hp⟩
          exact ⟨before.reverse.map .ok, after.reverse, .ok p, m, by rw [e1]; simp, hv, hp⟩
      have lhs : (match fromSource I (fileItems file.patterns) with
          | .error e => .error e
          | .ok (r, _) => .ok r : M (Except BuildError T)) = .ok (.error e) ↔ ∃ rest, fromSource I (fileItems file.patterns) = .ok (.error e, rest) := by
        cases hf : fromSource I (fileItems file.patterns) with
        | error e' => simp
        | ok r => obtain ⟨r, rest⟩ := r; simp
      show (match fromSource I (fileItems file.patterns) with
          | .error e => .error e
          | .ok (r, _) => .ok r : M (Except BuildError T)) = .ok (.error e) ↔ _
      rw [lhs, key]
      constructor
      · rintro ⟨before, p, after, m, h⟩; exact .inr ⟨file, before, p, after, m, rfl, h⟩
      · rintro (h | ⟨file', before, p, after, m, h1, h⟩)
        · simp at h
        · simp at h1; subst h1; exact ⟨before, p, after, m, h⟩

/-- Which errors loading a document can have. -/
theorem loadFile_errors (d : Deps) (path : Bytes) (e : BuildError) (h : loadFile d path = .ok (.error e)) :
    (∃ n, e = .io n) ∨ (∃ x, e = .deserJson x) ∨ (∃ x, e = .deserYaml x) ∨ e = .unsupportedFileExtension ∨ e = .notUtf8FileName := by
  have hread : ∀ e, readFile d path = .error e → ∃ n, e = .io n := by
    intro e h
    unfold readFile at h
    split at h <;> simp at h
    exact ⟨_, h.symm⟩
  have hparse : ∀ read err content, parseFile d read err content = .ok (.error e) → ∃ x, e = err x := by
    intro read err content h
    unfold parseFile at h
    split at h
    · simp at h; exact ⟨_, h.symm⟩
    · split at h <;> simp at h
      exact ⟨_, h.symm⟩
  unfold loadFile at h
  split at h
  · simp at h; simp [← h]
  · split at h
    · simp at h; simp [← h]
    · split at h
      · split at h
        · rename_i hr; simp at h; exact .inl (hread _ (h ▸ hr))
        · exact .inr (.inl (hparse _ _ _ h))
      · split at h
        · split at h
          · rename_i hr; simp at h; exact .inl (hread _ (h ▸ hr))
          · exact .inr (.inr (.inl (hparse _ _ _ h)))
        · simp at h; simp [← h]

theorem loadFile_no_test (d : Deps) (path : Bytes) (e : TestError) : loadFile d path ≠ .ok (.error (.testMessage e)) := by
  intro h
  rcases loadFile_errors d path _ h with ⟨_, h⟩ | ⟨_, h⟩ | ⟨_, h⟩ | h | h <;> cases h

/-- C82: if `from_file` fails because of a test message, the displayed text names the uuid of a pattern of the file. -/
theorem C82_from_file {T : Type} (d : Deps) (I : MatcherImpl T) (L : ErrorTexts) (path : Bytes) (e : TestError)
    (h : fromFile d I path = .ok (.error (.testMessage e))) :
    ∃ file, loadFile d path = .ok (.ok file) ∧ ∃ p ∈ file.patterns, b!"uuid=" ++ hyphenated p.uuid ++ b!" " <:+: (BuildError.testMessage e).display L := by
  rcases (C82_from_file_error d I path _).mp h with h | ⟨file, before, p, after, m, h1, h2, -, h4⟩
  · exact absurd h (loadFile_no_test d path e)
  · refine ⟨file, h1, p, by rw [h2]; simp, ?_⟩
    cases h4 with
    | message _ m1 A B msg a e h5 h6 h7 h8 h9 => exact failsWith_names L.debug h9

/-- The load of `Samples.wrong`, the second test message of which does not pass, fails with a text that names its uuid, 3. -/
example : (match fromSource (trieMatcher Samples.sip) [.ok Samples.user, .ok Samples.wrong, .ok Samples.host] with
    | .ok (.error (.testMessage e), _) => decide (e.display (fun _ => []) =
        b!"A parsed value does not equal to its expected value: uuid=00000000-0000-0000-0000-000000000003 key=n expected=3 got=2")
    | _ => false) = true := by decide +kernel

end Verif
