import Verif.Spec.Formats
import Verif.Props.C46_C48_Files
/-! C122: a pattern file is its contents: neither the format nor the name matters. -/
namespace Verif
open Spec

variable (d : Deps)

/-- C122: a JSON file and a YAML file with the same data are loaded with the same outcome, up to the mark of the format on an error. -/
theorem C122_load (pj py ext tj ty : Bytes) (hj : HasExt pj b!"json") (hy : HasExt py ext) (he : ext ∈ yamlExts) (htj : FileText d pj tj)
    (hty : FileText d py ty) (v : Val) (hvj : d.json tj = .ok v) (hvy : d.yaml ty = .ok v) : loadFile d py = likeYaml (loadFile d pj) := by
  rw [loadFile_json d hj, loadFile_yaml d he hy, readFile_text d htj, readFile_text d hty]
  simp only [parseFile, hvj, hvy]
  cases deserFile d v with
  | error e => rfl
  | ok r => cases r <;> rfl

theorem checkTestMessages_yaml {T : Type} (I : MatcherImpl T) (m : T) (u : Nat) (ms : List TestMessage) (e : BuildError)
    (h : checkTestMessages I m u ms = .ok (.error e)) : asYaml e = e := by
  induction ms with
  | nil => simp [checkTestMessages] at h
  | cons msg ms ih =>
    simp only [checkTestMessages] at h
    split at h
    · contradiction
    · simp at h; rw [← h]; rfl
    · split at h
      · simp at h; rw [← h]; rfl
      · exact ih h

theorem fromSourceLoop_yaml {T : Type} (I : MatcherImpl T) (ps : List Pattern) (m : T) (e : BuildError) (rest : List BuildResult)
    (h : fromSourceLoop I m (ps.map .ok) = .ok (.error e, rest)) : asYaml e = e := by
  induction ps generalizing m with
  | nil => simp [fromSourceLoop] at h
  | cons p ps ih =>
    simp only [List.map_cons, fromSourceLoop] at h
    split at h
    · contradiction
    · rename_i m' e' hc
      simp at h
      rw [← h.1]
      simp only [checkPattern] at hc
      split at hc
      · contradiction
      · split at hc
        · contradiction
        · rename_i hm
          simp at hc
          rw [hc.2] at hm
          exact checkTestMessages_yaml I _ _ _ _ hm
    · exact ih _ h

theorem not_deser_of_source {T : Type} (I : MatcherImpl T) (ps : List Pattern) (r : Except BuildError T) (rest : List BuildResult)
    (h : fromSource I (fileItems ps) = .ok (r, rest)) : likeYaml (.ok r) = .ok r := by
  rw [fileItems_eq] at h
  cases r with
  | ok a => rfl
  | error e => simp only [likeYaml]; rw [fromSourceLoop_yaml I _ _ _ _ h]

/-- C122: so both lead to the same matcher or to the same failure, for both ways of building a matcher from a file. -/
theorem C122_from_file {T : Type} (I : MatcherImpl T) (pj py ext tj ty : Bytes) (hj : HasExt pj b!"json") (hy : HasExt py ext) (he : ext ∈ yamlExts)
    (htj : FileText d pj tj) (hty : FileText d py ty) (v : Val) (hvj : d.json tj = .ok v) (hvy : d.yaml ty = .ok v) :
    fromFile d I py = likeYaml (fromFile d I pj) ∧ fromFileIgnoreErrors d I py = likeYaml (fromFileIgnoreErrors d I pj) := by
  have h := C122_load d pj py ext tj ty hj hy he htj hty v hvj hvy
  unfold fromFile fromFileIgnoreErrors
  rw [h]
  rcases hl : loadFile d pj with e | e | file
  · exact ⟨rfl, rfl⟩
  · exact ⟨rfl, rfl⟩
  · simp only [likeYaml]
    constructor
    · rcases hs : fromSource I (fileItems file.patterns) with e | ⟨r, rest⟩
      · rfl
      · exact (not_deser_of_source I _ _ _ hs).symm
    · cases fromSourceIgnoreErrors I (fileItems file.patterns) <;> rfl

set_option smartUnfolding false in
theorem deserFile_open (o : Bytes → Except Nat Bytes) (v : Val) : deserFile { d with openFile := o } v = deserFile d v := rfl

/-- C122: nothing but the extension and the contents counts: two files with the same ones, in whatever places of whatever file systems, are loaded with the
same outcome. -/
theorem C122_only_contents {T : Type} (I : MatcherImpl T) (o o' : Bytes → Except Nat Bytes) (p p' ext : Bytes) (hp : HasExt p ext) (hp' : HasExt p' ext)
    (h : o p = o' p') :
    loadFile { d with openFile := o } p = loadFile { d with openFile := o' } p' ∧
    fromFile { d with openFile := o } I p = fromFile { d with openFile := o' } I p' ∧
    fromFileIgnoreErrors { d with openFile := o } I p = fromFileIgnoreErrors { d with openFile := o' } I p' := by
  have hl : loadFile { d with openFile := o } p = loadFile { d with openFile := o' } p' := by
    unfold loadFile readFile
    rw [(pathExtension_iff _ _).mpr hp, (pathExtension_iff _ _).mpr hp']
    simp only [h, parseFile, deserFile_open]
  refine ⟨hl, ?_, ?_⟩
  · unfold fromFile; rw [hl]
  · unfold fromFileIgnoreErrors; rw [hl]

namespace Samples

/-- Two files with the same data in different formats, the second pattern of which is not correct. -/
def twoFiles : Deps :=
  let v : Val := .obj [(.str b!"patterns", .arr [doc, .obj [(.str b!"uuid", .num 1), (.str b!"tag", .null)]])]
  { deps with
    openFile := fun p => if p = b!"dir/p.json" then .ok b!"{}" else if p = b!"q.yml" then .ok b!"y: 1" else .error 2
    json := fun t => if t = b!"{}" then .ok v else .error (.other 6)
    yaml := fun t => if t = b!"y: 1" then .ok v else .error (.other 7) }

end Samples

/-- Both files meet the hypotheses of C122, so the YAML file gives the error of the JSON file, marked as a YAML error. -/
example : loadFile Samples.twoFiles b!"q.yml" = .ok (.error (.deserYaml (.custom b!"Unexpected field: tag"))) := by
  have hj : HasExt b!"dir/p.json" b!"json" := by rw [← pathExtension_iff]; decide
  have hy : HasExt b!"q.yml" b!"yml" := by rw [← pathExtension_iff]; decide
  have hu : Utf8 b!"{}" := ascii_utf8 (by decide)
  have hu' : Utf8 b!"y: 1" := ascii_utf8 (by decide)
  have htj : FileText Samples.twoFiles b!"dir/p.json" b!"{}" := ⟨b!"{}", rfl, fun _ => rfl, fun h => absurd hu h⟩
  have hty : FileText Samples.twoFiles b!"q.yml" b!"y: 1" := ⟨b!"y: 1", rfl, fun _ => rfl, fun h => absurd hu' h⟩
  rw [C122_load Samples.twoFiles b!"dir/p.json" b!"q.yml" b!"yml" b!"{}" b!"y: 1" hj hy (by decide) htj hty _ rfl rfl]
  have h := ((C46_json Samples.twoFiles _ _ hj htj).2 (.deserJson (.custom b!"Unexpected field: tag"))).mpr
    ⟨_, rfl, .inr ⟨_, rfl, by rw [← C63_error]; decide +kernel⟩⟩
  rw [h]
  rfl

end Verif
