import Verif.Instances.Basic
import Verif.Props.C103_TextBetween
import Verif.Props.C103_Readable
import Verif.Props.C107_PatternDbAnswer
/-! The theorems about the conversion script, applied to concrete cases. -/
namespace Verif.Instances
open Verif.Spec Samples Perl

/-! ### Patterns -/

example := C89_exactly samplePdb _ ⟨_, sample_means, rfl⟩ (by decide)
/-- `@NUMBER:x@` and `@PCRE:x:a.b@` -/
example := C91_exactly "NUMBER".toList (by decide) (by decide) ["x".toList] (by decide)
example := C91_exactly "PCRE".toList (by decide) (by decide) ["x".toList, "a.b".toList] (by decide)

/-! ### Rules -/

def fileOf? : M (Except SerdeError PatternFile) → Bool
  | .ok (.ok _) => true
  | _ => false

def fileOf : (m : M (Except SerdeError PatternFile)) → fileOf? m = true → PatternFile
  | .ok (.ok f), _ => f

theorem fileOf_eq {m : M (Except SerdeError PatternFile)} (h : fileOf? m = true) : m = .ok (.ok (fileOf m h)) := by
  match m, h with
  | .ok (.ok f), _ => rfl

def rule : PdbRule := pdbRule pdbPatterns (some [("n".toList, "12".toList)])
theorem rule_input : ScriptInput (pdbEnv true) pdbDeps pdbUuid pdbRead [rule] :=
  pdb_input _ (fun _ h => h) _ (by intro l h; injection h with h; subst h; decide)
theorem rule_values : HaveValues (pdbEnv true) pdbRead [rule] := pdb_values _ _
theorem rule_file : fileOf? (deserFile pdbDeps (document (pdbEnv true) [rule])) = true := by decide +kernel
theorem rule_ids : DistinctIds (pdbEnv true) pdbUuid [rule] :=
  ⟨by simp, fun m n h => by simpa [pdbEnv] using h, fun r hr m => by simp only [List.mem_singleton] at hr; subst hr; simp [pdbEnv, rule, pdbRule], pdbUuid_inj⟩

example := C92_exactly pdbUuid pdbRead [rule] rule_input (by intro l h; cases h)
example := C93_distinct pdbUuid pdbRead [rule] rule_input rule_values rule_ids _ (fileOf_eq rule_file)
example := C94_rule_found_iff pdbUuid pdbRead [rule] rule_input rule_values rule_ids rule (List.mem_singleton_self _) _ (fileOf_eq rule_file)
example := C94_rule_found_partial pdbUuid pdbRead [rule] rule_input rule_values rule (List.mem_singleton_self _) "sshd".toList rfl _ _ rfl
  [.literal b!"sshd: login ", .int [] (some b!"n")] (by decide) _ (fileOf_eq rule_file)

/-! ### The document -/

/-- two rulesets whose rules have different ids -/
def distinctDb : PatternDb :=
  ⟨[], [⟨some "ssh".toList, "1".toList, none, true, ["sshd".toList],
      [⟨"r1".toList, [], [.patterns true ["login @NUMBER:n@".toList], .values false [("a".toList, "1".toList), ("a".toList, "2".toList)], .tags true ["t".toList]]⟩,
       ⟨"r2".toList, [], [.patterns false ["exit".toList], .examples true [⟨"exit".toList, none, [], [], false⟩]]⟩]⟩,
    ⟨none, "2".toList, none, false, [], [⟨"r3".toList, [], [.patterns true ["é".toList]]⟩]⟩]⟩

example := C103_distinct true distinctDb (by decide +kernel)

/-- a patterndb with line feeds between the elements -/
def spaced : Xml := .elem "patterndb".toList [] [.text "\n".toList, .elem "ruleset".toList [("name".toList, "ssh".toList), ("id".toList, "1".toList)]
  [.text "\n  ".toList, .elem "pattern".toList [] [.text "sshd".toList], .text "\n".toList, .elem "rules".toList [] [.text " ".toList]], .text "\n".toList]

theorem spaced_same : withoutText spaced = withoutText (patternDbXml ⟨[], [⟨some "ssh".toList, "1".toList, none, false, ["sshd".toList], []⟩]⟩) := by
  simp [spaced, descriptionXml, rulesetAtts, patternDbXml, rulesetXml, wrapXml, nodeXml, leafXml, withoutText, elementsOnly, textElements]

example := C103_patterndb_readable true _ spaced spaced_same
example := C103_read_with_text true _ spaced spaced_same

/-- values in an action, where the script does not expect them -/
def misplaced : Xml :=
  .elem "patterndb".toList [] [.elem "ruleset".toList [] [.elem "rule".toList [] [.elem "action".toList [] [.elem "values".toList [] []]]]]

theorem misplaced_unreadable : ¬ Readable true [] misplaced := by
  rw [← C103_readable]
  rintro ⟨σ, h⟩
  exact absurd h (by simp [misplaced, readXml, readXmls, handle, actionHandler, parentNamed, Xml.namedIn, Xml.named])

example := C103_unreadable_dies sampleOpts (pdbEnv true).fresh List.reverse List.reverse misplaced misplaced_unreadable

theorem printed_file : fileOf? (deserFile printedDeps printedDoc) = true := by decide +kernel

example := C107_complete sampleOpts _ _ _ (fun l => List.reverse_perm l) sampleDb printedDeps pdbUuid pdbRead printed_input rfl rfl (fun h => sample_goes_on h.2)
  (fun _ => sample_values) printedDoc printed_script _ (fileOf_eq printed_file) "ssh".toList "r1".toList 2 [.literal b!"sshd: exit"]
  ⟨⟨sampleDb.allRules.take 1, sampleDb.allRules[1], sampleDb.allRules.drop 2, by rfl, by rfl, by rfl, by simp [sampleDb, PatternDb.allRules]⟩,
    "sshd".toList, "exit".toList, by decide, by rfl, by decide⟩

end Verif.Instances
