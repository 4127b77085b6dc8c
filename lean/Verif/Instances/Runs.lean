import Verif.Instances.Answers
import Verif.Instances.Converted
import Verif.Props.C122_Formats
import Verif.Props.C123_EntryOrder
import Verif.Props.C125_ActAlike
import Verif.Props.C126_Reports
import Verif.Props.C127_Rerun
/-! The theorems about file formats, exchanged parsers and runs of the script, applied to concrete cases. -/
namespace Verif.Instances
open Verif.Spec Samples Perl

/-! ### File formats -/

/-- one document in two formats -/
def bothFormats : Deps :=
  { goodDeps with
    openFile := fun p => if p = b!"dir/p.json" then .ok b!"{}" else if p = b!"q.yml" then .ok b!"y: é" else .error 2
    json := fun t => if t = b!"{}" then .ok goodDoc else .error (.other 6)
    yaml := fun t => if t = b!"y: é" then .ok goodDoc else .error (.other 7) }
theorem both_json : FileText bothFormats b!"dir/p.json" b!"{}" := ⟨b!"{}", rfl, fun _ => rfl, fun h => absurd u8!"{}" h⟩
theorem both_yaml : FileText bothFormats b!"q.yml" b!"y: é" := ⟨b!"y: é", rfl, fun _ => rfl, fun h => absurd u8!"y: é" h⟩

example := C122_load bothFormats b!"dir/p.json" b!"q.yml" b!"yml" b!"{}" b!"y: é" (ext _ _ (by decide)) (ext _ _ (by decide)) (by decide) both_json both_yaml goodDoc rfl rfl
example := C122_from_file bothFormats (trieMatcher sip) b!"dir/p.json" b!"q.yml" b!"yml" b!"{}" b!"y: é" (ext _ _ (by decide)) (ext _ _ (by decide)) (by decide) both_json both_yaml
  goodDoc rfl rfl
example := C122_only_contents goodDeps (trieMatcher sip) (fun _ => .ok b!"{}") (fun p => if p = b!"a/q.json" then .ok b!"{}" else .error 2) b!"p.json" b!"a/q.json" b!"json"
  (ext _ _ (by decide)) (ext _ _ (by decide)) rfl

/-! ### The order of entries -/

theorem takenString {s r : Bytes} (h : fileDeps.string (.str s) = .ok r) : r = s := by
  simp only [fileDeps] at h
  split at h
  · cases h; rfl
  · cases h
theorem good_asIs : TakenAsIs goodDeps := ⟨fun _ => rfl, fun _ => rfl, fun _ _ h => takenString h, nofun, nofun, nofun, nofun, nofun, nofun⟩

def firstOrder : Val := .obj [(.str b!"uuid", .num 7), (.str b!"pattern", .str b!"n%{INT:i}"),
  (.str b!"test_messages", .arr [.obj [(.str b!"message", .str b!"n5"), (.str b!"tags", .arr [])]])]
def otherOrder : Val := .obj [(.str b!"pattern", .str b!"n%{INT:i}"), (.str b!"uuid", .num 7),
  (.str b!"test_messages", .arr [.obj [(.str b!"tags", .arr []), (.str b!"message", .str b!"n5")]])]

theorem otherOrder_same : SameData firstOrder otherOrder := by
  refine .step _ _ _ (.step _ _ _ (.refl _) (.here [] _ _ _ _ _ (by decide))) ?_
  exact .entry [(.str b!"pattern", .str b!"n%{INT:i}"), (.str b!"uuid", .num 7)] [] _ _ _ (.element [] [] _ _ (.here [] [] _ _ _ _ (by decide)))

example := C123_pattern good_asIs firstOrder otherOrder otherOrder_same
example := C123_test_message good_asIs (.obj [(.str b!"message", .str b!"n5"), (.str b!"tags", .arr [])]) (.obj [(.str b!"tags", .arr []), (.str b!"message", .str b!"n5")])
  (.step _ _ _ (.refl _) (.here [] [] _ _ _ _ (by decide)))

/-- two files whose patterns differ in the order of their entries -/
def twoOrders : Deps :=
  { goodDeps with
    openFile := fun p => if p = b!"p.json" ∨ p = b!"p.yml" then .ok b!"1" else .ok b!"2"
    json := fun t => if t = b!"1" then .ok (.obj [(.str b!"patterns", .arr [firstOrder])]) else .ok (.obj [(.str b!"patterns", .arr [otherOrder])])
    yaml := fun t => if t = b!"1" then .ok (.obj [(.str b!"patterns", .arr [firstOrder])]) else .ok (.obj [(.str b!"patterns", .arr [otherOrder])]) }

theorem orders_asIs : TakenAsIs twoOrders := ⟨fun _ => rfl, fun _ => rfl, fun _ _ h => takenString h, nofun, nofun, nofun, nofun, nofun, nofun⟩
theorem orders_text {p t : Bytes} (h : twoOrders.openFile p = .ok t) (ht : Utf8 t) : FileText twoOrders p t := ⟨t, h, fun _ => rfl, fun h => absurd ht h⟩

theorem nested : SameData (.obj [(.str b!"patterns", .arr [firstOrder])]) (.obj [(.str b!"patterns", .arr [otherOrder])]) := by
  refine .step _ _ _ (.step _ _ _ (.refl _) (.entry [] [] _ _ _ (.element [] [] _ _ (.here [] _ _ _ _ _ (by decide))))) ?_
  exact .entry [] [] _ _ _ (.element [] [] _ _ (.entry [(.str b!"pattern", .str b!"n%{INT:i}"), (.str b!"uuid", .num 7)] [] _ _ _ (.element [] [] _ _ (.here [] [] _ _ _ _ (by decide)))))

example := C123_file orders_asIs b!"p.json" b!"q.json" b!"1" b!"2" (ext _ _ (by decide)) (ext _ _ (by decide)) (orders_text rfl u8!"1") (orders_text rfl u8!"2") _ _ rfl rfl nested
example := C123_matcher (trieMatcher sip) orders_asIs b!"p.json" b!"q.json" b!"1" b!"2" (ext _ _ (by decide)) (ext _ _ (by decide)) (orders_text rfl u8!"1") (orders_text rfl u8!"2") _ _
  rfl rfl nested
example := C123_yaml_file orders_asIs b!"p.yml" b!"q.YAML" b!"yml" b!"YAML" b!"1" b!"2" (by decide) (by decide) (ext _ _ (by decide)) (ext _ _ (by decide)) (orders_text rfl u8!"1")
  (orders_text rfl u8!"2") _ _ rfl rfl nested

/-! ### Exchanged parsers -/

example := C125_same_results_iff (a := int b!"i") (b := set b!"i" b!"xyz") (by decide) (by decide) (utf8Parser (by decide)) (utf8Parser (by decide))
example := C125_trie sip orders orders_proper intAsSet intAsSetPattern intAsSet_exchanges (keepsApart (by decide +kernel)) (by decide +kernel) b!"ab7é" u8!"ab7é"
example := C125_suffix_array sip orders orders_proper.utf8 orders_proper.hashes intAsSet intAsSetPattern intAsSet_exchanges (keepsApart (by decide +kernel)) (by decide +kernel)
  b!"ab7é" u8!"ab7é"

/-! ### Reports -/

def pcre : Str := "a @PCRE:x:.*@ b".toList
theorem pcre_leftOut : LeftOut pcre := (Reports.leftOut_iff _).mpr (.inl (by decide +kernel))

example := C126_reported_partial sampleReportsEnv sampleReports _ (List.mem_cons_self ..) (by unfold HasProgram; decide +kernel) pcre (by decide) pcre_leftOut (by decide)
example := C126_no_false_alarm sampleReportsEnv sampleReports "PCRE:x:.*".toList (by decide +kernel)
/-- `a @NUMBER:x@: @ESTRING:foo::@ b@QSTRING:q:()@@SET:s:xy@@STRING::-@@ANYSTRING:rest@`, where `STRING` is converted with a remark -/
example := C126_inexact samplePdb _ ⟨_, sample_means, rfl⟩ "STRING".toList
/-- the second rule of `sampleDb` is the last with the id `r1` -/
example := C126_db sampleOpts _ _ _ (fun l => List.reverse_perm l) sampleDb _ printed_script sampleDb.allRules[1]
  ⟨sampleDb.allRules.take 1, sampleDb.allRules.drop 2, rfl, by decide +kernel⟩

/-! ### Two runs -/

theorem sameLabel (i j : Nat) (n n' : Nat) (ts : List Token) (made made' : Nat → Prop) (h : j = i ∨ made i ∧ made' j) :
    SameButLabels made made' { pat i ts with name := some (encode ("s".toList ++ '_' :: (toString n).toList)) }
      { pat j ts with name := some (encode ("s".toList ++ '_' :: (toString n').toList)) } := ⟨rfl, rfl, rfl, rfl, h, _, _, _, rfl, rfl⟩

def run (i n : Nat) (ts : List Token) : Pattern := { pat i ts with name := some (encode ("s".toList ++ '_' :: (toString n).toList)) }
/-- `né%{INT:i}` and `x%{INT:i}` of two runs; the uuids from 100 on were made up -/
def run1 : List Pattern := [run 1 1 [.literal b!"né", .parser (int b!"i")], run 101 2 [.literal b!"x", .parser (int b!"i")]]
def run2 : List Pattern := [run 102 1 [.literal b!"x", .parser (int b!"i")], run 1 2 [.literal b!"né", .parser (int b!"i")]]
theorem run1_built : Builds run1 := by decide +kernel
theorem run2_built : Builds run2 := by decide +kernel
theorem run1_proper : Proper sip run1 := properOf ["né", "x"] (by decide +kernel) (by decide +kernel)
theorem runs_each : Each (SameButLabels (100 ≤ ·) (100 ≤ ·)) run1 run2.reverse :=
  .cons _ _ _ _ (sameLabel 1 1 1 2 _ _ _ (.inl rfl)) (.cons _ _ _ _ (sameLabel 101 102 2 1 _ _ _ (.inr ⟨by decide, by decide⟩)) .nil)

instance (ps : List Pattern) : Decidable (AnyOrder OrderMatters ps) := by unfold AnyOrder; infer_instance
instance (ps : List Pattern) : Decidable (AnyOrder SuffixOrderMatters ps) := by unfold AnyOrder; infer_instance

example := C127_order sip (100 ≤ ·) (100 ≤ ·) run1 run2 run2.reverse run1_proper (by decide +kernel) runs_each (List.reverse_perm _) _ _ (okOf_eq _ run1_built) (okOf_eq _ run2_built)
  b!"x7" u8!"x7"
example := C127_order_suffix sip (100 ≤ ·) (100 ≤ ·) run1 run2 run2.reverse run1_proper.utf8 run1_proper.hashes (by decide +kernel) runs_each (List.reverse_perm _) b!"x7é" u8!"x7é"

/-- the same rule, with other uuids and another order of entries -/
def otherEnv : Env := { pdbEnv true with fresh := fun n => 'g' :: List.replicate n 'y', order := id }
theorem other_input : ScriptInput otherEnv pdbDeps pdbUuid pdbRead [rule] :=
  ⟨fun _ => .refl _, rule_input.faithful, fun _ => rfl, fun _ _ => rfl, rule_input.keys, rule_input.reading⟩
example := C127_rules_partial (pdbEnv true) otherEnv rfl rfl pdbDeps pdbUuid pdbRead [rule] [rule] (.refl _) rule_input other_input rule_values

def otherFresh (n : Nat) : Str := 'g' :: List.replicate n 'y'
/-- what the other run prints -/
def otherDoc : Val :=
  match script sampleOpts otherFresh id id (patternDbXml sampleDb) with
  | .prints v => v
  | _ => .null
theorem other_script : script sampleOpts otherFresh id id (patternDbXml sampleDb) = .prints otherDoc := by
  obtain ⟨rules, _, h⟩ := ((C104_script sampleOpts otherFresh id id (fun _ => .refl _) sampleDb).2.2 rfl rfl).2 fun h => sample_goes_on h.2
  unfold otherDoc
  rw [h]

theorem first_file : fileOf? (deserFile pdbDeps printedDoc) = true := by decide +kernel
theorem second_file : fileOf? (deserFile pdbDeps otherDoc) = true := by decide +kernel
theorem first_built : isOk (built (trieMatcher sip) (fileOf _ first_file).patterns.reverse) = true := by decide +kernel
theorem second_built : isOk (built (trieMatcher sip) (fileOf _ second_file).patterns.reverse) = true := by decide +kernel

example := C127_answers_partial sampleOpts _ _ _ _ _ _ (fun l => List.reverse_perm l) (fun _ => .refl _) sampleDb pdbDeps pdbUuid pdbRead sample_input sample_again rfl rfl
  (fun h => sample_goes_on h.2) (fun _ => sample_values) sip (printed_collision _) _ _ printed_script other_script _ _ (fileOf_eq first_file) (fileOf_eq second_file)
  (by decide +kernel) _ _ (okOf_eq _ first_built) (okOf_eq _ second_built) b!"sshd: login 12" u8!"sshd: login 12"
example := C127_answers_suffix_partial sampleOpts _ _ _ _ _ _ (fun l => List.reverse_perm l) (fun _ => .refl _) sampleDb pdbDeps pdbUuid pdbRead sample_input sample_again rfl rfl
  (fun h => sample_goes_on h.2) (fun _ => sample_values) sip (printed_collision _) _ _ printed_script other_script _ _ (fileOf_eq first_file) (fileOf_eq second_file)
  (by decide +kernel) b!"sshd: login é" u8!"sshd: login é"

end Verif.Instances
