import Verif.Model.PdbXml
/-! Which XML files the script /repo/utils/pdb2adb can read. -/
namespace Verif.Spec
open Perl

/-- Somewhere in the tree there is an element with this name. -/
inductive Occurs (name : List Char) : Xml → Prop
  | here (a : List (List Char × List Char)) (cs : List Xml) : Occurs name (.elem name a cs)
  | inside (n : List Char) (a : List (List Char × List Char)) (cs : List Xml) (x : Xml) : x ∈ cs → Occurs name x → Occurs name (.elem n a cs)

/-- `up` are the names of the elements around an element `name` with the children `cs`, the innermost first.  The element is in order if those that must be in a
ruleset or a rule are, and if an action has a message and an example has a test message (unless examples are skipped). -/
structure InOrder (withExamples : Bool) (up : List (List Char)) (name : List Char) (cs : List Xml) : Prop where
  ruleset : name = "ruleset".toList → up ≠ []
  rule : name = "rule".toList → "ruleset".toList ∈ up
  description : name = "description".toList → "ruleset".toList ∈ up
  action : name = "action".toList → "rule".toList ∈ up ∧ ∃ x ∈ cs, Occurs "message".toList x
  example_ : name = "example".toList → up.take 1 = ["rule".toList] ∨ up.take 2 = ["examples".toList, "rule".toList] → withExamples = true →
    ∃ a ds, .elem "test_message".toList a ds ∈ cs

/-- All elements of the tree are in order. -/
inductive Readable (withExamples : Bool) : List (List Char) → Xml → Prop
  | text (up : List (List Char)) (s : List Char) : Readable withExamples up (.text s)
  | elem (up : List (List Char)) (n : List Char) (a : List (List Char × List Char)) (cs : List Xml) : InOrder withExamples up n cs →
      (∀ x ∈ cs, Readable withExamples (n :: up) x) → Readable withExamples up (.elem n a cs)

end Verif.Spec
