import Verif.Model.PdbXml
import Verif.Spec.ConvertedFile
/-! Patterndb files: what they contain, how they are written in XML, and what is to be read from them. -/
namespace Verif.Spec
open Perl

/-- What an example may contain: test messages and test values. -/
inductive DbItem where
  | message (program : Option (List Char)) (message : List Char)
  | values (l : List (List Char × List Char))

/-- An example of a rule: its test message and test values.  Others may stand before them, which do not count; `valuesFirst` tells which of the two stands
first. -/
structure DbExample where
  message : List Char
  program : Option (List Char)
  values : List (List Char × List Char)
  earlier : List DbItem
  valuesFirst : Bool

/-- A message in an action. -/
structure DbMessage where
  atts : List (List Char × List Char)
  values : List (List Char × List Char)
  tags : List (List Char)

/-- An action of a rule. -/
inductive DbAction where
  | message (atts : List (List Char × List Char)) (m : DbMessage)
  | createContext (atts ctx : List (List Char × List Char)) (m : DbMessage)

/-- A part of a rule.  `wrapped` tells whether the elements stand in an element of their own (`<patterns>…</patterns>`) or directly in the rule. -/
inductive DbPart where
  | patterns (wrapped : Bool) (l : List (List Char))
  | examples (wrapped : Bool) (l : List DbExample)
  | tags (wrapped : Bool) (l : List (List Char))
  | values (wrapped : Bool) (l : List (List Char × List Char))
  | actions (l : List DbAction)
  | description (s : List Char)

/-- A rule: its id, its other attributes, and its parts in any order and number. -/
structure DbRule where
  id : List Char
  atts : List (List Char × List Char)
  parts : List DbPart

/-- A ruleset: its name, if it has one, and id, a description, its patterns (the names of programs), and its rules. -/
structure DbRuleset where
  name : Option (List Char)
  id : List Char
  description : Option (List Char)
  wrapped : Bool
  programs : List (List Char)
  rules : List DbRule

/-- A patterndb. -/
structure PatternDb where
  atts : List (List Char × List Char)
  rulesets : List DbRuleset

/-! ### As XML -/

/-- `<name atts>s</name>` -/
def leafXml (name : String) (atts : List (List Char × List Char)) (s : List Char) : Xml := .elem name.toList atts [.text s]

/-- `<name atts>xs</name>` -/
def nodeXml (name : String) (atts : List (List Char × List Char)) (xs : List Xml) : Xml := .elem name.toList atts xs

/-- elements in an element of their own, or directly -/
def wrapXml (wrapped : Bool) (name : String) (xs : List Xml) : List Xml := if wrapped then [nodeXml name [] xs] else xs

/-- values with their names -/
def namedXml (name : String) (l : List (List Char × List Char)) : List Xml := l.map fun v => leafXml name [("name".toList, v.1)] v.2

/-- the attribute `program`, if there is one -/
def programAtt : Option (List Char) → List (List Char × List Char)
  | some p => [("program".toList, p)]
  | none => []

/-- `<test_message>` or `<test_values>` -/
def itemXml : DbItem → Xml
  | .message program s => leafXml "test_message" (programAtt program) s
  | .values l => nodeXml "test_values" [] (namedXml "test_value" l)

/-- the item holds test values -/
def DbItem.isValues : DbItem → Bool
  | .message .. => false
  | .values _ => true

/-- everything in an example; there is no `<test_values>` if there are no values (and no earlier ones) -/
def DbExample.items (e : DbExample) : List DbItem :=
  let values := if e.values = [] ∧ e.earlier.any DbItem.isValues = false then [] else [.values e.values]
  e.earlier ++ if e.valuesFirst then values ++ [.message e.program e.message] else .message e.program e.message :: values

/-- `<example>` -/
def exampleXml (e : DbExample) : Xml := nodeXml "example" [] (e.items.map itemXml)

/-- `<message>` -/
def messageXml (m : DbMessage) : Xml :=
  nodeXml "message" m.atts [nodeXml "values" [] (namedXml "value" m.values), nodeXml "tags" [] (m.tags.map (leafXml "tag" []))]

/-- `<action>` -/
def actionXml : DbAction → Xml
  | .message atts m => nodeXml "action" atts [messageXml m]
  | .createContext atts ctx m => nodeXml "action" atts [nodeXml "create-context" ctx [messageXml m]]

/-- a part of a rule -/
def partXml : DbPart → List Xml
  | .patterns w l => wrapXml w "patterns" (l.map (leafXml "pattern" []))
  | .examples w l => wrapXml w "examples" (l.map exampleXml)
  | .tags w l => wrapXml w "tags" (l.map (leafXml "tag" []))
  | .values w l => wrapXml w "values" (namedXml "value" l)
  | .actions l => [nodeXml "actions" [] (l.map actionXml)]
  | .description s => [leafXml "description" [] s]

/-- `<rule>` -/
def ruleXml (r : DbRule) : Xml := nodeXml "rule" (("id".toList, r.id) :: r.atts) (r.parts.flatMap partXml)

/-- the description of a ruleset, if there is one -/
def descriptionXml : Option (List Char) → List Xml
  | some d => [leafXml "description" [] d]
  | none => []

/-- the attributes of a ruleset -/
def rulesetAtts (s : DbRuleset) : List (List Char × List Char) :=
  (match s.name with
    | some n => [("name".toList, n)]
    | none => []) ++ [("id".toList, s.id)]

/-- `<ruleset>` -/
def rulesetXml (s : DbRuleset) : Xml :=
  nodeXml "ruleset" (rulesetAtts s)
    (descriptionXml s.description ++ wrapXml s.wrapped "patterns" (s.programs.map (leafXml "pattern" [])) ++ [nodeXml "rules" [] (s.rules.map ruleXml)])

/-- `<patterndb>` -/
def patternDbXml (db : PatternDb) : Xml := nodeXml "patterndb" db.atts (db.rulesets.map rulesetXml)

/-! ### What is to be read -/

/-- the patterns of a rule -/
def DbRule.patterns (r : DbRule) : List (List Char) := r.parts.flatMap fun p => match p with | .patterns _ l => l | _ => []
/-- the examples of a rule -/
def DbRule.examples (r : DbRule) : List DbExample := r.parts.flatMap fun p => match p with | .examples _ l => l | _ => []
/-- the tags of a rule -/
def DbRule.tags (r : DbRule) : List (List Char) := r.parts.flatMap fun p => match p with | .tags _ l => l | _ => []
/-- the values of a rule -/
def DbRule.values (r : DbRule) : List (List Char × List Char) := r.parts.flatMap fun p => match p with | .values _ l => l | _ => []

/-- A ruleset is known by its name, or by its id if it has no name or if the name is empty or `0`. -/
def DbRuleset.key (s : DbRuleset) : List Char :=
  match s.name with
  | some n => if n = [] ∨ n = ['0'] then s.id else n
  | none => s.id

/-- All rules, in the order of the file, with the keys of their rulesets. -/
def PatternDb.allRules (db : PatternDb) : List (List Char × DbRule) := db.rulesets.flatMap fun s => s.rules.map fun r => (s.key, r)

/-- The rules with the id. -/
def PatternDb.rulesWith (db : PatternDb) (id : List Char) : List DbRule := (db.allRules.filter fun x => decide (x.2.id = id)).map Prod.snd

/-- The entries of a table into which the assignments `l` were made one after the other: for each key the last value. -/
def Assigned (l entries : List (List Char × List Char)) : Prop :=
  (entries.map Prod.fst).Nodup ∧ ∀ k v, (k, v) ∈ entries ↔ ∃ A B, l = A ++ (k, v) :: B ∧ ∀ x ∈ B, x.1 ≠ k

/-- None if there are no assignments, and otherwise the entries. -/
def AssignedOpt (l : List (List Char × List Char)) (o : Option (List (List Char × List Char))) : Prop :=
  (l = [] → o = none) ∧ (l ≠ [] → ∃ entries, o = some entries ∧ Assigned l entries)

/-- the example `e` is stored as `s` -/
def StoredExample (e : DbExample) (s : PdbExample) : Prop := s.message = e.message ∧ s.program = e.program.getD [] ∧ AssignedOpt e.values s.values

/-- `rules` are the rules of the patterndb: one for each id, with the patterns, examples, tags and values of all rules with this id and with the ruleset of the
last one. -/
structure ReadAs (db : PatternDb) (withExamples : Bool) (rules : List PdbRule) : Prop where
  ids : (rules.map (·.id)).Nodup
  complete : ∀ x ∈ db.allRules, ∃ r ∈ rules, r.id = x.2.id
  patterns : ∀ r ∈ rules, r.patterns = (db.rulesWith r.id).flatMap (·.patterns)
  examples : ∀ r ∈ rules, if withExamples then Each StoredExample ((db.rulesWith r.id).flatMap (·.examples)) r.examples else r.examples = []
  tags : ∀ r ∈ rules, r.tags = if (db.rulesWith r.id).flatMap (·.tags) = [] then none else some ((db.rulesWith r.id).flatMap (·.tags))
  values : ∀ r ∈ rules, AssignedOpt ((db.rulesWith r.id).flatMap (·.values)) r.values
  ruleset : ∀ r ∈ rules, ∃ A x B, db.allRules = A ++ x :: B ∧ x.1 = r.ruleset ∧ x.2.id = r.id ∧ ∀ y ∈ B, y.2.id ≠ r.id

/-- The programs of the rulesets with the key. -/
def PatternDb.programsOf (db : PatternDb) (key : List Char) : List (List Char) := (db.rulesets.filter fun s => decide (s.key = key)).flatMap (·.programs)

/-- Some rule has examples but no patterns, although its ruleset has a program: the script stops.  (Rules with the same id are taken together, and the last one
decides about the ruleset.) -/
def Stops (db : PatternDb) : Prop :=
  ∃ A x B, db.allRules = A ++ x :: B ∧ (∀ y ∈ B, y.2.id ≠ x.2.id) ∧ db.programsOf x.1 ≠ [] ∧ (db.rulesWith x.2.id).flatMap (·.examples) ≠ [] ∧
    (db.rulesWith x.2.id).flatMap (·.patterns) = []

/-- What the conversion of a patterndb depends on. -/
def dbEnv (db : PatternDb) (opts : Options) (fresh : Nat → List Char) (order : List (Val × Val) → List (Val × Val)) : Env :=
  ⟨opts.program, db.programsOf, fresh, order⟩

/-- A patterndb that the script can convert: the ids are uuids and every
pattern has one of the readings of `PdbReading`; the libraries are as in `ScriptInput`. -/
structure DbInput (db : PatternDb) (env : Env) (d : Deps) (uuidOf : List Char → Nat) (read : List Char → List Char → Option (List Elem)) : Prop where
  order : ∀ l, (env.order l).Perm l
  faithful : Faithful d
  fresh : ∀ n, d.uuid (strVal (env.fresh n)) = .ok (uuidOf (env.fresh n))
  ids : ∀ x ∈ db.allRules, d.uuid (strVal x.2.id) = .ok (uuidOf x.2.id)
  reading : ∀ x ∈ db.allRules, ∀ src ∈ x.2.patterns, ∀ y ∈ db.allRules, y.2.id = x.2.id → ∀ prog, (db.programsOf y.1).head? = some prog →
    PdbReading (frontOf env prog) src (read prog src)

end Verif.Spec
