import Verif.Model.Pdb2adb
/-! Model of the part of the Perl script /repo/utils/pdb2adb that reads the XML file (`init` and the handlers) and of its main program.

The document is the tree that `XML::Twig` builds (after discarding the white space between elements).  A handler of `XML::Twig` is called when the end of
its element has been read; the tree then contains what precedes this place.  An exception (`die`) is `none`.  `undef` and `""` are the same as keys
of hashes and in texts.  A list or hash that is not defined is empty here: the script never asks for the difference, with one exception, which `script` notes. -/
namespace Verif.Perl

/-- An XML tree. -/
inductive Xml where
  | text (s : Str)
  | elem (name : Str) (atts : List (Str × Str)) (children : List Xml)

mutual
/-- `text`: all the text in an element -/
def Xml.textOf : Xml → Str
  | .text s => s
  | .elem _ _ cs => Xml.textsOf cs
/-- `textOf` of a list -/
def Xml.textsOf : List Xml → Str
  | [] => []
  | x :: xs => x.textOf ++ Xml.textsOf xs
end

mutual
/-- the elements with the name, in the order of their beginnings: what repeated calls of `next_elt(name)` find -/
def Xml.named (name : Str) : Xml → List Xml
  | .text _ => []
  | .elem n a cs => if n = name then .elem n a cs :: Xml.namedIn name cs else Xml.namedIn name cs
/-- `named` of a list -/
def Xml.namedIn (name : Str) : List Xml → List Xml
  | [] => []
  | x :: xs => x.named name ++ Xml.namedIn name xs
end

/-- `$elt->{att}->{$name}` -/
def Xml.att (name : Str) : Xml → Option Str
  | .text _ => none
  | .elem _ a _ => a.lookup name

/-- the element has the name -/
def Xml.isNamed (name : Str) : Xml → Bool
  | .text _ => false
  | .elem n _ _ => decide (n = name)

/-- the children of an element -/
def Xml.children : Xml → List Xml
  | .text _ => []
  | .elem _ _ cs => cs

/-- `last_child($name)`, with the siblings that follow it -/
def lastChild (name : Str) : List Xml → Option (Xml × List Xml)
  | [] => none
  | x :: xs =>
    match lastChild name xs with
    | some r => some r
    | none => if x.isNamed name then some (x, xs) else none

/-- The names and attributes of the ancestors of an element, the nearest one first. -/
abbrev Ancestors := List (Str × List (Str × Str))

/-- the attributes of `$elt->parent($name)`, the nearest ancestor with the name -/
def parentNamed (name : Str) (anc : Ancestors) : Option (List (Str × Str)) := (anc.find? fun a => decide (a.1 = name)).map Prod.snd

/-- `$h{$k}->…`: a change to the entry `k` of a hash, which is made if there is none. -/
def upd {β : Type} (k : Str) (f : β → β) (new : β) : List (Str × β) → List (Str × β)
  | [] => [(k, f new)]
  | (k', v) :: l => if k' = k then (k', f v) :: l else (k', v) :: upd k f new l

/-- `$h{$k} = $v` -/
def assign (l : List (Str × Str)) (kv : Str × Str) : List (Str × Str) := upd kv.1 (fun _ => kv.2) [] l

/-- An entry of `%rule`, /repo/utils/pdb2adb:68-122 -/
structure RuleData where
  ruleset : Str
  patterns : List Str
  examples : List PdbExample
  tags : List Str
  values : List (Str × Str)

/-- `%rule` and the patterns in `%ruleset` -/
structure PdbData where
  rules : List (Str × RuleData)
  rulesets : List (Str × List Str)

/-- a new entry of `%rule` -/
def RuleData.new : RuleData := ⟨[], [], [], [], []⟩

/-- a change to the entry of a rule -/
def PdbData.updRule (σ : PdbData) (id : Str) (f : RuleData → RuleData) : PdbData := { σ with rules := upd id f .new σ.rules }

/-- the key of a ruleset: its name or, if this is false in Perl, its id; /repo/utils/pdb2adb:54,61,71 -/
def rulesetKey (atts : List (Str × Str)) : Str :=
  match atts.lookup "name".toList with
  | some n => if truthy n then n else (atts.lookup "id".toList).getD []
  | none => (atts.lookup "id".toList).getD []

/-- the test values of an example, /repo/utils/pdb2adb:97-103: the elements `test_value` after the beginning of the last `test_values` -/
def testValues (cs : List Xml) : List (Str × Str) :=
  match lastChild "test_values".toList cs with
  | none => []
  | some (x, following) => (Xml.namedIn "test_value".toList (x.children ++ following)).foldl (fun l v => assign l ((v.att "name".toList).getD [], v.textOf)) []

/-- `example`, /repo/utils/pdb2adb:90-109 -/
def exampleHandler (withExamples : Bool) (anc : Ancestors) (cs : List Xml) (σ : PdbData) : Option PdbData := do
  let rule ← parentNamed "rule".toList anc
  if withExamples then
    let (message, _) ← lastChild "test_message".toList cs
    let values := testValues cs
    let e : PdbExample := ⟨(message.att "program".toList).getD [], message.textOf, if values.isEmpty then none else some values⟩
    pure (σ.updRule ((rule.lookup "id".toList).getD []) fun d => { d with examples := d.examples ++ [e] })
  else pure (σ.updRule ((rule.lookup "id".toList).getD []) id)

/-- `action`, /repo/utils/pdb2adb:124-156: stores nothing that is used later, but needs a rule around the action and a message in it -/
def actionHandler (anc : Ancestors) (cs : List Xml) (σ : PdbData) : Option PdbData := do
  let _ ← parentNamed "rule".toList anc
  match Xml.namedIn "message".toList cs with
  | [] => none
  | _ :: _ => pure σ

/-- The handlers of /repo/utils/pdb2adb:25-39, each for the elements whose innermost ancestors are as its path says. -/
def handle (withExamples : Bool) (anc : Ancestors) (name : Str) (atts : List (Str × Str)) (cs : List Xml) (σ : PdbData) : Option PdbData :=
  let up := anc.map Prod.fst
  let within (container : String) (parent : String) : Bool :=
    decide (up.take 1 = [parent.toList]) || decide (up.take 2 = [container.toList, parent.toList])
  if name = "ruleset".toList then
    -- `ruleset`, lines 44-50: nothing that is used later, but the parent must exist
    match anc with
    | [] => none
    | _ => some σ
  else if name = "rule".toList then do
    -- `rule`, lines 69-79
    let rs ← parentNamed "ruleset".toList anc
    pure (σ.updRule ((atts.lookup "id".toList).getD []) fun d => { d with ruleset := rulesetKey rs })
  else if name = "description".toList then do
    -- `ruleset_description`, lines 52-57: nothing that is used later
    let _ ← parentNamed "ruleset".toList anc
    pure σ
  else if name = "pattern".toList && within "patterns" "ruleset" then do
    -- `ruleset_pattern`, lines 59-66
    let rs ← parentNamed "ruleset".toList anc
    pure { σ with rulesets := upd (rulesetKey rs) (fun l => l ++ [Xml.textsOf cs]) [] σ.rulesets }
  else if name = "pattern".toList && within "patterns" "rule" then do
    -- `rule_pattern`, lines 81-88
    let rule ← parentNamed "rule".toList anc
    pure (σ.updRule ((rule.lookup "id".toList).getD []) fun d => { d with patterns := d.patterns ++ [Xml.textsOf cs] })
  else if name = "example".toList && within "examples" "rule" then exampleHandler withExamples anc cs σ
  else if name = "action".toList then actionHandler anc cs σ
  else if name = "tag".toList && within "tags" "rule" then do
    -- `rule_tag`, lines 111-116
    let rule ← parentNamed "rule".toList anc
    pure (σ.updRule ((rule.lookup "id".toList).getD []) fun d => { d with tags := d.tags ++ [Xml.textsOf cs] })
  else if name = "value".toList && within "values" "rule" then do
    -- `rule_value`, lines 118-122
    let rule ← parentNamed "rule".toList anc
    pure (σ.updRule ((rule.lookup "id".toList).getD []) fun d => { d with values := assign d.values ((atts.lookup "name".toList).getD [], Xml.textsOf cs) })
  else some σ

mutual
/-- `parsefile`, /repo/utils/pdb2adb:161: the handlers are called at the ends of the elements -/
def readXml (withExamples : Bool) (anc : Ancestors) : Xml → PdbData → Option PdbData
  | .text _, σ => some σ
  | .elem n a cs, σ => do
    let σ ← readXmls withExamples ((n, a) :: anc) cs σ
    handle withExamples anc n a cs σ
/-- `readXml` for the children of an element -/
def readXmls (withExamples : Bool) (anc : Ancestors) : List Xml → PdbData → Option PdbData
  | [], σ => some σ
  | x :: xs, σ => do
    let σ ← readXml withExamples anc x σ
    readXmls withExamples anc xs σ
end

/-- the rules as the main program uses them -/
def PdbData.toRules (σ : PdbData) : List PdbRule :=
  σ.rules.map fun r => ⟨r.1, r.2.ruleset, r.2.patterns, r.2.examples, if r.2.values.isEmpty then none else some r.2.values,
    if r.2.tags.isEmpty then none else some r.2.tags⟩

/-- `$ruleset{$ruleset}->{patterns}` -/
def PdbData.programs (σ : PdbData) (ruleset : Str) : List Str := (σ.rulesets.lookup ruleset).getD []

/-- The options, /repo/utils/pdb2adb:14-20 -/
structure Options where
  actions : Bool
  patterns : Bool
  examples : Bool
  program : Bool

/-- What the script does: it dies, it stops with exit code 2, it prints nothing or a document. -/
inductive Outcome where
  | dies
  | exit2
  | nothing
  | prints (document : Val)

/-- The main program, /repo/utils/pdb2adb:158-230.  `shuffle` is the order in which `each` gives the rules.  Asking for the number of patterns of a rule
(line 204) is an exception if the rule has test messages and its list of patterns is not defined. -/
def script (opts : Options) (fresh : Nat → Str) (order : List (Val × Val) → List (Val × Val)) (shuffle : List PdbRule → List PdbRule) (xml : Xml) : Outcome :=
  match readXml opts.examples [] xml ⟨[], []⟩ with
  | none => .dies
  | some σ =>
    if opts.actions then .exit2
    else if opts.patterns then
      if σ.toRules.any (fun r => !(σ.programs r.ruleset).isEmpty && !r.examples.isEmpty && r.patterns.isEmpty) then .dies
      else .prints (document ⟨opts.program, σ.programs, fresh, order⟩ (shuffle σ.toRules))
    else .nothing

end Verif.Perl
