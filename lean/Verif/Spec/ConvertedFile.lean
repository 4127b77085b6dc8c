import Verif.Spec.PatternDb
import Verif.Model.Pdb2adb
/-! What the file written by the script /repo/utils/pdb2adb should contain.  The rules and their examples are the input of the script. -/
namespace Verif.Spec
open Perl

/-- The libraries read strings, lists and objects as such. -/
structure Faithful (d : Deps) : Prop where
  string : ∀ s : List Char, d.string (.str (encode s)) = .ok (encode s)
  seq : ∀ l, d.seq (.arr l) = .ok l
  entries : ∀ l, d.entries (.obj l) = .ok l

/-- What a pattern of the patterndb stands for, with some text in front of it, or `none` if actiondb has nothing for it. -/
inductive PdbReading (front : List PdbPiece) : List Char → Option (List Elem) → Prop
  | converted (ps : List PdbPiece) (es es' : List Elem) : PdbPattern ps es → es ≠ [] → es ≠ [.literal b!"0"] → CleanLiterals es →
      PdbPattern (front ++ ps) es' → CleanLiterals es' → PdbReading front (pdbSource ps) (some es')
  | unsupported (pre : List PdbPiece) (type : List Char) (args : List (List Char)) (rest : List Char) : (∀ p ∈ pre, p.Plain) → PdbUnsupported type →
      (∀ a ∈ args, '@' ∉ a ∧ ':' ∉ a) → PdbReading front (pdbSource pre ++ (PdbPiece.parser type args).source ++ rest) none
  | escaped (pre : List PdbPiece) (rest : List Char) : (∀ p ∈ pre, p.Plain) → PdbReading front (pdbSource pre ++ "@@".toList ++ rest) none
  /-- these count as false in Perl -/
  | falsy (src : List Char) : src = [] ∨ src = ['0'] → PdbReading front src none

/-- The text in front of every pattern of a rule. -/
def frontOf (env : Env) (program : List Char) : List PdbPiece := if env.withProgram then [.text (program ++ ": ".toList)] else []

/-- The patterns of all rules whose ruleset has a program: the rule, the program, the position in the rule, the pattern. -/
def sources (env : Env) (rules : List PdbRule) : List (PdbRule × List Char × Nat × List Char) :=
  rules.flatMap fun r =>
    match (env.programs r.ruleset).head? with
    | none => []
    | some prog => r.patterns.zipIdx.map fun x => (r, prog, x.2, x.1)

/-- A pattern that should be in the file. -/
structure Expected where
  rule : PdbRule
  /-- the text of the uuid -/
  uuid : List Char
  elems : List Elem

/-- The first pattern of a rule gets the id of the rule, all others get new ones.  `g` is the number of patterns before these. -/
def expectedFrom (env : Env) (read : List Char → List Char → Option (List Elem)) (items : List (PdbRule × List Char × Nat × List Char)) (g : Nat) : List Expected :=
  (items.zipIdx g).filterMap fun x =>
    (read x.1.2.1 x.1.2.2.2).map fun es => ⟨x.1.1, if x.1.2.2.1 = 0 then x.1.1.id else env.fresh (x.2 - 1), es⟩

/-- The map has these entries. -/
def SameEntries (m : BMap) (kvs : List (List Char × List Char)) : Prop :=
  OrderedMap m ∧ ∀ k x, (k, x) ∈ m ↔ ∃ kv ∈ kvs, encode kv.1 = k ∧ encode kv.2 = x

/-- The values of a rule that contain no macro. -/
def plainValues (r : PdbRule) : List (List Char × List Char) := (r.values.getD []).filter fun v => decide (¬ "$(".toList <:+: v.2)

/-- The pattern `p` is what is expected as number `x.2` of the file. -/
def IsExpected (env : Env) (uuidOf : List Char → Nat) (x : Expected × Nat) (p : Pattern) : Prop :=
  p.uuid = uuidOf x.1.uuid ∧ p.pattern = meant x.1.elems ∧ p.name = some (encode (x.1.rule.ruleset ++ '_' :: (toString x.2).toList)) ∧
    p.tags = x.1.rule.tags.map (·.map encode) ∧
    (match plainValues x.1.rule with
      | [] => p.values = none
      | vs => ∃ m, p.values = some m ∧ SameEntries m vs) ∧
    ∃ ms, p.testMessages = some ms ∧ Each (fun e m => m.message = encode ((if env.withProgram then e.program ++ ": ".toList else []) ++ e.message) ∧
      m.tags = none ∧ ∃ vs, e.values = some vs ∧ SameEntries m.values vs) x.1.rule.examples ms

/-- The names of the values of a rule are different, and those of each example (they are keys of hashes). -/
def DistinctKeys (r : PdbRule) : Prop :=
  (∀ vs, r.values = some vs → (vs.map Prod.fst).Nodup) ∧ ∀ e ∈ r.examples, ∀ vs, e.values = some vs → (vs.map Prod.fst).Nodup

/-- The input of the script and its surroundings: hashes are written in any order; the libraries of the reader accept strings, lists and objects; the ids of the
rules and the new ids are uuids; every pattern has one of the readings above. -/
structure ScriptInput (env : Env) (d : Deps) (uuidOf : List Char → Nat) (read : List Char → List Char → Option (List Elem)) (rules : List PdbRule) : Prop where
  order : ∀ l, (env.order l).Perm l
  faithful : Faithful d
  fresh : ∀ n, d.uuid (strVal (env.fresh n)) = .ok (uuidOf (env.fresh n))
  ids : ∀ r ∈ rules, d.uuid (strVal r.id) = .ok (uuidOf r.id)
  keys : ∀ r ∈ rules, DistinctKeys r
  reading : ∀ x ∈ sources env rules, PdbReading (frontOf env x.2.1) x.2.2.2 (read x.2.1 x.2.2.2)

/-- Every example of a rule with a converted pattern has values. -/
def HaveValues (env : Env) (read : List Char → List Char → Option (List Elem)) (rules : List PdbRule) : Prop :=
  ∀ x ∈ sources env rules, read x.2.1 x.2.2.2 ≠ none → ∀ e ∈ x.1.examples, e.values ≠ none

/-- Ids are different: those of the rules, the new ones, and one kind from the other; different texts are different uuids. -/
structure DistinctIds (env : Env) (uuidOf : List Char → Nat) (rules : List PdbRule) : Prop where
  ids : (rules.map (·.id)).Nodup
  fresh : ∀ m n, env.fresh m = env.fresh n → m = n
  apart : ∀ r ∈ rules, ∀ m, env.fresh m ≠ r.id
  uuid : ∀ a b, uuidOf a = uuidOf b → a = b

end Verif.Spec
