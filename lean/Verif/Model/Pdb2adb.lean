import Verif.Spec.Strings
import Verif.Model.Deser
/-! Model of the pattern conversion of the Perl script /repo/utils/pdb2adb (`_p2p`, `_unescape_pattern`, `_validate_pattern`) and of the
loop that writes the document.

Perl strings are lists of characters.  A function that returns `undef` (or the empty list) returns `none` here.  `undef` and `""` are the same wherever the
code interpolates, measures or cuts a string.  The output of `warn` is modelled in PdbWarn.lean. -/
namespace Verif.Perl

/-- A Perl string. -/
abbrev Str := List Char

/-- The fields of a string between single-character separators; the separators themselves are fields if `keep` (a capturing group in the regular
expression of `split`). -/
def fields (keep : Bool) (sep : Char) : Str → List Str
  | [] => [[]]
  | c :: cs =>
    if c = sep then [] :: (if keep then [sep] :: fields keep sep cs else fields keep sep cs)
    else match fields keep sep cs with
      | f :: fs => (c :: f) :: fs
      | [] => [[c]]

/-- `split` removes empty fields at the end if no limit is given. -/
def dropTrailingEmpty (fs : List Str) : List Str := (fs.reverse.dropWhile List.isEmpty).reverse

/-- A string counts as true unless it is empty or `0`. -/
def truthy (s : Str) : Bool := s ≠ [] && s ≠ ['0']

/-- `$` matches at the end of a string or before a line feed at its end: `/^w$/` -/
def isWord (w s : Str) : Bool := s = w || s = w ++ ['\n']
/-- `/^w/` -/
def startsWith (w s : Str) : Bool := w.isPrefixOf s
/-- `/w$/` -/
def endsWith (w s : Str) : Bool := w.isSuffixOf s || (w ++ ['\n']).isSuffixOf s
/-- `/w/` -/
def contains (w : Str) : Str → Bool
  | [] => w.isEmpty
  | c :: cs => w.isPrefixOf (c :: cs) || contains w cs

/-- `s/@@/@/g` -/
def replaceAts : Str → Str
  | '@' :: '@' :: s => '@' :: replaceAts s
  | c :: s => c :: replaceAts s
  | [] => []

/-- `_unescape_pattern`, /repo/utils/pdb2adb:279-282 -/
def unescapePattern (s : Str) : Str := replaceAts s

/-- the letters and digits of /repo/utils/pdb2adb:307,315,319 -/
def alnum : Str := "AZERTYUIOPQSDFGHJKLMWXCVBNazertyuiopqsdfghjklmwxcvbn1234567890".toList

/-- `_validate_pattern`, /repo/utils/pdb2adb:284-335.  `split` with a list of three variables on the left stops after four fields, so empty fields at the end
are kept. -/
def validatePattern (arg : Str) : Option Str :=
  let fs := if arg.isEmpty then [] else fields false ':' arg
  let type := fs[0]?.getD []
  let key := fs[1]?.getD []
  let opt := fs[2]?.getD []
  let key := if truthy key then key else "pdb2adb2ignore".toList
  let type := if truthy type then type else []
  if isWord [] type then some []
  else if isWord "ESTRING".toList type then
    let opt := if "::".toList.isSuffixOf arg then ":".toList else opt
    some ("%{GREEDY:".toList ++ key ++ "}".toList ++ opt)
  else if contains "QSTRING".toList type then
    let a := opt.take 1
    let b := if opt.length > 1 then (opt.drop 1).take 1 else a
    some (a ++ "%{GREEDY:".toList ++ key ++ "}".toList ++ b)
  else if isWord "NUMBER".toList type then some ("%{INT:".toList ++ key ++ "}".toList)
  else if isWord "HOSTNAME".toList type then some ("%{SET(\"".toList ++ alnum ++ "-.\"):".toList ++ key ++ "}".toList)
  else if startsWith "FLOAT".toList type || endsWith "DOUBLE".toList type then some ("%{SET(\"1234567890.\"):".toList ++ key ++ "}".toList)
  else if isWord "STRING".toList type then
    if truthy opt then some ("%{SET(\"".toList ++ alnum ++ opt ++ "\"):".toList ++ key ++ "}".toList)
    else some ("%{SET(\"".toList ++ alnum ++ "\"):".toList ++ key ++ "}".toList)
  else if isWord "PCRE".toList type then none
  else if isWord "ANYSTRING".toList type then some ("%{GREEDY:".toList ++ key ++ "}".toList)
  else if isWord "SET".toList type then some ("%{SET(\"".toList ++ opt ++ "\"):".toList ++ key ++ "}".toList)
  else if startsWith "IPvANY".toList type || startsWith "MACADDR".toList type || startsWith "IPv4".toList type || startsWith "LLADDR".toList type then
    some ("%{GREEDY:".toList ++ key ++ "}".toList)
  else none

/-- the loop of `_p2p`, /repo/utils/pdb2adb:251-276; `out` is `join("", @out)` -/
def p2pLoop : List Str → (isPattern : Bool) → (out : Str) → Option Str
  | [], _, out => some out
  | p :: rest, isPattern, out =>
    if p = ['@'] then p2pLoop rest (!isPattern) out
    else if isPattern then
      match validatePattern p with
      | some s => if truthy s then p2pLoop rest isPattern (out ++ s) else none
      | none => none
    else p2pLoop rest isPattern (out ++ unescapePattern p)

/-- `_p2p`, /repo/utils/pdb2adb:248-277; `split` of the empty string has no fields -/
def p2p (pattern : Str) : Option Str :=
  p2pLoop (if pattern.isEmpty then [] else dropTrailingEmpty (fields true '@' pattern)) false []

/-- An example of a rule as `example` stores it, /repo/utils/pdb2adb:89-108; there is no `test_values` if the XML has none -/
structure PdbExample where
  program : Str
  message : Str
  values : Option (List (Str × Str))

/-- A rule as the XML handlers store it, /repo/utils/pdb2adb:68-122.  (Simplification: a rule without patterns or examples has empty lists.) -/
structure PdbRule where
  id : Str
  ruleset : Str
  patterns : List Str
  examples : List PdbExample
  values : Option (List (Str × Str))
  tags : Option (List Str)

/-- What the conversion depends on besides the rules. -/
structure Env where
  /-- the option `program` -/
  withProgram : Bool
  /-- the programs of a ruleset, `$ruleset{$ruleset}->{patterns}` -/
  programs : Str → List Str
  /-- the results of `$ug->create()`, as strings -/
  fresh : Nat → Str
  /-- the order in which the entries of a hash are written (simplification: the same for hashes with the same entries) -/
  order : List (Val × Val) → List (Val × Val)

/-- a string in the document; `JSON::MaybeXS` with `utf8` -/
def strVal (s : Str) : Val := .str (Spec.encode s)

/-- a hash in the document -/
def hashVal (env : Env) (l : List (Str × Val)) : Val := .obj (env.order (l.map fun e => (strVal e.1, e.2)))

/-- `_test_messages`, /repo/utils/pdb2adb:232-246; an undefined value is written `null` -/
def testMessages (env : Env) (examples : List PdbExample) : List Val :=
  examples.map fun e =>
    hashVal env [("message".toList, strVal ((if env.withProgram then e.program ++ ": ".toList else []) ++ e.message)),
      ("values".toList, match e.values with
        | some vs => hashVal env (vs.map fun v => (v.1, strVal v.2))
        | none => .null)]

/-- the values without macros and the tags of a rule, /repo/utils/pdb2adb:186-203: `%extra_values` and `%extra_tags` -/
def extras (env : Env) (rule : PdbRule) : List (Str × Val) :=
  (match rule.values with
    | some vs =>
      match vs.filter fun v => !contains "$(".toList v.2 with
      | [] => []
      | vs => [("values".toList, hashVal env (vs.map fun v => (v.1, strVal v.2)))]
    | none => []) ++
  match rule.tags with
    | some ts => [("tags".toList, .arr (ts.map strVal))]
    | none => []

/-- The state of the loops: the value of `$p_id` (the number of patterns written so far) and the number of uuids made so far. -/
structure Counters where
  written : Nat
  uuids : Nat

/-- the loop over the patterns of a rule, /repo/utils/pdb2adb:208-224 -/
def patternLoop (env : Env) (rule : PdbRule) (program : Str) : List Str → (uuid : Str) → Counters → List Val × Counters
  | [], _, c => ([], c)
  | pattern :: rest, uuid, c =>
    match p2p pattern with
    | some s =>
      if truthy s then
        let v := hashVal env ([("uuid".toList, strVal uuid),
          ("pattern".toList, strVal ((if env.withProgram then program ++ ": ".toList else []) ++ s)),
          ("name".toList, strVal (rule.ruleset ++ "_".toList ++ (toString c.written).toList)),
          ("test_messages".toList, .arr (testMessages env rule.examples))] ++ extras env rule)
        let (vs, c) := patternLoop env rule program rest (env.fresh c.uuids) ⟨c.written + 1, c.uuids + 1⟩
        (v :: vs, c)
      else patternLoop env rule program rest (env.fresh c.uuids) ⟨c.written, c.uuids + 1⟩
    | none => patternLoop env rule program rest (env.fresh c.uuids) ⟨c.written, c.uuids + 1⟩

/-- the loop over the rules, /repo/utils/pdb2adb:170-225; `each` gives the rules in some order -/
def ruleLoop (env : Env) : List PdbRule → Counters → List Val × Counters
  | [], c => ([], c)
  | rule :: rest, c =>
    match (env.programs rule.ruleset)[0]? with
    | none => ruleLoop env rest c
    | some program =>
      let (vs, c) := patternLoop env rule program rule.patterns rule.id c
      let (ws, c) := ruleLoop env rest c
      (vs ++ ws, c)

/-- the document written, /repo/utils/pdb2adb:167-230 -/
def document (env : Env) (rules : List PdbRule) : Val := hashVal env [("patterns".toList, .arr (ruleLoop env rules ⟨0, 0⟩).1)]

end Verif.Perl
