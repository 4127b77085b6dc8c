import Verif.Model.PdbXml
/-! Model of what the Perl script /repo/utils/pdb2adb writes with `warn`.  The warnings of Perl itself (`use warnings`, for example about undefined values)
are not modelled.  The functions follow those of Pdb2adb.lean, which give the results. -/
namespace Verif.Perl

/-- The messages of `warn`, with what they contain. -/
inductive Warning where
  /-- line 180: the ruleset of the rule has several programs -/
  | manyPrograms (id : Str)
  /-- line 184: the ruleset of the rule has no program -/
  | noProgram (id : Str)
  /-- line 194: a value of the rule contains a macro -/
  | macroValue (id key value : Str)
  /-- line 205: the rule has several patterns and test messages -/
  | manyPatterns (id : Str)
  /-- line 267: a part of a pattern is not supported -/
  | unsupported (part : Str)
  /-- lines 321 and 331: a type of parser is not supported -/
  | unsupportedParser (type : Str)
  /-- lines 311 and 316: a type of parser is supported by a set -/
  | partly (type opt : Str)
  /-- line 328: a type of parser is converted to `GREEDY` -/
  | asGreedy (type : Str)
  /-- line 164: the option `actions` is not supported -/
  | actions
  deriving DecidableEq, Repr

/-- the warnings of `_validate_pattern`, /repo/utils/pdb2adb:284-335 -/
def validateWarnings (arg : Str) : List Warning :=
  let fs := if arg.isEmpty then [] else fields false ':' arg
  let type := fs[0]?.getD []
  let opt := fs[2]?.getD []
  let type := if truthy type then type else []
  if isWord [] type then []
  else if isWord "ESTRING".toList type then []
  else if contains "QSTRING".toList type then []
  else if isWord "NUMBER".toList type then []
  else if isWord "HOSTNAME".toList type then []
  else if startsWith "FLOAT".toList type || endsWith "DOUBLE".toList type then [.partly type []]
  else if isWord "STRING".toList type then if truthy opt then [.partly type opt] else []
  else if isWord "PCRE".toList type then [.unsupportedParser type]
  else if isWord "ANYSTRING".toList type then []
  else if isWord "SET".toList type then []
  else if startsWith "IPvANY".toList type || startsWith "MACADDR".toList type || startsWith "IPv4".toList type || startsWith "LLADDR".toList type then
    [.asGreedy type]
  else [.unsupportedParser type]

/-- the warnings of the loop of `_p2p`, /repo/utils/pdb2adb:251-276; `_validate_pattern` is called again if it was successful -/
def p2pLoopWarnings : List Str → (isPattern : Bool) → List Warning
  | [], _ => []
  | p :: rest, isPattern =>
    if p = ['@'] then p2pLoopWarnings rest (!isPattern)
    else if isPattern then
      match validatePattern p with
      | some s => if truthy s then validateWarnings p ++ validateWarnings p ++ p2pLoopWarnings rest isPattern else validateWarnings p ++ [.unsupported p]
      | none => validateWarnings p ++ [.unsupported p]
    else p2pLoopWarnings rest isPattern

/-- the warnings of `_p2p`, /repo/utils/pdb2adb:248-277 -/
def p2pWarnings (pattern : Str) : List Warning :=
  p2pLoopWarnings (if pattern.isEmpty then [] else dropTrailingEmpty (fields true '@' pattern)) false

/-- the warnings for a rule, /repo/utils/pdb2adb:170-225; `_p2p` is called twice for each pattern -/
def ruleWarnings (env : Env) (rule : PdbRule) : List Warning :=
  (if (env.programs rule.ruleset).length > 1 then [.manyPrograms rule.id] else []) ++
  match (env.programs rule.ruleset)[0]? with
  | none => [.noProgram rule.id]
  | some _ =>
    ((rule.values.getD []).filter fun v => contains "$(".toList v.2).map (fun v => .macroValue rule.id v.1 v.2) ++
    (if rule.examples.length > 0 && rule.patterns.length > 1 then [.manyPatterns rule.id] else []) ++
    rule.patterns.flatMap fun p => p2pWarnings p ++ p2pWarnings p

/-- the warnings of the loop over the rules -/
def warnings (env : Env) (rules : List PdbRule) : List Warning := rules.flatMap (ruleWarnings env)

/-- the warnings of the main program, /repo/utils/pdb2adb:158-230, if it does not end with an exception (simplification) -/
def scriptWarnings (opts : Options) (fresh : Nat → Str) (order : List (Val × Val) → List (Val × Val)) (shuffle : List PdbRule → List PdbRule) (xml : Xml) :
    List Warning :=
  match readXml opts.examples [] xml ⟨[], []⟩ with
  | none => []
  | some σ =>
    if opts.actions then [.actions]
    else if opts.patterns then warnings ⟨opts.program, σ.programs, fresh, order⟩ (shuffle σ.toRules)
    else []

end Verif.Perl
