import Verif.Model.PdbWarn
import Verif.Spec.PatternDbXml
/-! What the messages of the script /repo/utils/pdb2adb should say about what it leaves out. -/
namespace Verif.Spec
open Perl

/-- `part` stands in the pattern behind a `@` and reaches to the next `@` or to the end. -/
def BehindAt (src part : List Char) : Prop :=
  '@' ∉ part ∧ ∃ a b, src = a ++ '@' :: (part ++ b) ∧ (b = [] ∨ ∃ c, b = '@' :: c)

/-- The script writes nothing for the pattern: a rule with this pattern alone adds no pattern to the document, although its ruleset has a program. -/
def LeftOut (src : List Char) : Prop :=
  ∀ (env : Env) (rule : PdbRule) (c : Counters), env.programs rule.ruleset ≠ [] → (ruleLoop env [{ rule with patterns := [src] }] c).1 = []

/-- The patterns that the script leaves out without a word. -/
def silent : List (List Char) := ["".toList, "@".toList, "0".toList, "0@".toList]

/-- The rule belongs to a ruleset with a program. -/
def HasProgram (env : Env) (r : PdbRule) : Prop := env.programs r.ruleset ≠ []

/-- `x` is the last rule with its id. -/
def LastWithId (db : PatternDb) (x : List Char × DbRule) : Prop := ∃ A B, db.allRules = A ++ x :: B ∧ ∀ y ∈ B, y.2.id ≠ x.2.id

/-- The script has only something similar for the parser: a set of characters instead of a number with a point or a string with more characters, or `GREEDY`
instead of an address. -/
def Inexact (type : List Char) (args : List (List Char)) : Prop :=
  type ∈ ["FLOAT".toList, "DOUBLE".toList, "IPvANY".toList, "MACADDR".toList, "IPv4".toList, "LLADDR".toList] ∨
  (type = "STRING".toList ∧ ∃ key more, args = [key, more] ∧ more ≠ [] ∧ more ≠ ['0'])

/-- The message says so about the type. -/
def SaysInexact (type : List Char) (w : Warning) : Prop := w = .asGreedy type ∨ ∃ opt, w = .partly type opt

end Verif.Spec
