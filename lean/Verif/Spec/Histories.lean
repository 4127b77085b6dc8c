import Verif.Model.Boxed
/-! Which patterns each matcher of a program holds. -/
namespace Verif.Spec
open Verif

/-- For each matcher its kind and the patterns added to it (and, for a clone, to the original before), in order; `none` for dropped ones. -/
abbrev Holdings := List (Option (Kind × List Pattern))

/-- What the matchers hold after one more call. -/
def after (h : Holdings) : MatcherCall → Holdings
  | .create kind => h ++ [some (kind, [])]
  | .add i p =>
    match h[i]? with
    | some (some (kind, ps)) => h.set i (some (kind, ps ++ [p]))
    | _ => h
  | .parse _ _ => h
  | .clone i =>
    match h[i]? with
    | some (some x) => h ++ [some x]
    | _ => h
  | .drop i => h.set i none

/-- What the matchers of a program hold after these calls. -/
def held (calls : List MatcherCall) : Holdings := calls.foldl after []

/-- The answer of a new matcher of this kind with exactly these patterns and no history. -/
def freshAnswer (sip : Bytes → UInt64) (kind : Kind) (ps : List Pattern) (text : Bytes) : M (Option MatchResult) :=
  match kind with
  | .trie => SuffixTree.build sip ps >>= fun t => t.parse text
  | .suffixArray => SuffixTable.build sip ps >>= fun t => t.parse text

/-- Adding the patterns to a new matcher of this kind panics. -/
def FreshPanics (sip : Bytes → UInt64) (kind : Kind) (ps : List Pattern) (e : Panic) : Prop :=
  match kind with
  | .trie => SuffixTree.build sip ps = .error e
  | .suffixArray => SuffixTable.build sip ps = .error e

/-- The call panics in a program whose matchers hold `h` because a new matcher with the same patterns would. -/
inductive CallPanics (sip : Bytes → UInt64) (h : Holdings) : MatcherCall → Panic → Prop
  | add (i : Nat) (p : Pattern) (kind : Kind) (ps : List Pattern) (e : Panic) : h[i]? = some (some (kind, ps)) → FreshPanics sip kind (ps ++ [p]) e →
      CallPanics sip h (.add i p) e
  | parse (i : Nat) (text : Bytes) (kind : Kind) (ps : List Pattern) (e : Panic) : h[i]? = some (some (kind, ps)) →
      freshAnswer sip kind ps text = .error e → CallPanics sip h (.parse i text) e

end Verif.Spec
