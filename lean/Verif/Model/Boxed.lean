import Verif.Model.Clone
import Verif.Model.SuffixClone
/-! Model of programs that use several matchers: the trait `Matcher`, /repo/src/matcher/mod.rs:20-24, with its two implementations behind a `Box`. -/
namespace Verif

/-- The two matcher factories, /repo/src/matcher/trie/factory.rs:4-12 and /repo/src/matcher/suffix_array/mod.rs:13-21. -/
inductive Kind where
  | trie
  | suffixArray
  deriving DecidableEq, Repr

/-- `Box<Matcher>`, /repo/src/matcher/mod.rs:20-24: a matcher of one of the two kinds. -/
inductive Boxed where
  | trie (t : SuffixTree)
  | suffixArray (t : SuffixTable)

/-- `new_matcher`, /repo/src/matcher/trie/factory.rs:9-11 and /repo/src/matcher/suffix_array/mod.rs:18-20 -/
def Boxed.new : Kind → Boxed
  | .trie => .trie .new
  | .suffixArray => .suffixArray .new

/-- `Matcher::add_pattern`, /repo/src/matcher/trie/matcher.rs:11-13 and /repo/src/matcher/suffix_array/impls.rs:264-266 -/
def Boxed.addPattern (sip : Bytes → UInt64) (b : Boxed) (p : Pattern) : M Boxed :=
  match b with
  | .trie t => do pure (.trie (← t.addPattern sip p))
  | .suffixArray t => do pure (.suffixArray (← t.addPattern sip p))

/-- `Matcher::parse`, /repo/src/matcher/trie/matcher.rs:8-10 and /repo/src/matcher/suffix_array/impls.rs:249-263 -/
def Boxed.parse (b : Boxed) (text : Bytes) : M (Option MatchResult) :=
  match b with
  | .trie t => t.parse text
  | .suffixArray t => t.parse text

/-- `Matcher::boxed_clone`, /repo/src/matcher/trie/matcher.rs:14-16 and /repo/src/matcher/suffix_array/impls.rs:267-269 -/
def Boxed.boxedClone : Boxed → Boxed
  | .trie t => .trie t.clone
  | .suffixArray t => .suffixArray t.clone

/-- What a program does with its matchers, /repo/src/matcher/mod.rs:20-24 and /repo/src/matcher/factory.rs:3-6; the matchers are numbered in the order
in which they come into being. -/
inductive MatcherCall where
  | create (kind : Kind)
  | add (i : Nat) (pattern : Pattern)
  | parse (i : Nat) (text : Bytes)
  | clone (i : Nat)
  | drop (i : Nat)
  deriving DecidableEq, Repr

/-- One call, /repo/src/matcher/mod.rs:20-24, on the matchers `s` (`none` for dropped ones): the matchers afterwards and the answer of a `parse`.  `&mut
self` of `add_pattern` lets no two calls overlap that could disturb each other, so a concurrent program performs its calls in some order.  Calls on a
matcher that does not exist or was dropped, which the compiler rejects, have no effect. -/
def MatcherCall.step (sip : Bytes → UInt64) (s : List (Option Boxed)) : MatcherCall → M (List (Option Boxed) × Option (Option MatchResult))
  | .create kind => .ok (s ++ [some (Boxed.new kind)], none)
  | .add i p =>
    match s[i]? with
    | some (some b) => do
      let b' ← b.addPattern sip p
      pure (s.set i (some b'), none)
    | _ => .ok (s, none)
  | .parse i text =>
    match s[i]? with
    | some (some b) => do
      let a ← b.parse text
      pure (s, some a)
    | _ => .ok (s, none)
  | .clone i =>
    match s[i]? with
    | some (some b) => .ok (s ++ [some b.boxedClone], none)
    | _ => .ok (s, none)
  | .drop i => .ok (s.set i none, none)

/-- All calls of a program, one after the other: the matchers in the end and, for each call, its answer if it is a `parse`.
/repo/src/matcher/mod.rs:20-24 -/
def runCalls (sip : Bytes → UInt64) (s : List (Option Boxed)) : List MatcherCall → M (List (Option Boxed) × List (Option (Option MatchResult)))
  | [] => .ok (s, [])
  | c :: rest =>
    match c.step sip s with
    | .error e => .error e
    | .ok (s, a) =>
      match runCalls sip s rest with
      | .error e => .error e
      | .ok (s, as) => .ok (s, a :: as)

end Verif
