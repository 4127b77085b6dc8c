import Verif.Spec.Matching
/-! Writing the values of an answer back into a pattern. -/
namespace Verif.Spec

/-- `Filled values toks x`: `x` is the text of the pattern with the value stored under its name in the place of each parser. -/
inductive Filled (values : BMap) : List Token → Bytes → Prop
  | nil : Filled values [] []
  | literal (l : Bytes) (toks : List Token) (x : Bytes) : Filled values toks x → Filled values (.literal l :: toks) (l ++ x)
  | parser (a : Parser) (toks : List Token) (k v x : Bytes) :
      nameOf a = some k → (k, v) ∈ values → Filled values toks x → Filled values (.parser a :: toks) (v ++ x)

/-- The names of the parsers of a pattern from left to right, `none` for a parser without a name. -/
def parserNames : List Token → List (Option Bytes)
  | [] => []
  | .literal _ :: toks => parserNames toks
  | .parser a :: toks => nameOf a :: parserNames toks

/-- All parsers of the pattern have names, and no two have the same one. -/
def DistinctlyNamed (p : Pattern) : Prop := none ∉ parserNames p.pattern ∧ (parserNames p.pattern).Nodup

instance (p : Pattern) : Decidable (DistinctlyNamed p) := by unfold DistinctlyNamed; infer_instance

/-- The uuid tells which tokens a pattern of the list has. -/
def UuidsTell (ps : List Pattern) : Prop := ∀ p ∈ ps, ∀ q ∈ ps, p.uuid = q.uuid → p.pattern = q.pattern

instance (ps : List Pattern) : Decidable (UuidsTell ps) := by unfold UuidsTell; infer_instance

end Verif.Spec
