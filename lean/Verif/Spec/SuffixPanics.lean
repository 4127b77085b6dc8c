import Verif.Spec.SuffixAnswer
/-! When the suffix-array matcher panics, described without a suffix array. -/
namespace Verif.Spec

/-- Matching the tokens from left to right (loosely: literals may be cut short) runs into trouble: the value of a parser ends inside a
character. -/
inductive LooseTrouble : List Token → Bytes → Prop
  | cut (a : Parser) (toks : List Token) (v x : Bytes) : ParserMatch a x v → ¬ Utf8 v → LooseTrouble (.parser a :: toks) x
  | literal (l c y : Bytes) (toks : List Token) :
      toks ≠ [] → LongestCommonPrefix l (c ++ y) c → y ≠ [] → LooseTrouble toks y → LooseTrouble (.literal l :: toks) (c ++ y)
  | parser (a : Parser) (toks : List Token) (v y : Bytes) :
      ParserMatch a (v ++ y) v → LooseTrouble toks y → LooseTrouble (.parser a :: toks) (v ++ y)

/-- Trying the patterns in turn, one of them runs into trouble before any has matched. -/
def FirstLooseTrouble (ps : List Pattern) (x : Bytes) : Prop :=
  ∃ A p B, ps = A ++ p :: B ∧ (∀ a ∈ A, ¬LooseTrouble a.pattern x ∧ ¬∃ caps, LooseMatches a.pattern x caps) ∧ LooseTrouble p.pattern x

/-- Asking the suffix array for the text `x` runs into trouble: one of the patterns that are asked (see `SuffixAnswer`) does. -/
def SuffixTrouble (ps : List Pattern) (x : Bytes) : Prop :=
  ((∀ l, ¬ Leads ps l) ∧ FirstLooseTrouble (Table.of ps).parserLed x) ∨
  ∃ l, Chosen ps x l ∧ ¬ x <+: l ∧
    ∃ p, LastWith ps (fun toks => ∃ rest, rest ≠ [] ∧ toks = .literal l :: rest) p ∧ LooseTrouble p.pattern x

end Verif.Spec
