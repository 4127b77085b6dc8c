import Verif.Spec.Table
/-! The answers of the suffix-array matcher, described in terms of the history of additions. -/
namespace Verif.Spec

/-- Some pattern of the history begins with the literal `l`. -/
def Leads (ps : List Pattern) (l : Bytes) : Prop := ∃ p ∈ ps, p.pattern.head? = some (.literal l)

/-- The lexicographic order of the bytes. -/
def Before (a b : Bytes) : Prop := List.Lex (fun x y : UInt8 => x.toNat < y.toNat) a b

/-- `l` has at least as much in common with the beginning of `x` as `l'` has. -/
def Nearer (x l l' : Bytes) : Prop := ∀ c c', LongestCommonPrefix l x c → LongestCommonPrefix l' x c' → c'.length ≤ c.length

/-- `l` is the leading literal that the suffix array goes on with for the text `x`: `x` itself if it is a leading literal, and otherwise the one
that has the longest common prefix with `x`.  If there are several, it is the last one (in lexicographic order) of those before `x`, and if there
are none before `x` the first one of those after `x`. -/
def Chosen (ps : List Pattern) (x l : Bytes) : Prop :=
  Leads ps l ∧ (l = x ∨ (¬ Leads ps x ∧ ∀ l', Leads ps l' → l' ≠ l →
    Nearer x l l' ∧ (Nearer x l' l → (Before l x → Before l' l ∨ Before x l') ∧ (Before x l → Before l l'))))

/-- `p` is the last pattern of the history whose tokens have the property. -/
def LastWith (ps : List Pattern) (P : List Token → Prop) (p : Pattern) : Prop :=
  ∃ A B, ps = A ++ p :: B ∧ P p.pattern ∧ ∀ q ∈ B, ¬ P q.pattern

/-- The answer of the first pattern of the list that loosely matches. -/
def FirstLoose (ps : List Pattern) (x : Bytes) (r : Option MatchResult) : Prop :=
  (∀ A p B caps, ps = A ++ p :: B → (∀ a ∈ A, ¬∃ caps, LooseMatches a.pattern x caps) → LooseMatches p.pattern x caps →
    ∃ res, r = some res ∧ IsResult res p caps) ∧
  ((∀ p ∈ ps, ¬∃ caps, LooseMatches p.pattern x caps) → r = none)

/-- `r` is the suffix array's answer for the text `x`.  If no pattern begins with a literal, the patterns that begin with a parser are asked in
the order of the table.  Otherwise only the chosen literal `l` counts: if `x` is a beginning of `l`, the last pattern that consists of `l` alone
is the answer; and if not, the last pattern that continues after `l` is asked (loosely: its literals may be cut short). -/
def SuffixAnswer (ps : List Pattern) (x : Bytes) (r : Option MatchResult) : Prop :=
  ((∀ l, ¬ Leads ps l) → FirstLoose (Table.of ps).parserLed x r) ∧
  ∀ l, Chosen ps x l →
    (x <+: l →
      (∀ p, LastWith ps (· = [.literal l]) p → r = some { pattern := { p with pattern := [] }, values := [] }) ∧
      ((∀ p ∈ ps, p.pattern ≠ [.literal l]) → r = none)) ∧
    (¬ x <+: l →
      (∀ p, LastWith ps (fun toks => ∃ rest, rest ≠ [] ∧ toks = .literal l :: rest) p → FirstLoose [p] x r) ∧
      ((∀ p ∈ ps, ∀ rest, rest ≠ [] → p.pattern ≠ .literal l :: rest) → r = none))

end Verif.Spec
