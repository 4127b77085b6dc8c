import Verif.Spec.Family
/-! Which of the added patterns a trie keeps. -/
namespace Verif.Spec

/-- The pattern begins with the literal `l` and goes on. -/
def GoesOn (p : Pattern) (l : Bytes) : Prop := ∃ rest, rest ≠ [] ∧ p.pattern = .literal l :: rest

/-- No two patterns of the list that go on after their first literal begin with the same literal. -/
def DistinctHeads (ps : List Pattern) : Prop := ps.Pairwise fun p q => ∀ l, GoesOn p l → ¬ GoesOn q l

/-- Some pattern of the list begins with a literal that is longer than `l` and begins with it. -/
def LongerLed (ps : List Pattern) (l : Bytes) : Prop := ∃ l', Leading ps l' ∧ l <+: l' ∧ l' ≠ l

/-- `p` goes on after its first literal and was added when a longer literal that begins with this one had already been added. -/
def Late (ps : List Pattern) (p : Pattern) : Prop := ∃ A B l, ps = A ++ p :: B ∧ GoesOn p l ∧ LongerLed A l

/-- The text follows no leading literal that goes on after `l` further than to the end of `l`. -/
def LeavesAt (ps : List Pattern) (l text : Bytes) : Prop := ∀ l', Leading ps l' → l <+: l' → ∀ c, c <+: l' → c <+: text → c.length ≤ l.length

/-- `p` begins with the literal `l`, and no later pattern of its kind does: the kinds are the literal alone and the literal with more tokens. -/
def LastOfKind (ps : List Pattern) (l : Bytes) (p : Pattern) : Prop :=
  ∃ A B rest, ps = A ++ p :: B ∧ p.pattern = .literal l :: rest ∧ ∀ q ∈ B, ∀ rest', q.pattern = .literal l :: rest' → (rest' = [] ↔ rest ≠ [])

end Verif.Spec
