import Verif.Proofs.TrieMore
/-! The literal entries of a trie as a set, and the effect of an insertion on this set. -/
namespace Verif
open Spec

variable {P : Bytes → Prop}

/-- The parser children reached after the label of an entry. Nothing is ever reached after an entry with an empty label. -/
def parsersOf (n : LiteralNode) : List ParserNode :=
  if n.literal = [] then [] else match n.node with | none => [] | some c => c.parserChildren

/-- The entry with the text `x`, its pattern and the parsers tried after it. -/
inductive EntryAt : SuffixTree → Bytes → Option Pattern → List ParserNode → Prop
  | here (t : SuffixTree) (n : LiteralNode) (hn : n ∈ t.literalChildren) (hv : n.hasValue = true) :
      EntryAt t n.literal n.pattern (parsersOf n)
  | down (t : SuffixTree) (n : LiteralNode) (c : SuffixTree) (x : Bytes) (w : Option Pattern) (ps : List ParserNode)
      (hn : n ∈ t.literalChildren) (h0 : n.literal ≠ []) (hc : n.node = some c) (h : EntryAt c x w ps) :
      EntryAt t (n.literal ++ x) w ps

/-- The entries at and below a node. -/
def NEntry (n : LiteralNode) (x : Bytes) (w : Option Pattern) (ps : List ParserNode) : Prop :=
  (n.hasValue = true ∧ x = n.literal ∧ w = n.pattern ∧ ps = parsersOf n) ∨
  (n.literal ≠ [] ∧ ∃ c x', n.node = some c ∧ x = n.literal ++ x' ∧ EntryAt c x' w ps)

theorem entryAt_iff {t : SuffixTree} {x : Bytes} {w : Option Pattern} {ps : List ParserNode} :
    EntryAt t x w ps ↔ ∃ n ∈ t.literalChildren, NEntry n x w ps := by
  constructor
  · intro h
    cases h with
    | here _ n hn hv => exact ⟨n, hn, .inl ⟨hv, rfl, rfl, rfl⟩⟩
    | down _ n c x' _ _ hn h0 hc h => exact ⟨n, hn, .inr ⟨h0, c, x', hc, rfl, h⟩⟩
  · rintro ⟨n, hn, (⟨hv, rfl, rfl, rfl⟩ | ⟨h0, c, x', hc, rfl, h⟩)⟩
    · exact .here t n hn hv
    · exact .down t n c x' w ps hn h0 hc h

theorem nentry_rk {n : LiteralNode} {x : Bytes} {w : Option Pattern} {ps : List ParserNode} (h : NEntry n x w ps) :
    rk x = rk n.literal := by
  rcases h with ⟨_, rfl, _⟩ | ⟨h0, c, x', _, rfl, _⟩
  · rfl
  · exact (prefix_rk (List.prefix_append _ _) h0).symm

/-- The shape of reachable tries: inner nodes branch and have no parsers; an entry with a child has parsers in it and no empty label. -/
inductive TShape : SuffixTree → Prop
  | mk (t : SuffixTree)
    (inner : ∀ n ∈ t.literalChildren, n.hasValue = false → ∃ c, n.node = some c ∧ c.parserChildren = [] ∧
      ∃ m1 ∈ c.literalChildren, ∃ m2 ∈ c.literalChildren, rk m1.literal ≠ rk m2.literal)
    (entry : ∀ n ∈ t.literalChildren, n.hasValue = true → n.literal ≠ [] → ∀ c, n.node = some c →
      c.parserChildren ≠ [] ∧ ∀ m ∈ c.literalChildren, m.literal ≠ [])
    (child : ∀ n ∈ t.literalChildren, n.literal ≠ [] → ∀ c, n.node = some c → TShape c) : TShape t

namespace TShape
variable {t : SuffixTree} (h : TShape t)
include h
theorem inner : ∀ n ∈ t.literalChildren, n.hasValue = false → ∃ c, n.node = some c ∧ c.parserChildren = [] ∧
      ∃ m1 ∈ c.literalChildren, ∃ m2 ∈ c.literalChildren, rk m1.literal ≠ rk m2.literal := by cases h; assumption
theorem entry : ∀ n ∈ t.literalChildren, n.hasValue = true → n.literal ≠ [] → ∀ c, n.node = some c →
      c.parserChildren ≠ [] ∧ ∀ m ∈ c.literalChildren, m.literal ≠ [] := by cases h; assumption
theorem child : ∀ n ∈ t.literalChildren, n.literal ≠ [] → ∀ c, n.node = some c → TShape c := by cases h; assumption
end TShape

theorem tshape_new : TShape SuffixTree.new := .mk _ (by simp [SuffixTree.new]) (by simp [SuffixTree.new]) (by simp [SuffixTree.new])

/-- There is an entry at or below every literal node. -/
theorem nentry_exists {t : SuffixTree} (hs : TShape t) (hi : Inv P t) {n : LiteralNode} (hn : n ∈ t.literalChildren) :
    ∃ x w ps, NEntry n x w ps := by
  induction hs generalizing n with
  | mk t inner entry child ih =>
    cases hv : n.hasValue with
    | true => exact ⟨_, _, _, .inl ⟨hv, rfl, rfl, rfl⟩⟩
    | false =>
      obtain ⟨c, hc, _, m1, hm1, _⟩ := inner n hn hv
      have h0 := (hi.inner n hn hv).1
      obtain ⟨x, w, ps, h⟩ := ih n hn h0 c hc (hi.child n hn c hc) hm1
      exact ⟨_, w, ps, .inr ⟨h0, c, x, hc, rfl, entryAt_iff.mpr ⟨m1, hm1, h⟩⟩⟩

theorem tshape_replace {t : SuffixTree} {A B : List LiteralNode} {n' : LiteralNode} (h : TShape t)
    (hsub : ∀ m, m ∈ A ∨ m ∈ B → m ∈ t.literalChildren)
    (inner : n'.hasValue = false → ∃ c, n'.node = some c ∧ c.parserChildren = [] ∧
      ∃ m1 ∈ c.literalChildren, ∃ m2 ∈ c.literalChildren, rk m1.literal ≠ rk m2.literal)
    (entry : n'.hasValue = true → n'.literal ≠ [] → ∀ c, n'.node = some c →
      c.parserChildren ≠ [] ∧ ∀ m ∈ c.literalChildren, m.literal ≠ [])
    (child : n'.literal ≠ [] → ∀ c, n'.node = some c → TShape c) :
    TShape { t with literalChildren := A ++ n' :: B } := by
  refine .mk _ ?_ ?_ ?_
  · intro m hm
    simp at hm
    rcases hm with hm | rfl | hm
    · exact h.inner m (hsub m (.inl hm))
    · exact inner
    · exact h.inner m (hsub m (.inr hm))
  · intro m hm
    simp at hm
    rcases hm with hm | rfl | hm
    · exact h.entry m (hsub m (.inl hm))
    · exact entry
    · exact h.entry m (hsub m (.inr hm))
  · intro m hm
    simp at hm
    rcases hm with hm | rfl | hm
    · exact h.child m (hsub m (.inl hm))
    · exact child
    · exact h.child m (hsub m (.inr hm))

/-- The rest of a pattern after its leading literal is empty or starts with a parser. -/
def ParserNext (rest : List Token) : Prop := rest = [] ∨ ∃ a rest', rest = .parser a :: rest'

theorem single_parser {rest : List Token} (h : ParserNext rest) (hr : rest ≠ []) (q : Pattern) :
    (single rest q).literalChildren = [] ∧ (single rest q).parserChildren ≠ [] := by
  rcases h with rfl | ⟨a, rest', rfl⟩
  · exact absurd rfl hr
  · simp [single]

theorem updLit_cases (rest : List Token) (q : Pattern) (n : LiteralNode) :
    (rest = [] ∧ updLit rest q n = setPat q n) ∨ (rest ≠ [] ∧ updLit rest q n = setChild (single rest q) n) := by
  unfold updLit
  cases rest with
  | nil => exact .inl ⟨rfl, rfl⟩
  | cons a b => exact .inr ⟨by simp, rfl⟩

/-- What the update with a pattern's rest keeps about the shape. -/
theorem updLit_shape {rest : List Token} (hpn : ParserNext rest) (q : Pattern) {n : LiteralNode} {c : SuffixTree}
    (hc : (updLit rest q n).node = some c) :
    n.node = some c ∨ (c.parserChildren ≠ [] ∧ c.literalChildren = []) := by
  rcases updLit_cases rest q n with ⟨_, h⟩ | ⟨hr, h⟩
  · rw [h] at hc; exact .inl hc
  · rw [h] at hc
    simp [setChild] at hc
    obtain ⟨h1, h2⟩ := single_parser hpn hr q
    exact .inr ⟨by rw [← hc]; exact h2, by rw [← hc]; exact h1⟩

theorem tshape_nolits {c : SuffixTree} (h : c.literalChildren = []) : TShape c :=
  .mk _ (by simp [h]) (by simp [h]) (by simp [h])

/-- Insertion keeps the shape. -/
theorem ins_shape {rest : List Token} (hpn : ParserNext rest) {q : Pattern} {t t' : SuffixTree} {l : Bytes}
    (h : Ins (updLit rest q) t l t') (hi : Inv P t) (hs : TShape t) :
    TShape t' ∧ t'.parserChildren = t.parserChildren ∧
      (∀ m ∈ t.literalChildren, ∃ m' ∈ t'.literalChildren, rk m'.literal = rk m.literal) ∧
      (∀ m' ∈ t'.literalChildren, m'.literal = [] → l = [] ∨ ∃ m ∈ t.literalChildren, m.literal = []) := by
  have hg := goodUpd_updLit rest q
  induction h with
  | miss t l A B ht hA hB =>
    refine ⟨?_, rfl, ?_, ?_⟩
    · apply tshape_replace hs (by intro m hm; rw [ht]; simpa using hm)
      · rw [hg.hasValue]; simp [freshLit]
      · intro _ _ c hc
        rcases updLit_shape hpn q hc with h | ⟨h1, h2⟩
        · simp [freshLit] at h
        · exact ⟨h1, by simp [h2]⟩
      · intro _ c hc
        rcases updLit_shape hpn q hc with h | ⟨h1, h2⟩
        · simp [freshLit] at h
        · exact tshape_nolits h2
    · intro m hm
      rw [ht] at hm
      exact ⟨m, by simp at hm ⊢; rcases hm with hm | hm <;> simp [hm], rfl⟩
    · intro m hm h0
      simp at hm
      rcases hm with hm | rfl | hm
      · exact .inr ⟨m, by rw [ht]; simp [hm], h0⟩
      · rw [hg.literal] at h0; exact .inl h0
      · exact .inr ⟨m, by rw [ht]; simp [hm], h0⟩
  | exact t l A B n ht hl hv =>
    have hn : n ∈ t.literalChildren := by rw [ht]; simp
    refine ⟨?_, rfl, ?_, ?_⟩
    · apply tshape_replace hs (by intro m hm; rw [ht]; rcases hm with hm | hm <;> simp [hm])
      · rw [hg.hasValue, hv]; simp
      · intro _ h0 c hc
        rw [hg.literal] at h0
        rcases updLit_shape hpn q hc with h | ⟨h1, h2⟩
        · exact hs.entry n hn hv h0 c h
        · exact ⟨h1, by simp [h2]⟩
      · intro h0 c hc
        rw [hg.literal] at h0
        rcases updLit_shape hpn q hc with h | ⟨h1, h2⟩
        · exact hs.child n hn h0 c h
        · exact tshape_nolits h2
    · intro m hm
      rw [ht] at hm
      simp at hm
      rcases hm with hm | rfl | hm
      · exact ⟨m, by simp [hm], rfl⟩
      · exact ⟨updLit rest q m, by simp, by rw [hg.literal]⟩
      · exact ⟨m, by simp [hm], rfl⟩
    · intro m hm h0
      simp at hm
      rcases hm with hm | rfl | hm
      · exact .inr ⟨m, by rw [ht]; simp [hm], h0⟩
      · rw [hg.literal] at h0; exact .inr ⟨n, hn, h0⟩
      · exact .inr ⟨m, by rw [ht]; simp [hm], h0⟩
  | split t l A B n ht hr hsp hpos hrk =>
    have hn : n ∈ t.literalChildren := by rw [ht]; simp
    have hn0 : n.literal ≠ [] := split_ne_nil hr (split_ne hsp)
    refine ⟨?_, rfl, ?_, ?_⟩
    · apply tshape_replace hs (by intro m hm; rw [ht]; rcases hm with hm | hm <;> simp [hm])
      · intro _
        refine ⟨_, rfl, rfl, _, (splitChildren_mem _ _ _ _).mpr (.inl rfl), _, (splitChildren_mem _ _ _ _).mpr (.inr rfl), ?_⟩
        rw [hg.literal]
        exact fun h => hrk h.symm
      · intro h; simp [splitNode] at h
      · intro _ c hc
        simp [splitNode] at hc; subst hc
        refine .mk _ ?_ ?_ ?_
        · intro m hm hv
          rcases (splitChildren_mem _ _ _ _).mp hm with rfl | rfl
          · rw [hg.hasValue] at hv; simp [freshLit] at hv
          · exact hs.inner n hn hv
        · intro m hm hv h0 c hc
          rcases (splitChildren_mem _ _ _ _).mp hm with rfl | rfl
          · rcases updLit_shape hpn q hc with h | ⟨h1, h2⟩
            · simp [freshLit] at h
            · exact ⟨h1, by simp [h2]⟩
          · exact hs.entry n hn hv hn0 c hc
        · intro m hm h0 c hc
          rcases (splitChildren_mem _ _ _ _).mp hm with rfl | rfl
          · rcases updLit_shape hpn q hc with h | ⟨h1, h2⟩
            · simp [freshLit] at h
            · exact tshape_nolits h2
          · exact hs.child n hn hn0 c hc
    · intro m hm
      rw [ht] at hm
      simp at hm
      rcases hm with hm | rfl | hm
      · exact ⟨m, by simp [hm], rfl⟩
      · exact ⟨_, by simp; exact .inr (.inl rfl), by simp only [splitNode]; rw [rk_take hpos, hr]⟩
      · exact ⟨m, by simp [hm], rfl⟩
    · intro m hm h0
      simp at hm
      rcases hm with hm | rfl | hm
      · exact .inr ⟨m, by rw [ht]; simp [hm], h0⟩
      · have := congrArg rk h0
        simp only [splitNode] at this
        rw [rk_take hpos] at this
        exact .inl (rk_eq_nil.mp this)
      · exact .inr ⟨m, by rw [ht]; simp [hm], h0⟩
  | down t l A B n c c' ht hr hp hc hne _ ih =>
    have hn : n ∈ t.literalChildren := by rw [ht]; simp
    have hkeep : ∀ m ∈ A ++ n :: B, ∃ m' ∈ A ++ { n with node := some c' } :: B, m'.literal = m.literal := by
      intro m hm
      simp at hm
      rcases hm with hm | rfl | hm
      · exact ⟨m, by simp [hm], rfl⟩
      · exact ⟨{ m with node := some c' }, by simp, rfl⟩
      · exact ⟨m, by simp [hm], rfl⟩
    refine ⟨?_, rfl, ?_, ?_⟩
    · have hn0 : n.literal ≠ [] := by
        intro h0
        cases hv : n.hasValue with
        | true =>
          refine hne ⟨hv, ?_⟩
          rw [h0] at hr ⊢
          exact (rk_eq_nil.mp hr.symm).symm
        | false => exact (hi.inner n hn hv).1 h0
      obtain ⟨y, rfl⟩ := hp
      simp only [List.drop_left] at ih
      obtain ⟨i1, i2, i3, i4⟩ := ih (hi.child n hn c hc) (hs.child n hn hn0 c hc)
      apply tshape_replace hs (by intro m hm; rw [ht]; rcases hm with hm | hm <;> simp [hm])
      · intro hv
        obtain ⟨d, hd, e1, m1, hm1, m2, hm2, e2⟩ := hs.inner n hn hv
        rw [hc] at hd; simp at hd; subst hd
        obtain ⟨m1', k1, k2⟩ := i3 m1 hm1
        obtain ⟨m2', k3, k4⟩ := i3 m2 hm2
        exact ⟨c', rfl, i2.trans e1, m1', k1, m2', k3, by rw [k2, k4]; exact e2⟩
      · intro hv _ d hd
        simp at hd; subst hd
        obtain ⟨e1, e2⟩ := hs.entry n hn hv hn0 c hc
        refine ⟨by rw [i2]; exact e1, ?_⟩
        intro m hm h0
        rcases i4 m hm h0 with rfl | ⟨m2, h2, h3⟩
        · exact hne ⟨hv, by simp⟩
        · exact e2 m2 h2 h3
      · intro _ d hd
        simp at hd; subst hd
        exact i1
    · intro m hm
      rw [ht] at hm
      obtain ⟨m', h1, h2⟩ := hkeep m hm
      exact ⟨m', h1, by rw [h2]⟩
    · intro m hm h0
      simp at hm
      rcases hm with hm | rfl | hm
      · exact .inr ⟨m, by rw [ht]; simp [hm], h0⟩
      · exact .inr ⟨n, hn, h0⟩
      · exact .inr ⟨m, by rw [ht]; simp [hm], h0⟩

end Verif
