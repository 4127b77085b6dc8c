import Verif.Spec.Matching
import Verif.Proofs.CmpBytes
/-! Facts about the matching specification. -/
namespace Verif
open Spec

theorem get_insert (m : BMap) (k v x : Bytes) : (m.insert k v).get? x = if k = x then some v else m.get? x := by
  induction m with
  | nil => simp [BMap.insert, BMap.get?]
  | cons e m ih =>
    obtain ⟨k', v'⟩ := e
    unfold BMap.insert
    split
    · simp [BMap.get?]
    · rename_i h; rw [cmpBytes_eq] at h; subst h; simp only [BMap.get?]; split <;> rfl
    · rename_i h
      have hne : k ≠ k' := by intro h2; rw [← cmpBytes_eq, h] at h2; simp at h2
      simp only [BMap.get?, ih]
      split
      · rename_i h1; subst h1; rw [if_neg hne]
      · rfl

theorem insert_keys (m : BMap) (k v : Bytes) (x : Bytes) (h : x ∈ (m.insert k v).map Prod.fst) : x = k ∨ x ∈ m.map Prod.fst := by
  induction m with
  | nil => simpa [BMap.insert] using h
  | cons e m ih =>
    obtain ⟨k', v'⟩ := e
    unfold BMap.insert at h
    split at h
    · simpa using h
    · simp at h ⊢; rcases h with h | h
      · exact .inl h
      · exact .inr (.inr h)
    · simp only [List.map_cons, List.mem_cons] at h ⊢
      rcases h with h | h
      · exact .inr (.inl h)
      · rcases ih h with h | h
        · exact .inl h
        · exact .inr (.inr h)

theorem orderedMap_iff {m : BMap} : OrderedMap m ↔ (m.map Prod.fst).Pairwise fun a b => cmpBytes a b = .lt := by
  unfold OrderedMap
  simp only [cmpBytes_lex]

/-- In an ordered map a pair is an element iff looking up its key gives its value. -/
theorem mem_iff_get {m : BMap} (h : OrderedMap m) (k v : Bytes) : (k, v) ∈ m ↔ m.get? k = some v := by
  rw [orderedMap_iff] at h
  induction m with
  | nil => simp [BMap.get?]
  | cons e m ih =>
    obtain ⟨k', v'⟩ := e
    rw [List.map_cons, List.pairwise_cons] at h
    have ih := ih h.2
    simp only [BMap.get?, List.mem_cons, Prod.mk.injEq]
    by_cases hk : k' = k
    · subst hk
      rw [if_pos rfl]
      constructor
      · rintro (⟨_, rfl⟩ | hm)
        · rfl
        · exact absurd (h.1 k' (List.mem_map.mpr ⟨_, hm, rfl⟩)) (cmpBytes_irrefl _)
      · intro hv; exact .inl ⟨rfl, by simpa using hv.symm⟩
    · rw [if_neg hk, ← ih]
      constructor
      · rintro (⟨rfl, _⟩ | hm)
        · exact absurd rfl hk
        · exact hm
      · exact .inr

theorem hasCaptures_iff {m : BMap} {caps : List (Parser × Bytes)} :
    HasCaptures m caps ↔ OrderedMap m ∧ ∀ k, m.get? k = capture caps k := by
  unfold HasCaptures
  constructor
  · rintro ⟨h, h2⟩
    refine ⟨h, fun k => Option.ext fun v => ?_⟩
    rw [← mem_iff_get h, h2]
  · rintro ⟨h, h2⟩
    refine ⟨h, fun k v => ?_⟩
    rw [mem_iff_get h, h2]

theorem nameOf_eq (a : Parser) : nameOf a = a.name := by cases a <;> rfl

theorem insert_ordered {m : BMap} (h : OrderedMap m) (k v : Bytes) : OrderedMap (m.insert k v) := by
  rw [orderedMap_iff] at *
  induction m with
  | nil => simp [BMap.insert]
  | cons e m ih =>
    obtain ⟨k', v'⟩ := e
    rw [List.map_cons, List.pairwise_cons] at h
    unfold BMap.insert
    split
    · rename_i hlt
      rw [List.map_cons, List.pairwise_cons]
      refine ⟨?_, by rw [List.map_cons, List.pairwise_cons]; exact h⟩
      intro x hx
      simp only [List.map_cons, List.mem_cons] at hx
      rcases hx with rfl | hx
      · exact hlt
      · exact cmpBytes_trans hlt (h.1 x hx)
    · rename_i heq
      rw [cmpBytes_eq] at heq; subst heq
      rw [List.map_cons, List.pairwise_cons]; exact h
    · rename_i hgt
      rw [List.map_cons, List.pairwise_cons]
      refine ⟨?_, ih h.2⟩
      intro x hx
      rcases insert_keys m k v x hx with rfl | hx
      · exact cmpBytes_gt.mp hgt
      · exact h.1 x hx

theorem hasCaptures_nil (q : Pattern) : HasCaptures (MatchResult.new q).values [] := by
  refine hasCaptures_iff.mpr ⟨List.Pairwise.nil, ?_⟩
  intro k; simp [MatchResult.new, BMap.get?, capture]

theorem hasCaptures_insert {r : MatchResult} {caps : List (Parser × Bytes)} (h : HasCaptures r.values caps) (a : Parser)
    (v : Bytes) : HasCaptures (r.insert a v).values ((a, v) :: caps) := by
  rw [hasCaptures_iff] at h
  refine hasCaptures_iff.mpr ⟨?_, ?_⟩
  · unfold MatchResult.insert
    split
    · exact insert_ordered h.1 _ _
    · exact h.1
  intro k
  have h := h.2
  unfold MatchResult.insert capture
  cases ha : a.name with
  | none => simp only [nameOf_eq, ha, List.find?_cons]; simpa [capture, nameOf_eq] using h k
  | some n =>
    simp only [get_insert, List.find?_cons, nameOf_eq, ha, Option.some.injEq]
    split
    · rename_i h1; simp [h1]
    · rename_i h1; simp [h1]; simpa only [capture, nameOf_eq] using h k

theorem insert_pattern (r : MatchResult) (a : Parser) (v : Bytes) : (r.insert a v).pattern = r.pattern := by
  unfold MatchResult.insert; split <;> rfl

/-- A byte of a literal, or a parser. -/
abbrev Atom := UInt8 ⊕ Parser

def bytesA (l : Bytes) : List Atom := l.map .inl

/-- The token list with its literals cut into bytes. -/
def flat : List Token → List Atom
  | [] => []
  | .literal l :: toks => bytesA l ++ flat toks
  | .parser a :: toks => .inr a :: flat toks

theorem bytesA_append (a b : Bytes) : bytesA (a ++ b) = bytesA a ++ bytesA b := by simp [bytesA]

inductive FMatches : List Atom → Bytes → List (Parser × Bytes) → Prop
  | nil : FMatches [] [] []
  | byte (b : UInt8) (as : List Atom) (x : Bytes) (caps) : FMatches as x caps → FMatches (.inl b :: as) (b :: x) caps
  | parser (a : Parser) (as : List Atom) (v x : Bytes) (caps) :
      ParserMatch a (v ++ x) v → FMatches as x caps → FMatches (.inr a :: as) (v ++ x) ((a, v) :: caps)

theorem fmatches_bytes {l : Bytes} {as : List Atom} {x : Bytes} {caps} (h : FMatches as x caps) :
    FMatches (bytesA l ++ as) (l ++ x) caps := by
  induction l with
  | nil => exact h
  | cons b l ih => exact .byte b _ _ _ ih

theorem fmatches_bytes_inv {l : Bytes} {as : List Atom} {y : Bytes} {caps} (h : FMatches (bytesA l ++ as) y caps) :
    ∃ x, y = l ++ x ∧ FMatches as x caps := by
  induction l generalizing y with
  | nil => exact ⟨y, rfl, h⟩
  | cons b l ih =>
    simp only [bytesA, List.map_cons, List.cons_append] at h
    cases h with
    | byte b _ x caps h =>
      obtain ⟨x', rfl, h'⟩ := ih h
      exact ⟨x', rfl, h'⟩

theorem matches_flat {toks : List Token} {x : Bytes} {caps} : Matches toks x caps ↔ FMatches (flat toks) x caps := by
  induction toks generalizing x caps with
  | nil =>
    constructor
    · intro h; cases h; exact .nil
    · intro h; cases h; exact .nil
  | cons tok toks ih =>
    cases tok with
    | literal l =>
      constructor
      · intro h
        cases h with
        | literal _ _ x _ h => exact fmatches_bytes (ih.mp h)
      · intro h
        obtain ⟨x', rfl, h'⟩ := fmatches_bytes_inv h
        exact .literal _ _ _ _ (ih.mpr h')
    | parser a =>
      constructor
      · intro h
        cases h with
        | parser _ _ v x caps hm h => exact .parser _ _ _ _ _ hm (ih.mp h)
      · intro h
        cases h with
        | parser _ _ v x caps hm h => exact .parser _ _ _ _ _ hm (ih.mpr h)

/-- The match of a token list is unique. -/
theorem matches_unique {toks : List Token} {x : Bytes} {c1 c2} (h1 : Matches toks x c1) (h2 : Matches toks x c2) : c1 = c2 := by
  induction h1 generalizing c2 with
  | nil => cases h2; rfl
  | literal l toks x caps _ ih =>
    generalize he : l ++ x = y at h2
    cases h2 with
    | literal _ _ x' _ h2 =>
      rw [List.append_cancel_left he] at ih
      exact ih h2
  | parser a toks v x caps hm _ ih =>
    generalize he : v ++ x = y at h2
    cases h2 with
    | parser _ _ v' x' caps' hm' h2 =>
      have hv : v = v' := by rw [← he] at hm'; exact parserMatch_unique hm hm'
      subst hv
      rw [List.append_cancel_left he] at ih
      rw [ih h2]

theorem matchesStrict_matches {toks : List Token} {x : Bytes} {caps} (h : MatchesStrict toks x caps) : Matches toks x caps := by
  induction h with
  | nil => exact .nil
  | literal l toks x caps _ _ ih => exact .literal _ _ _ _ ih
  | parser a toks v x caps hm _ ih => exact .parser _ _ _ _ _ hm ih

theorem orderedMap_ext {m m' : BMap} (h : OrderedMap m) (h' : OrderedMap m') (he : ∀ k, m.get? k = m'.get? k) : m = m' := by
  have hmem : ∀ {m : BMap} {k : Bytes}, (∀ x ∈ m.map Prod.fst, cmpBytes k x = .lt) → m.get? k = none := by
    intro m k hk
    induction m with
    | nil => rfl
    | cons e m ih =>
      obtain ⟨k1, v1⟩ := e
      have h1 := hk k1 (by simp)
      simp only [BMap.get?]
      rw [if_neg (by rintro rfl; exact cmpBytes_irrefl _ h1)]
      exact ih fun x hx => hk x (by simp at hx ⊢; exact .inr hx)
  induction m generalizing m' with
  | nil =>
    cases m' with
    | nil => rfl
    | cons e m' =>
      obtain ⟨k, v⟩ := e
      have := he k
      simp [BMap.get?] at this
  | cons e m ih =>
    obtain ⟨k, v⟩ := e
    rw [orderedMap_iff] at h h'
    rw [List.map_cons, List.pairwise_cons] at h
    cases m' with
    | nil => have := he k; simp [BMap.get?] at this
    | cons e' m' =>
      obtain ⟨k', v'⟩ := e'
      rw [List.map_cons, List.pairwise_cons] at h'
      have hkk : k = k' := by
        cases hc : cmpBytes k k' with
        | eq => exact cmpBytes_eq.mp hc
        | lt =>
          have h1 := he k
          have h2 : BMap.get? ((k', v') :: m') k = none := hmem (by
            intro x hx
            simp only [List.map_cons, List.mem_cons] at hx
            rcases hx with rfl | hx
            · exact hc
            · exact cmpBytes_trans hc (h'.1 x hx))
          rw [h2] at h1; simp [BMap.get?] at h1
        | gt =>
          have hc := cmpBytes_gt.mp hc
          have h1 := he k'
          have h2 : BMap.get? ((k, v) :: m) k' = none := hmem (by
            intro x hx
            simp only [List.map_cons, List.mem_cons] at hx
            rcases hx with rfl | hx
            · exact hc
            · exact cmpBytes_trans hc (h.1 x hx))
          rw [h2] at h1; simp [BMap.get?] at h1
      subst hkk
      have hv : v = v' := by have := he k; simpa [BMap.get?] using this
      subst hv
      rw [ih (orderedMap_iff.mpr h.2) (orderedMap_iff.mpr h'.2)]
      intro x
      by_cases hx : k = x
      · subst hx
        rw [hmem fun y hy => h.1 y hy, hmem fun y hy => h'.1 y hy]
      · have := he x
        simpa [BMap.get?, hx] using this

end Verif
