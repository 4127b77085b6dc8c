import Verif.Proofs.TriePartial
/-! Where a text leads in the trie, and parsing in terms of it. -/
namespace Verif
open Spec

/-- Result of following a text through the literal nodes. -/
inductive WalkRes where
  | found (n : LiteralNode)
  | stuck (c : SuffixTree) (rest : Bytes)

/-- The child with the key of the text. -/
def hit? (l : List LiteralNode) (x : Bytes) : Option LiteralNode := l.find? fun n => rk n.literal == rk x

theorem hit_mem {l : List LiteralNode} {x : Bytes} {n : LiteralNode} (h : hit? l x = some n) : n ∈ l :=
  List.mem_of_find?_eq_some h

theorem hit_rk {l : List LiteralNode} {x : Bytes} {n : LiteralNode} (h : hit? l x = some n) : rk n.literal = rk x := by
  simpa using List.find?_some h

theorem sizeOf_lit_child {t : SuffixTree} {n : LiteralNode} {c : SuffixTree} (h : n ∈ t.literalChildren)
    (hc : n.node = some c) : sizeOf c < sizeOf t := by
  obtain ⟨i, hi⟩ := List.getElem?_of_mem h
  exact SuffixTree.sizeOf_literal_child i hi hc

theorem sizeOf_par_child {t : SuffixTree} {n : ParserNode} {c : SuffixTree} (h : n ∈ t.parserChildren)
    (hc : n.node = some c) : sizeOf c < sizeOf t := by
  have h0 := List.sizeOf_lt_of_mem h
  have h1 := SuffixTree.sizeOf_parserChildren t
  have e2 : sizeOf n = 1 + sizeOf n.parser + sizeOf n.pattern + sizeOf n.node := by cases n; simp
  rw [hc] at e2; simp at e2; omega

/-- Follow `x` through the literal nodes. -/
def walk (t : SuffixTree) (x : Bytes) : WalkRes :=
  match _h : hit? t.literalChildren x with
  | none => .stuck t x
  | some n =>
    match _hc : n.node with
    | none => if n.literal = x then .found n else .stuck t x
    | some c =>
      if ¬ n.literal <+: x then .stuck t x
      else if n.hasValue && n.literal = x then .found n
      else walk c (x.drop n.literal.length)
termination_by sizeOf t
decreasing_by exact sizeOf_lit_child (hit_mem _h) _hc

theorem walk_none {t : SuffixTree} {x : Bytes} (h : hit? t.literalChildren x = none) : walk t x = .stuck t x := by
  rw [walk]; split
  · rfl
  · rename_i h2; rw [h] at h2; simp at h2

theorem walk_some {t : SuffixTree} {x : Bytes} {n : LiteralNode} (h : hit? t.literalChildren x = some n) :
    walk t x = match n.node with
      | none => if n.literal = x then .found n else .stuck t x
      | some c =>
        if ¬ n.literal <+: x then .stuck t x
        else if n.hasValue && n.literal = x then .found n
        else walk c (x.drop n.literal.length) := by
  rw [walk]; split
  · rename_i h2; rw [h] at h2; simp at h2
  · rename_i n' h2; rw [h] at h2; simp at h2; subst h2
    cases n.node <;> rfl

variable {P : Bytes → Prop}

theorem hit_of_mem {l : List LiteralNode} (hs : SortedLits P l) {x : Bytes} {n : LiteralNode} (hn : n ∈ l)
    (hr : rk n.literal = rk x) : hit? l x = some n := by
  replace hs := hs.sorted
  unfold hit?
  induction l with
  | nil => simp at hn
  | cons m l ih =>
    rw [List.pairwise_cons] at hs
    simp at hn
    rw [List.find?_cons]
    rcases hn with rfl | hn
    · simp [hr]
    · have := hs.1 n hn
      have hne : (rk m.literal == rk x) = false := by rw [beq_eq_false_iff_ne]; omega
      rw [hne]
      exact ih hn hs.2

theorem hit_none {l : List LiteralNode} {x : Bytes} (h : ∀ n ∈ l, rk n.literal ≠ rk x) : hit? l x = none := by
  unfold hit?
  rw [List.find?_eq_none]
  intro n hn
  simpa using h n hn

theorem hit_none_iff {l : List LiteralNode} {x : Bytes} : hit? l x = none ↔ ∀ n ∈ l, rk n.literal ≠ rk x := by
  unfold hit?
  rw [List.find?_eq_none]
  simp

/-- The literal lookup agrees with `walk` if it does not panic. -/
theorem lookup_partial {t : SuffixTree} (hi : Inv Utf8 t) {x : Bytes} (hx : Utf8 x) {r : LookupResult}
    (h : t.lookupLiteral x = .ok r) :
    match walk t x with
    | .found n => ∃ node pos, r = .ok node pos ∧ node.literalChildren[pos]? = some n
    | .stuck c rest => r = .err c rest.length := by
  induction hi generalizing x with
  | mk t lits inner child parsers pchild ih =>
    unfold SuffixTree.lookupLiteral at h
    cases hs : t.search x with
    | error e => rw [hs] at h; simp at h
    | ok s =>
      rw [hs] at h
      rcases search_partial lits hx hs with ⟨A, n, B, ht, hr, rfl⟩ | ⟨A, B, ht, hA, hB, rfl⟩
      · have hm : n ∈ t.literalChildren := by rw [ht]; simp
        have hg : t.literalChildren[A.length]? = some n := by rw [ht]; simp
        rw [walk_some (hit_of_mem lits hm hr)]
        cases hn : n.node with
        | none =>
          simp only [hn, Option.isNone_none, if_true] at h ⊢
          by_cases he : n.literal = x
          · rw [if_pos he] at h ⊢; simp at h
            exact ⟨t, A.length, h.symm, hg⟩
          · rw [if_neg he] at h ⊢; simp at h; exact h.symm
        | some c =>
          simp only [hn, Option.isNone_some, Bool.false_eq_true, if_false] at h ⊢
          by_cases hp : n.literal <+: x
          · rw [if_neg (not_not_intro hp)] at h ⊢
            by_cases he : (n.hasValue && decide (n.literal = x)) = true
            · rw [if_pos he] at h ⊢; simp at h
              exact ⟨t, A.length, h.symm, hg⟩
            · rw [if_neg he] at h ⊢
              simp only at h
              split at h
              · rename_i h2; rw [hg] at h2; simp at h2
              · rename_i n' h2
                rw [hg] at h2; simp at h2; subst h2
                split at h
                · rename_i h2; rw [hn] at h2; simp at h2
                · rename_i c2 h2
                  rw [hn] at h2; simp at h2; subst h2
                  refine ih n hm c hn ?_ h
                  obtain ⟨y, rfl⟩ := hp
                  simpa using utf8_cancel (lits.label n hm) hx
          · rw [if_pos hp] at h ⊢; simp at h; exact h.symm
      · rw [walk_none (hit_none fun n hn => ?_)]
        · simpa using h.symm
        · rw [ht, List.mem_append] at hn
          rcases hn with hn | hn
          · have := hA n hn; omega
          · have := hB n hn; omega

/-- For ASCII labels and texts the lookup does not panic. -/
theorem lookup_total {t : SuffixTree} (hi : Inv Ascii t) {x : Bytes} (hx : Ascii x) : ∃ r, t.lookupLiteral x = .ok r := by
  induction hi generalizing x with
  | mk t lits inner child parsers pchild ih =>
    unfold SuffixTree.lookupLiteral
    rcases split_cases lits (rk x) with ⟨A, n, B, ht, hr⟩ | ⟨A, B, ht, hA, hB⟩
    · have hm : n ∈ t.literalChildren := by rw [ht]; simp
      have hg : t.literalChildren[A.length]? = some n := by rw [ht]; simp
      rw [search_hit ht lits hx hr]
      cases hn : n.node with
      | none =>
        simp only [Option.isNone_none, if_true]
        split
        · rename_i heq; simp at heq
        · exact ⟨_, rfl⟩
        · exact ⟨_, rfl⟩
        · rename_i heq; simp at heq; split at heq <;> simp at heq
      | some c =>
        simp only [Option.isNone_some, Bool.false_eq_true, if_false]
        split
        · rename_i heq; simp at heq
        · exact ⟨_, rfl⟩
        · exact ⟨_, rfl⟩
        · rename_i pos tr heq
          split at heq
          · simp at heq
          · split at heq
            · simp at heq
            · simp at heq
              obtain ⟨rfl, rfl⟩ := heq
              split
              · rename_i h2; rw [hg] at h2; simp at h2
              · rename_i n' h2
                rw [hg] at h2; simp at h2; subst h2
                split
                · rename_i h2; rw [hn] at h2; simp at h2
                · rename_i c2 h2
                  rw [hn] at h2; simp at h2; subst h2
                  exact ih n hm c hn (ascii_drop hx _)
    · rw [search_miss ht lits hx hA hB]
      exact ⟨_, rfl⟩

/-- Facts about the end of a walk. -/
theorem walk_stuck (hP : LabelPred P) {t : SuffixTree} (hi : Inv P t) {x : Bytes} (hx : P x) {c : SuffixTree} {rest : Bytes}
    (h : walk t x = .stuck c rest) : Inv P c ∧ P rest ∧ sizeOf c ≤ sizeOf t ∧ ∃ pre, x = pre ++ rest := by
  induction hi generalizing x with
  | mk t lits inner child parsers pchild ih =>
    have here : walk t x = .stuck t x → Inv P c ∧ P rest ∧ sizeOf c ≤ sizeOf t ∧ ∃ pre, x = pre ++ rest := by
      intro h1
      rw [h1] at h; simp at h
      obtain ⟨rfl, rfl⟩ := h
      exact ⟨.mk t lits inner child parsers pchild, hx, Nat.le_refl _, [], rfl⟩
    cases hh : hit? t.literalChildren x with
    | none => exact here (walk_none hh)
    | some n =>
      have hw := walk_some hh
      cases hn : n.node with
      | none =>
        simp only [hn] at hw
        split at hw
        · rw [hw] at h; simp at h
        · exact here hw
      | some d =>
        simp only [hn] at hw
        split at hw
        · exact here hw
        · rename_i hp
          simp only [Decidable.not_not] at hp
          split at hw
          · rw [hw] at h; simp at h
          · rw [hw] at h
            obtain ⟨y, rfl⟩ := hp
            have hy : P y := hP.cancel _ _ (lits.label n (hit_mem hh)) hx
            simp only [List.drop_left] at h
            obtain ⟨h1, h2, h3, pre, h4⟩ := ih n (hit_mem hh) d hn hy h
            have := sizeOf_lit_child (hit_mem hh) hn
            exact ⟨h1, h2, by omega, n.literal ++ pre, by simp [h4]⟩

theorem inv_mono {P Q : Bytes → Prop} (h : ∀ x, P x → Q x) {t : SuffixTree} (hi : Inv P t) : Inv Q t := by
  induction hi with
  | mk t lits inner child parsers pchild ih1 ih2 =>
    exact .mk t ⟨lits.sorted, fun n hn => h _ (lits.label n hn)⟩ inner ih1 parsers ih2

/-- Parsing, given that the literal lookup does not panic. -/
theorem parse_walk_of_lookup {t : SuffixTree} (hi : Inv Utf8 t) {x : Bytes} (hx : Utf8 x) {r : LookupResult}
    (h : t.lookupLiteral x = .ok r) :
    t.parse x = match walk t x with
      | .found n => .ok (n.pattern.map MatchResult.new)
      | .stuck c rest => parseWithParsers c.parserChildren rest := by
  have key := lookup_partial hi hx h
  have hst := @walk_stuck Utf8 labelPred_utf8 t hi x hx
  cases hw : walk t x with
  | found n =>
    rw [hw] at key
    obtain ⟨node, pos, rfl, hg⟩ := key
    rw [SuffixTree.parse]
    split
    · rename_i h2; rw [h] at h2; simp at h2
    · rename_i h2; rw [h] at h2; simp at h2; obtain ⟨rfl, rfl⟩ := h2
      rw [hg]
      simp only [SuffixTree.createMatchResultIfChildIsLeaf]
      cases n.pattern <;> rfl
    · rename_i h2; rw [h] at h2; simp at h2
  | stuck c rest =>
    rw [hw] at key
    simp only at key
    subst key
    obtain ⟨_, h2, _, pre, h4⟩ := hst hw
    rw [SuffixTree.parse]
    split
    · rename_i h2; rw [h] at h2; simp at h2
    · rename_i h2; rw [h] at h2; simp at h2
    · rename_i h2; rw [h] at h2; simp at h2; obtain ⟨rfl, rfl⟩ := h2
      have e1 : checkedSub x.length rest.length = .ok pre.length := by simp [checkedSub, h4]
      have e2 : ltrunc x pre.length = .ok rest := by
        have : isCharBoundary x pre.length = true := by rw [h4]; exact isCharBoundary_append_right (by assumption)
        rw [ltrunc, sliceFrom_ok this]; simp [h4]
      simp only [e1, e2]

/-- If `parse` does not panic, its result is determined by `walk`. -/
theorem parse_partial {t : SuffixTree} (hi : Inv Utf8 t) {x : Bytes} (hx : Utf8 x) {r : Option MatchResult}
    (h : t.parse x = .ok r) :
    match walk t x with
      | .found n => r = n.pattern.map MatchResult.new
      | .stuck c rest => parseWithParsers c.parserChildren rest = .ok r := by
  cases hl : t.lookupLiteral x with
  | error e =>
    rw [SuffixTree.parse] at h
    split at h
    · simp at h
    · rename_i h2; rw [hl] at h2; simp at h2
    · rename_i h2; rw [hl] at h2; simp at h2
  | ok res =>
    rw [parse_walk_of_lookup hi hx hl] at h
    cases hw : walk t x with
    | found n => rw [hw] at h; simp at h; exact h.symm
    | stuck c rest => rw [hw] at h; exact h

theorem parse_walk {t : SuffixTree} (hi : Inv Ascii t) {x : Bytes} (hx : Ascii x) :
    t.parse x = match walk t x with
      | .found n => .ok (n.pattern.map MatchResult.new)
      | .stuck c rest => parseWithParsers c.parserChildren rest := by
  obtain ⟨r, hr⟩ := lookup_total hi hx
  exact parse_walk_of_lookup (inv_mono (fun _ => ascii_utf8) hi) (ascii_utf8 hx) hr

/-- A parser child applied to an ASCII text. -/
theorem parserNode_parse (m : ParserNode) {x : Bytes} (hx : Ascii x) (hm : m.node = none → m.pattern ≠ none) :
    (∃ v y, x = v ++ y ∧ ParserMatch m.parser x v ∧ m.parse x = match m.node with
      | some c => (c.parse y).map (Option.map fun r => r.insert m.parser v)
      | none => .ok (if y = [] then m.pattern.map (fun q => (MatchResult.new q).insert m.parser v) else none)) ∨
    ((¬∃ v, ParserMatch m.parser x v) ∧ m.parse x = .ok none) := by
  by_cases h : ∃ v, ParserMatch m.parser x v
  · left
    obtain ⟨v, hv⟩ := h
    obtain ⟨y, rfl⟩ := parserMatch_prefix hv
    refine ⟨v, y, rfl, hv, ?_⟩
    have hb : isCharBoundary (v ++ y) v.length = true := ascii_boundary hx (by simp)
    have hp := (parse_some m.parser (v ++ y) v).mpr ⟨hv, hb⟩
    have ht : ltrunc (v ++ y) v.length = .ok y := by rw [ltrunc, sliceFrom_ok hb]; simp
    rw [ParserNode.parse, hp]
    simp only [ht]
    split
    · rename_i c hc
      simp only [hc]
      rw [parseThenPushKvpair]
      cases c.parse y with
      | error e => rfl
      | ok r => cases r <;> rfl
    · rename_i hc
      simp only [hc]
      unfold ParserNode.pushLastKvpair
      cases hq : m.pattern with
      | none => exact absurd hq (hm hc)
      | some q =>
        cases y with
        | nil => simp [unwrap, bind, Except.bind, pure, Except.pure]
        | cons b y => simp [pure, Except.pure]
  · right
    refine ⟨h, ?_⟩
    rw [ParserNode.parse, (parse_none m.parser x).mpr h]

/-- `parse` never panics on a well-formed trie with ASCII labels and an ASCII text. -/
theorem parse_total_trie {t : SuffixTree} (hi : Inv Ascii t) {x : Bytes} (hx : Ascii x) : ∃ r, t.parse x = .ok r := by
  induction hk : sizeOf t using Nat.strongRecOn generalizing t x with
  | ind k ih =>
    rw [parse_walk hi hx]
    cases hw : walk t x with
    | found n => exact ⟨_, rfl⟩
    | stuck c rest =>
      obtain ⟨h1, h2, h3, _⟩ := walk_stuck labelPred_ascii hi hx hw
      simp only
      have key : ∀ ps : List ParserNode, (∀ m ∈ ps, m ∈ c.parserChildren) → ∃ r, parseWithParsers ps rest = .ok r := by
        intro ps
        induction ps with
        | nil => intro _; exact ⟨none, by rw [parseWithParsers]⟩
        | cons m ps ihp =>
          intro hmem
          have hm := hmem m (by simp)
          have : ∃ r, m.parse rest = .ok r := by
            rcases parserNode_parse m h2 (h1.parsers m hm) with ⟨v, y, hxy, _, hp⟩ | ⟨_, hp⟩
            · rw [hp]
              cases hn : m.node with
              | none => exact ⟨_, rfl⟩
              | some d =>
                have hs := sizeOf_par_child hm hn
                have hy : Ascii y := by rw [hxy, ascii_append] at h2; exact h2.2
                obtain ⟨r, hr⟩ := ih (sizeOf d) (by omega) (h1.pchild m hm d hn) hy rfl
                simp only [hr]
                exact ⟨_, rfl⟩
            · exact ⟨_, hp⟩
          obtain ⟨r, hr⟩ := this
          rw [parseWithParsers, hr]
          cases r with
          | some r => exact ⟨_, rfl⟩
          | none => exact ihp fun m' hm' => hmem m' (by simp [hm'])
      exact key c.parserChildren fun _ h => h

end Verif
