import Verif.Proofs.TrieTable
import Verif.Spec.Panics
/-! Exactly when the literal search and the insertion of the trie matcher panic, for any UTF-8 labels and texts. -/
namespace Verif
open Spec

theorem firstAscii_or {x : Bytes} (hx : Utf8 x) : FirstAscii x ∨ NonAsciiFirst x := by
  cases x with
  | nil => exact .inl ⟨hx, by simp⟩
  | cons b t =>
    by_cases hb : b.toNat < 128
    · refine .inl ⟨hx, ?_⟩
      intro b' t' e
      simp at e; rw [← e.1]; exact hb
    · exact .inr ⟨b, t, rfl, by omega⟩

theorem firstAscii_not {x : Bytes} (h : FirstAscii x) : ¬NonAsciiFirst x := by
  rintro ⟨b, t, rfl, hb⟩
  have := h.2 b t rfl
  omega

theorem nonAsciiFirst_ne {x : Bytes} (h : NonAsciiFirst x) : x ≠ [] := by
  rintro rfl
  obtain ⟨b, t, h, _⟩ := h
  simp at h

theorem nonAsciiFirst_append {x y : Bytes} (h : NonAsciiFirst x) : NonAsciiFirst (x ++ y) := by
  obtain ⟨b, t, rfl, hb⟩ := h
  exact ⟨b, t ++ y, rfl, hb⟩

theorem nonAsciiFirst_prefix {x y : Bytes} (h : NonAsciiFirst y) (hp : x <+: y) (h0 : x ≠ []) : NonAsciiFirst x := by
  obtain ⟨b, t, rfl, hb⟩ := h
  cases x with
  | nil => exact absurd rfl h0
  | cons a x =>
    obtain ⟨z, hz⟩ := hp
    simp at hz
    exact ⟨a, x, rfl, by rw [hz.1]; exact hb⟩

theorem nonAsciiFirst_rk {x y : Bytes} (h : NonAsciiFirst x) (hr : rk y = rk x) : NonAsciiFirst y := by
  obtain ⟨b, t, rfl, hb⟩ := h
  cases y with
  | nil => simp [rk] at hr
  | cons a y => simp [rk] at hr; exact ⟨a, y, rfl, by omega⟩

/-! ### the search -/

theorem bsearchLoop_panic {α : Type} (f : α → M Ordering) (e : Panic) (base : Nat) (s : List α)
    (hf : ∀ x ∈ s, f x = .ok .lt ∨ f x = .error e) (hs : s.Pairwise fun x y => f y = .ok .lt → f x = .ok .lt) :
    ((∃ x ∈ s, f x = .error e) → binarySearchLoop f base s = .error e) ∧
    ((∀ x ∈ s, f x = .ok .lt) → ∃ i, binarySearchLoop f base s = .ok (.err i)) := by
  fun_induction binarySearchLoop f base s with
  | case1 base s h =>
    have hl := congrArg List.length h
    have : s = [] := by
      apply List.eq_nil_of_length_eq_zero; simp at hl; omega
    simp [this]
  | case2 base s x tail h e' he =>
    have hx : x ∈ s := List.mem_of_mem_drop (i := s.length / 2) (by simp [h])
    rcases hf x hx with h1 | h1
    · rw [h1] at he; simp at he
    · rw [h1] at he; simp at he; subst he
      exact ⟨fun _ => rfl, fun h2 => by rw [h2 x hx] at h1; simp at h1⟩
  | case3 base s x tail h hlt ih =>
    have hsplit : s = s.take (s.length / 2) ++ x :: tail := by rw [← h]; simp
    generalize s.take (s.length / 2) = hd at hsplit
    subst hsplit
    rw [List.pairwise_append] at hs
    obtain ⟨_, hs2, hs3⟩ := hs
    rw [List.pairwise_cons] at hs2
    obtain ⟨i1, i2⟩ := ih (fun y hy => hf y (by simp [hy])) hs2.2
    refine ⟨?_, fun h2 => i2 fun y hy => h2 y (by simp [hy])⟩
    rintro ⟨y, hy, he⟩
    apply i1
    rw [List.mem_append, List.mem_cons] at hy
    rcases hy with hy | rfl | hy
    · rw [hs3 y hy x (by simp) hlt] at he; simp at he
    · rw [hlt] at he; simp at he
    · exact ⟨y, hy, he⟩
  | case4 base s x tail h hgt ih =>
    have hx : x ∈ s := List.mem_of_mem_drop (i := s.length / 2) (by simp [h])
    rcases hf x hx with h1 | h1 <;> rw [h1] at hgt <;> simp at hgt
  | case5 base s x tail h heq =>
    have hx : x ∈ s := List.mem_of_mem_drop (i := s.length / 2) (by simp [h])
    rcases hf x hx with h1 | h1 <;> rw [h1] at heq <;> simp at heq

/-- The computation panics with a slicing error exactly if `R`. -/
def Outcome {α : Type} (R : Prop) (m : M α) : Prop := (R → m = .error .slice) ∧ (¬R → ∃ r, m = .ok r)

theorem outcome_ok {α : Type} {R : Prop} {m : M α} {r : α} (h : ¬R) (e : m = .ok r) : Outcome R m := ⟨fun h' => absurd h' h, fun _ => ⟨r, e⟩⟩
theorem outcome_error {α : Type} {R : Prop} {m : M α} (h : R) (e : m = .error .slice) : Outcome R m := ⟨fun _ => e, fun h' => absurd h h'⟩
theorem outcome_congr {α : Type} {R S : Prop} {m : M α} (h : R ↔ S) (ho : Outcome R m) : Outcome S m := by rw [← propext h]; exact ho

theorem slice_nonAscii {x : Bytes} (hx : Utf8 x) (hf : NonAsciiFirst x) : slice x 0 1 = .error .slice := by
  obtain ⟨b, t, rfl, hb⟩ := hf
  have hbd : isCharBoundary (b :: t) 1 = false := by
    cases hc : isCharBoundary (b :: t) 1 with
    | false => rfl
    | true =>
      have h1 := (boundary_split hx hc).1
      simp at h1
      obtain h | ⟨c, s', h, _⟩ := utf8_cases h1
      · simp at h
      · obtain ⟨b0, tl, h2, _, _, h4, _⟩ := enc_shape c
        rw [h2] at h
        simp at h
        obtain ⟨rfl, rfl, _⟩ := h
        simp only [List.length_nil, contLen] at h4
        split at h4
        · omega
        · split at h4 <;> (try split at h4) <;> simp at h4
  simp [slice, hbd]

theorem firstAscii_boundary {x : Bytes} (h : FirstAscii x) (h0 : x ≠ []) : isCharBoundary x 1 = true := by
  cases x with
  | nil => exact absurd rfl h0
  | cons a s => exact isCharBoundary_append_right (a := [a]) (utf8_cancel (a := [a]) (ascii_utf8 (by intro b hb; simp at hb; subst hb; exact h.2 _ _ rfl)) h.1)

/-- Comparing two texts panics: none is empty, and one begins with a character outside ASCII. -/
def PairClash (a b : Bytes) : Prop := a ≠ [] ∧ b ≠ [] ∧ (NonAsciiFirst a ∨ NonAsciiFirst b)

theorem cmpStr_outcome {n : LiteralNode} {x : Bytes} (hn : Utf8 n.literal) (hx : Utf8 x) :
    (PairClash n.literal x → n.cmpStr x = .error .slice) ∧
    (¬PairClash n.literal x → n.cmpStr x = .ok (compare (rk n.literal) (rk x))) := by
  unfold LiteralNode.cmpStr
  cases hl : n.literal with
  | nil =>
    refine ⟨fun h => absurd rfl h.1, fun _ => ?_⟩
    cases x with
    | nil => simp [rk]
    | cons b x => simp [rk]; rw [compare_nat_lt (by omega)]
  | cons a s =>
    cases x with
    | nil =>
      refine ⟨fun h => absurd rfl h.2.1, fun _ => ?_⟩
      simp [rk]; rw [compare_nat_gt (by omega)]
    | cons b x =>
      rw [hl] at hn
      simp only [List.isEmpty_cons, Bool.false_and, Bool.false_eq_true, if_false]
      refine ⟨?_, ?_⟩
      · rintro ⟨_, _, h | h⟩
        · rw [slice_nonAscii hn h]; rfl
        · rcases firstAscii_or hn with h1 | h1
          · rw [slice_first h1, slice_nonAscii hx h]; rfl
          · rw [slice_nonAscii hn h1]; rfl
      · intro h
        have h1 : FirstAscii (a :: s) := (firstAscii_or hn).resolve_right fun h1 => h ⟨by simp, by simp, .inl h1⟩
        have h2 : FirstAscii (b :: x) := (firstAscii_or hx).resolve_right fun h1 => h ⟨by simp, by simp, .inr h1⟩
        rw [slice_first h1, slice_first h2]
        simp only [bind, Except.bind, pure, Except.pure, Except.ok.injEq]
        rw [cmpU8_compare]; rfl

/-- The comparison of a text with the literal children panics: there is a literal to compare it with, and the text or a literal begins with a
character outside ASCII. -/
def Clash (c : SuffixTree) (y : Bytes) : Prop :=
  y ≠ [] ∧ (∃ n ∈ c.literalChildren, n.literal ≠ []) ∧ (NonAsciiFirst y ∨ ∃ n ∈ c.literalChildren, NonAsciiFirst n.literal)

/-- A child that begins with a character outside ASCII has no siblings but the empty one. -/
def Sep (l : List LiteralNode) : Prop := ∀ m ∈ l, NonAsciiFirst m.literal → ∀ n ∈ l, n.literal ≠ [] → n.literal = m.literal

theorem clash_pair {c : SuffixTree} (hs : Sep c.literalChildren) {y : Bytes} (h : Clash c y) {n : LiteralNode} (hn : n ∈ c.literalChildren)
    (h0 : n.literal ≠ []) : PairClash n.literal y := by
  obtain ⟨h1, _, h2 | ⟨m, hm, h2⟩⟩ := h
  · exact ⟨h0, h1, .inr h2⟩
  · exact ⟨h0, h1, .inl (by rw [hs m hm h2 n hn h0]; exact h2)⟩

theorem not_clash_pair {c : SuffixTree} {y : Bytes} (h : ¬Clash c y) {n : LiteralNode} (hn : n ∈ c.literalChildren) : ¬PairClash n.literal y := by
  rintro ⟨h0, h1, h2⟩
  refine h ⟨h1, ⟨n, hn, h0⟩, ?_⟩
  rcases h2 with h2 | h2
  · exact .inr ⟨n, hn, h2⟩
  · exact .inl h2

theorem bsearch_outcome {c : SuffixTree} (hl : SortedLits Utf8 c.literalChildren) (hs : Sep c.literalChildren) {y : Bytes} (hy : Utf8 y) :
    Outcome (Clash c y) (SortedVec.binarySearchBy (fun p => p.cmpStr y) c.literalChildren) := by
  have hc : ∀ n ∈ c.literalChildren, _ := fun n hn => cmpStr_outcome (n := n) (hl.label n hn) hy
  refine ⟨fun h => ?_, fun h => ?_⟩
  · have hval : ∀ n ∈ c.literalChildren, n.cmpStr y = if n.literal = [] then .ok .lt else .error .slice := by
      intro n hn
      split
      · rename_i h0
        rw [(hc n hn).2 (fun h1 => h1.1 h0), h0]
        have : rk [] < rk y := Nat.pos_of_ne_zero fun h1 => h.1 (rk_eq_nil.mp h1)
        rw [compare_nat_lt this]
      · rename_i h0
        exact (hc n hn).1 (clash_pair hs h hn h0)
    have key := bsearchLoop_panic (fun p : LiteralNode => p.cmpStr y) .slice 0 c.literalChildren
      (fun n hn => by simp only [hval n hn]; split <;> simp)
      (by
        refine hl.sorted.imp_of_mem ?_
        intro a b ha hb hab
        simp only [hval a ha, hval b hb]
        intro h1
        split at h1
        · rename_i h2; rw [h2] at hab; simp [rk] at hab
        · simp at h1)
    obtain ⟨n, hn, h0⟩ := h.2.1
    exact key.1 ⟨n, hn, by simp only [hval n hn]; rw [if_neg h0]⟩
  · have key := binarySearchBy_spec (fun p : LiteralNode => p.cmpStr y) (fun p => compare (rk p.literal) (rk y)) c.literalChildren
      (fun n hn => (hc n hn).2 (not_clash_pair h hn)) (hl.sorted.imp fun hab => rank_mono hab)
    rcases key with ⟨i, n, h1, _⟩ | ⟨i, h1, _⟩
    · exact ⟨_, h1⟩
    · exact ⟨_, h1⟩

/-- The result of the binary search, if nothing clashes. -/
theorem bsearch_cases_utf8 {c : SuffixTree} (hl : SortedLits Utf8 c.literalChildren) (hs : Sep c.literalChildren) {y : Bytes} (hy : Utf8 y)
    (h : ¬Clash c y) :
    (∃ A n B, c.literalChildren = A ++ n :: B ∧ rk n.literal = rk y ∧
      SortedVec.binarySearchBy (fun p => p.cmpStr y) c.literalChildren = .ok (.ok A.length)) ∨
    (∃ A B, c.literalChildren = A ++ B ∧ (∀ m ∈ A, rk m.literal < rk y) ∧ (∀ m ∈ B, rk y < rk m.literal) ∧
      SortedVec.binarySearchBy (fun p => p.cmpStr y) c.literalChildren = .ok (.err A.length)) := by
  obtain ⟨r, hr⟩ := (bsearch_outcome hl hs hy).2 h
  rcases bsearch_partial hl hr with ⟨A, n, B, h1, h2, rfl⟩ | ⟨A, B, h1, h2, h3, rfl⟩
  · exact .inl ⟨A, n, B, h1, h2, hr⟩
  · exact .inr ⟨A, B, h1, h2, h3, hr⟩

/-- `search` in terms of the binary search. -/
theorem search_of_hit {t : SuffixTree} {A B : List LiteralNode} {n : LiteralNode} (ht : t.literalChildren = A ++ n :: B)
    (hn : Utf8 n.literal) {x : Bytes} (hx : Utf8 x)
    (hb : SortedVec.binarySearchBy (fun p => p.cmpStr x) t.literalChildren = .ok (.ok A.length)) :
    t.search x = .ok (
      if n.node.isNone then (if n.literal = x then .found A.length else .notFound)
      else if ¬ n.literal <+: x then .notFound
      else if n.hasValue && n.literal = x then .found A.length
      else .goDown A.length (x.drop n.literal.length)) := by
  unfold SuffixTree.search
  have hg : t.literalChildren[A.length]? = some n := by rw [ht]; simp
  rw [hb]
  simp only [bind, Except.bind]
  unfold SuffixTree.searchPrefixIsFound
  simp only [hg, unwrap, bind, Except.bind]
  cases hn' : n.node with
  | none =>
    simp only [LiteralNode.isLeaf, hn', Option.isNone_none, if_true]
    unfold SuffixTree.searchLeaf
    simp only [hg, unwrap, bind, Except.bind, pure, Except.pure]
    split <;> rfl
  | some c =>
    simp only [LiteralNode.isLeaf, hn', Option.isNone_some, Bool.false_eq_true, if_false]
    unfold SuffixTree.searchNotLeaf
    simp only [hg, unwrap, bind, Except.bind, pure, Except.pure]
    by_cases hp : n.literal <+: x
    · have hc : commonPrefixLen n.literal x = n.literal.length := cpl_eq_length_left.mpr hp
      rw [hc, if_neg (Nat.lt_irrefl _), if_neg (not_not_intro hp)]
      have e : (x.isEmpty || decide (n.literal.length = x.length)) = decide (n.literal = x) := by
        rw [Bool.eq_iff_iff]
        simp only [Bool.or_eq_true, decide_eq_true_eq, List.isEmpty_iff]
        constructor
        · rintro (rfl | h2)
          · exact List.prefix_nil.mp hp
          · exact hp.eq_of_length h2
        · intro h2; right; rw [h2]
      rw [e]
      split
      · rfl
      · simp only [hn']
        have : ltrunc x n.literal.length = .ok (x.drop n.literal.length) :=
          sliceFrom_ok (by
            obtain ⟨y, rfl⟩ := hp
            exact isCharBoundary_append_right (utf8_cancel hn hx))
        rw [this]
    · rw [if_pos (cpl_lt_iff.mpr hp), if_pos hp]

theorem search_error {t : SuffixTree} {x : Bytes} {e : Panic}
    (hb : SortedVec.binarySearchBy (fun p => p.cmpStr x) t.literalChildren = .error e) : t.search x = .error e := by
  unfold SuffixTree.search
  rw [hb]; rfl

theorem search_of_miss {t : SuffixTree} {x : Bytes} {i : Nat}
    (hb : SortedVec.binarySearchBy (fun p => p.cmpStr x) t.literalChildren = .ok (.err i)) : t.search x = .ok .notFound := by
  unfold SuffixTree.search
  rw [hb]; rfl

/-! ### lookup -/

/-- `Sep` at every node reached through literals. -/
inductive SepTree : SuffixTree → Prop
  | mk (t : SuffixTree) (sep : Sep t.literalChildren) (child : ∀ n ∈ t.literalChildren, ∀ c, n.node = some c → SepTree c) : SepTree t

theorem SepTree.sep {t : SuffixTree} (h : SepTree t) : Sep t.literalChildren := by cases h; assumption
theorem SepTree.child {t : SuffixTree} (h : SepTree t) : ∀ n ∈ t.literalChildren, ∀ c, n.node = some c → SepTree c := by cases h; assumption

/-- Following the text through the literals runs into a comparison that panics. -/
def Troubled (t : SuffixTree) (x : Bytes) : Prop := ∃ pre c y, x = pre ++ y ∧ TreeAt t pre c ∧ Clash c y

theorem troubled_iff {t : SuffixTree} {x : Bytes} : Troubled t x ↔ Clash t x ∨
    ∃ n ∈ t.literalChildren, n.literal ≠ [] ∧ ∃ c y, n.node = some c ∧ x = n.literal ++ y ∧ Troubled c y := by
  constructor
  · rintro ⟨pre, c, y, rfl, h, hc⟩
    cases h with
    | here => exact .inl hc
    | down _ n d pre _ hn h0 hd h =>
      exact .inr ⟨n, hn, h0, d, pre ++ y, hd, by simp, pre, c, y, rfl, h, hc⟩
  · rintro (h | ⟨n, hn, h0, d, y, hd, rfl, pre, c, z, rfl, h, hc⟩)
    · exact ⟨[], t, x, rfl, .here t, h⟩
    · exact ⟨n.literal ++ pre, c, z, by simp, .down _ _ _ _ _ hn h0 hd h, hc⟩

theorem troubled_nil {t : SuffixTree} : ¬Troubled t [] := by
  rintro ⟨pre, c, y, h, _, hc⟩
  simp at h
  exact hc.1 h.2

/-- One step of the lookup. -/
inductive StepCase (t : SuffixTree) (x : Bytes) : Prop
  | clash (h : Clash t x) (hs : t.search x = .error .slice) : StepCase t x
  | found (A B : List LiteralNode) (n : LiteralNode) (ht : t.literalChildren = A ++ n :: B) (hl : n.literal = x) (hv : n.hasValue = true)
      (hs : t.search x = .ok (.found A.length)) (hw : walk t x = .found n) (hn : ¬Troubled t x) : StepCase t x
  | stuck (hs : t.search x = .ok .notFound) (hw : walk t x = .stuck t x) (hn : ¬Troubled t x) : StepCase t x
  | down (A B : List LiteralNode) (n : LiteralNode) (c : SuffixTree) (y : Bytes) (ht : t.literalChildren = A ++ n :: B) (h0 : n.literal ≠ [])
      (hc : n.node = some c) (hx : x = n.literal ++ y) (hs : t.search x = .ok (.goDown A.length y)) (hw : walk t x = walk c y)
      (htr : Troubled t x ↔ Troubled c y) : StepCase t x

theorem stepCase {t : SuffixTree} (hi : Inv Utf8 t) (hsep : Sep t.literalChildren) {x : Bytes} (hx : Utf8 x) : StepCase t x := by
  by_cases hc : Clash t x
  · exact .clash hc (search_error ((bsearch_outcome hi.lits hsep hx).1 hc))
  · have uniq : ∀ n ∈ t.literalChildren, rk n.literal = rk x → ∀ m ∈ t.literalChildren, m.literal ≠ [] → m.literal <+: x → m = n := by
      intro n hn hr m hm h0 hp
      have h1 := hit_of_mem hi.lits hn hr
      have h2 := hit_of_mem hi.lits hm (prefix_rk hp h0)
      rw [h1] at h2
      simpa using h2.symm
    rcases bsearch_cases_utf8 hi.lits hsep hx hc with ⟨A, n, B, ht, hr, hb⟩ | ⟨A, B, ht, hA, hB, hb⟩
    · have hm : n ∈ t.literalChildren := by rw [ht]; simp
      have hn := hi.lits.label n hm
      have hs := search_of_hit ht hn hx hb
      have hw := walk_some (hit_of_mem hi.lits hm hr)
      cases hnode : n.node with
      | none =>
        simp only [hnode, Option.isNone_none, if_true] at hs hw
        have htr : ¬Troubled t x := by
          rw [troubled_iff]
          rintro (h | ⟨m, hm', h0, c, y, hmc, rfl, _⟩)
          · exact hc h
          · rw [uniq n hm hr m hm' h0 (List.prefix_append _ _), hnode] at hmc
            simp at hmc
        by_cases he : n.literal = x
        · rw [if_pos he] at hs hw
          refine .found A B n ht he ?_ hs hw htr
          cases hv : n.hasValue with
          | true => rfl
          | false => exact absurd hnode (hi.inner n hm hv).2.2
        · rw [if_neg he] at hs hw
          exact .stuck hs hw htr
      | some c =>
        simp only [hnode, Option.isNone_some, Bool.false_eq_true, if_false] at hs hw
        by_cases hp : n.literal <+: x
        · rw [if_neg (not_not_intro hp)] at hs hw
          by_cases he : (n.hasValue && decide (n.literal = x)) = true
          · rw [if_pos he] at hs hw
            simp only [Bool.and_eq_true, decide_eq_true_eq] at he
            refine .found A B n ht he.2 he.1 hs hw ?_
            rw [troubled_iff]
            rintro (h | ⟨m, hm', h0, d, y, hmc, hxy, hd⟩)
            · exact hc h
            · have := uniq n hm hr m hm' h0 (by rw [hxy]; exact List.prefix_append _ _)
              rw [this, he.2] at hxy
              simp at hxy
              rw [hxy] at hd
              exact troubled_nil hd
          · rw [if_neg he] at hs hw
            have h0 : n.literal ≠ [] := by
              intro h0
              rw [h0] at hr
              have hx0 : x = [] := rk_eq_nil.mp hr.symm
              cases hv : n.hasValue with
              | true => exact he (by rw [hv, h0, hx0]; rfl)
              | false => exact (hi.inner n hm hv).1 h0
            obtain ⟨y, rfl⟩ := hp
            simp only [List.drop_left] at hs hw
            refine .down A B n c y ht h0 hnode rfl hs hw ?_
            rw [troubled_iff]
            constructor
            · rintro (h | ⟨m, hm', h0', d, y', hmc, hxy, hd⟩)
              · exact absurd h hc
              · have := uniq n hm hr m hm' h0' (by rw [hxy]; exact List.prefix_append _ _)
                subst this
                rw [hnode] at hmc
                simp at hmc
                subst hmc
                rw [List.append_cancel_left hxy]
                exact hd
            · intro h
              exact .inr ⟨n, hm, h0, c, y, hnode, rfl, h⟩
        · rw [if_pos hp] at hs hw
          refine .stuck hs hw ?_
          rw [troubled_iff]
          rintro (h | ⟨m, hm', h0, d, y, hmc, hxy, hd⟩)
          · exact hc h
          · have hpx : m.literal <+: x := by rw [hxy]; exact List.prefix_append _ _
            rw [uniq n hm hr m hm' h0 hpx] at hpx
            exact hp hpx
    · refine .stuck (search_of_miss hb) (walk_none (hit_none fun n hn => ?_)) ?_
      · rw [ht, List.mem_append] at hn
        rcases hn with hn | hn
        · have := hA n hn; omega
        · have := hB n hn; omega
      · rw [troubled_iff]
        rintro (h | ⟨m, hm, h0, d, y, hmc, hxy, hd⟩)
        · exact hc h
        · have hr : rk m.literal = rk x := prefix_rk (by rw [hxy]; exact List.prefix_append _ _) h0
          rw [ht, List.mem_append] at hm
          rcases hm with hm | hm
          · have := hA m hm; omega
          · have := hB m hm; omega

theorem lookup_outcome {t : SuffixTree} (hi : Inv Utf8 t) (hsep : SepTree t) {x : Bytes} (hx : Utf8 x) :
    Outcome (Troubled t x) (t.lookupLiteral x) := by
  induction hi generalizing x with
  | mk t lits inner child parsers pchild ih =>
    have hi : Inv Utf8 t := .mk t lits inner child parsers pchild
    rcases stepCase hi hsep.sep hx with ⟨h, hs⟩ | ⟨A, B, n, ht, hl, hv, hs, hw, hn⟩ | ⟨hs, hw, hn⟩ | ⟨A, B, n, c, y, ht, h0, hc, rfl, hs, hw, htr⟩
    · refine outcome_error (troubled_iff.mpr (.inl h)) ?_
      unfold SuffixTree.lookupLiteral
      rw [hs]
    · refine outcome_ok hn (r := .ok t A.length) ?_
      unfold SuffixTree.lookupLiteral
      rw [hs]
    · refine outcome_ok hn (r := .err t x.length) ?_
      unfold SuffixTree.lookupLiteral
      rw [hs]
    · have hm : n ∈ t.literalChildren := by rw [ht]; simp
      have hg : t.literalChildren[A.length]? = some n := by rw [ht]; simp
      have e : t.lookupLiteral (n.literal ++ y) = c.lookupLiteral y := by
        rw [SuffixTree.lookupLiteral, hs]
        simp only
        split
        · rename_i h2; rw [hg] at h2; simp at h2
        · rename_i n' h2
          rw [hg] at h2; simp at h2; subst h2
          split
          · rename_i h2; rw [hc] at h2; simp at h2
          · rename_i c2 h2
            rw [hc] at h2; simp at h2; subst h2
            rfl
      rw [e]
      exact outcome_congr htr.symm (ih n hm c hc (hsep.child n hm c hc) (utf8_cancel (lits.label n hm) hx))

/-- The lookup of an insertion: it panics if the lookup does, and otherwise it works on the node where the text gets stuck. -/
theorem lookupMut_outcome {t : SuffixTree} (hi : Inv Utf8 t) (hsep : SepTree t) {x : Bytes} (hx : Utf8 x)
    {onOk onErr : SuffixTree → Nat → M SuffixTree} (hok : ∀ (d : SuffixTree) pos, pos < d.literalChildren.length → ∃ d', onOk d pos = .ok d') :
    (Troubled t x → t.lookupLiteralMut x onOk onErr = .error .slice) ∧
    (¬Troubled t x →
      match walk t x with
      | .found _ => ∃ t', t.lookupLiteralMut x onOk onErr = .ok t'
      | .stuck c y =>
        (∀ e, onErr c y.length = .error e → t.lookupLiteralMut x onOk onErr = .error e) ∧
        (∀ c', onErr c y.length = .ok c' → ∃ t', t.lookupLiteralMut x onOk onErr = .ok t')) := by
  induction hi generalizing x with
  | mk t lits inner child parsers pchild ih =>
    have hi : Inv Utf8 t := .mk t lits inner child parsers pchild
    rcases stepCase hi hsep.sep hx with ⟨h, hs⟩ | ⟨A, B, n, ht, hl, hv, hs, hw, hn⟩ | ⟨hs, hw, hn⟩ | ⟨A, B, n, c, y, ht, h0, hc, rfl, hs, hw, htr⟩
    · have e : t.lookupLiteralMut x onOk onErr = .error .slice := by rw [SuffixTree.lookupLiteralMut, hs]
      exact ⟨fun _ => e, fun h' => absurd (troubled_iff.mpr (.inl h)) h'⟩
    · have e : t.lookupLiteralMut x onOk onErr = onOk t A.length := by rw [SuffixTree.lookupLiteralMut, hs]
      refine ⟨fun h => absurd h hn, fun _ => ?_⟩
      rw [hw, e]
      exact hok t A.length (by rw [ht]; simp)
    · have e : t.lookupLiteralMut x onOk onErr = onErr t x.length := by rw [SuffixTree.lookupLiteralMut, hs]
      refine ⟨fun h => absurd h hn, fun _ => ?_⟩
      rw [hw, e]
      exact ⟨fun e h => h, fun c' h => ⟨c', h⟩⟩
    · have hm : n ∈ t.literalChildren := by rw [ht]; simp
      have hg : t.literalChildren[A.length]? = some n := by rw [ht]; simp
      have e : t.lookupLiteralMut (n.literal ++ y) onOk onErr = match c.lookupLiteralMut y onOk onErr with
          | .error e => .error e
          | .ok c' => .ok { t with literalChildren := t.literalChildren.set A.length { n with node := some c' } } := by
        rw [SuffixTree.lookupLiteralMut, hs]
        simp only
        split
        · rename_i h2; rw [hg] at h2; simp at h2
        · rename_i n' h2
          rw [hg] at h2; simp at h2; subst h2
          split
          · rename_i h2; rw [hc] at h2; simp at h2
          · rename_i c2 h2
            rw [hc] at h2; simp at h2; subst h2
            rfl
      obtain ⟨i1, i2⟩ := ih n hm c hc (hsep.child n hm c hc) (utf8_cancel (lits.label n hm) hx)
      refine ⟨fun h => ?_, fun h => ?_⟩
      · rw [e, i1 (htr.mp h)]
      · have i2 := i2 (fun h' => h (htr.mpr h'))
        rw [hw, e]
        cases hwc : walk c y with
        | found m =>
          rw [hwc] at i2
          obtain ⟨c', h1⟩ := i2
          rw [h1]; exact ⟨_, rfl⟩
        | stuck d z =>
          rw [hwc] at i2
          refine ⟨fun e' h1 => ?_, fun d' h1 => ?_⟩
          · rw [i2.1 e' h1]
          · obtain ⟨c', h2⟩ := i2.2 d' h1
            rw [h2]; exact ⟨_, rfl⟩

/-- `parse` in terms of `walk`, panics included. -/
theorem parse_exact {t : SuffixTree} (hi : Inv Utf8 t) (hsep : SepTree t) {x : Bytes} (hx : Utf8 x) :
    (Troubled t x → t.parse x = .error .slice) ∧
    (¬Troubled t x →
      match walk t x with
      | .found n => t.parse x = .ok (n.pattern.map MatchResult.new)
      | .stuck c y => t.parse x = parseWithParsers c.parserChildren y) := by
  obtain ⟨h1, h2⟩ := lookup_outcome hi hsep hx
  refine ⟨fun h => ?_, fun h => ?_⟩
  · have hl := h1 h
    rw [SuffixTree.parse]
    split
    · rename_i h2; rw [hl] at h2; simp at h2; rw [h2]
    · rename_i h2; rw [hl] at h2; simp at h2
    · rename_i h2; rw [hl] at h2; simp at h2
  · obtain ⟨r, hr⟩ := h2 h
    have := parse_walk_of_lookup hi hx hr
    cases hw : walk t x with
    | found n => rw [hw] at this; exact this
    | stuck c y => rw [hw] at this; exact this

/-! ### insertion -/

theorem insertStable_total {α : Type} {cmp : α → α → M Ordering} {x : α} {l : List α} (h : ∀ y ∈ l, ∃ o, cmp x y = .ok o) :
    ∃ r, insertStable cmp x l = .ok r := by
  induction l with
  | nil => exact ⟨[x], rfl⟩
  | cons y ys ih =>
    obtain ⟨o, ho⟩ := h y (by simp)
    obtain ⟨r, hr⟩ := ih fun z hz => h z (by simp [hz])
    rw [insertStable, ho, hr]
    cases o <;> exact ⟨_, rfl⟩

theorem stableSort_total {α : Type} {cmp : α → α → M Ordering} {acc l : List α} (h1 : ∀ a ∈ acc, ∀ b ∈ l, ∃ o, cmp b a = .ok o)
    (h2 : l.Pairwise fun a b => ∃ o, cmp b a = .ok o) : ∃ r, l.foldlM (fun acc x => insertStable cmp x acc) acc = .ok r := by
  induction l generalizing acc with
  | nil => exact ⟨acc, rfl⟩
  | cons x xs ih =>
    obtain ⟨acc', ha⟩ := insertStable_total (cmp := cmp) (x := x) (l := acc) fun y hy => h1 y hy x (by simp)
    rw [List.pairwise_cons] at h2
    simp only [List.foldlM_cons, bind, Except.bind, ha]
    refine ih ?_ h2.2
    intro a hm b hb
    have e := insertStable_mono (c := fun a b => match cmp a b with | .ok o => o | .error _ => .eq) (fun y _ o ho => by simp [ho]) ha
    rw [e] at hm
    rcases List.mem_cons.mp ((insertPure_perm _ x acc).mem_iff.mp hm) with rfl | hm
    · exact h2.1 b hb
    · exact h1 a hm b (by simp [hb])

theorem push_total {α : Type} {cmp : α → α → M Ordering} {v : List α} {x : α} (h : v.Pairwise fun a b => ∃ o, cmp b a = .ok o)
    (hx : ∀ a ∈ v, ∃ o, cmp x a = .ok o) : ∃ r, SortedVec.push cmp v x = .ok r := by
  unfold SortedVec.push stableSort
  refine stableSort_total (by simp) ?_
  rw [List.pairwise_append]
  exact ⟨h, by simp, by intro a ha b hb; simp at hb; rw [hb]; exact hx a ha⟩

theorem pairClash_symm {a b : Bytes} (h : PairClash a b) : PairClash b a := ⟨h.2.1, h.1, h.2.2.symm⟩

theorem sep_pairwise {l : List LiteralNode} (h : SortedLits P l) (hs : Sep l) : l.Pairwise fun a b => ¬PairClash a.literal b.literal := by
  refine h.sorted.imp_of_mem ?_
  intro a b ha hb hab
  rintro ⟨h1, h2, h3 | h3⟩
  · rw [hs a ha h3 b hb h2] at hab; omega
  · rw [hs b hb h3 a ha h1] at hab; omega

/-- Splitting the label `m` for the text `y` panics: after their common start the text goes on, and one of them goes on with a character outside
ASCII. -/
def SplitClash (m y : Bytes) : Prop :=
  y.drop (commonPrefixLen m y) ≠ [] ∧ (NonAsciiFirst (y.drop (commonPrefixLen m y)) ∨ NonAsciiFirst (m.drop (commonPrefixLen m y)))

section
variable {g : LiteralNode → LiteralNode} {f : LiteralNode → M LiteralNode}

theorem split_outcome (hf : ∀ n, f n = .ok (g n)) {n : LiteralNode} {l : Bytes} (hn : Utf8 n.literal) (hl : Utf8 l) (hne : n.literal ≠ l) :
    Outcome (SplitClash n.literal l) (n.split (commonPrefixLen n.literal l) l >>= fun hit =>
      ltrunc l (commonPrefixLen n.literal l) >>= fun suffix => unwrap hit.node >>= fun c => c.lookupFreshlyInsertedLiteral suffix f) := by
  have hle := cpl_le n.literal l
  have hbl := cpl_boundary_left hn hl
  have hbr := cpl_boundary_right hn hl
  have hcr := @cpl_rk_ne_of n.literal l hne
  unfold SplitClash
  generalize hcpl : commonPrefixLen n.literal l = cpl at *
  let right : LiteralNode := { n with literal := n.literal.drop cpl }
  let left : LiteralNode := freshLit (l.drop cpl)
  have hal : Utf8 left.literal := (boundary_split hl hbr).2
  have har : Utf8 right.literal := (boundary_split hn hbl).2
  have e6 : left = { literal := l.drop cpl, hasValue := true, pattern := none, node := none } := rfl
  have e7 : right = { literal := n.literal.drop cpl, hasValue := n.hasValue, pattern := n.pattern, node := n.node } := rfl
  have e1 : checkedSub l.length cpl = .ok (l.length - cpl) := by simp [checkedSub]; omega
  have e2 : rtrunc l (l.length - cpl) = .ok (l.take cpl) := by
    have : l.length - (l.length - cpl) = cpl := by omega
    unfold rtrunc
    rw [if_neg (by omega), this]
    exact sliceTo_ok hbr
  have e3 : ltrunc l cpl = .ok (l.drop cpl) := sliceFrom_ok hbr
  have e4 : ltrunc n.literal cpl = .ok (n.literal.drop cpl) := sliceFrom_ok hbl
  have e5 : SortedVec.push LiteralNode.cmp [] left = .ok [left] := rfl
  have esplit : n.split cpl l = (SortedVec.push LiteralNode.cmp [left] right >>= fun lits =>
      .ok { literal := l.take cpl, hasValue := false, pattern := none, node := some ⟨lits, []⟩ }) := by
    unfold LiteralNode.split
    simp only [e1, e2, e3, e4, bind, Except.bind, pure, Except.pure, SuffixTree.addLiteralNode, SuffixTree.new, LiteralNode.new]
    rw [← e6, e5]
    simp only
    rw [← e7]
    cases SortedVec.push LiteralNode.cmp [left] right <;> rfl
  have epush : SortedVec.push LiteralNode.cmp [left] right = (LiteralNode.cmp right left >>= fun o =>
      .ok (if o = .lt then [right, left] else [left, right])) := by
    simp only [SortedVec.push, stableSort, List.cons_append, List.nil_append, List.foldlM_cons, List.foldlM_nil, insertStable, bind, Except.bind]
    cases LiteralNode.cmp right left with
    | error e => rfl
    | ok o => cases o <;> rfl
  have hcmp : LiteralNode.cmp right left = right.cmpStr left.literal := rfl
  have ho := cmpStr_outcome (n := right) (x := left.literal) har hal
  change Outcome (left.literal ≠ [] ∧ (NonAsciiFirst left.literal ∨ NonAsciiFirst right.literal)) _
  by_cases hpc : PairClash right.literal left.literal
  · refine outcome_error ⟨hpc.2.1, hpc.2.2.symm⟩ ?_
    rw [esplit, epush, hcmp, ho.1 hpc]
    rfl
  · have hcmp' := ho.2 hpc
    have hrk : rk right.literal ≠ rk left.literal := hcr fun h1 h2 => by
      have h3 : FirstAscii right.literal := (firstAscii_or har).resolve_right fun h3 => hpc ⟨h1, h2, .inl h3⟩
      exact firstAscii_boundary h3 h1
    obtain ⟨lits, hp, hlits⟩ : ∃ lits, SortedVec.push LiteralNode.cmp [left] right = .ok lits ∧
        ((rk left.literal < rk right.literal ∧ lits = [left, right]) ∨ (rk right.literal < rk left.literal ∧ lits = [right, left])) := by
      rw [epush, hcmp, hcmp']
      rcases Nat.lt_or_gt_of_ne hrk with h1 | h1
      · rw [compare_nat_lt h1]
        exact ⟨[right, left], rfl, .inr ⟨h1, rfl⟩⟩
      · rw [compare_nat_gt h1]
        exact ⟨[left, right], rfl, .inl ⟨h1, rfl⟩⟩
    have hmem : ∀ k, k ∈ lits ↔ k = left ∨ k = right := by
      intro k
      rcases hlits with ⟨_, rfl⟩ | ⟨_, rfl⟩
      · simp
      · simp [or_comm]
    have hs : SortedLits Utf8 lits := by
      refine ⟨?_, ?_⟩
      · rcases hlits with ⟨h1, rfl⟩ | ⟨h1, rfl⟩ <;> simpa using h1
      · intro k hk
        rcases (hmem k).mp hk with rfl | rfl <;> assumption
    have hsep : Sep lits := by
      intro m hm hf k hk h0
      have hm0 : m.literal ≠ [] := by rintro h; rw [h] at hf; obtain ⟨_, _, h, _⟩ := hf; simp at h
      rcases (hmem m).mp hm with rfl | rfl <;> rcases (hmem k).mp hk with rfl | rfl
      · rfl
      · exact absurd ⟨h0, hm0, .inr hf⟩ hpc
      · exact absurd ⟨hm0, h0, .inl hf⟩ hpc
      · rfl
    have hrun : ∀ c, (n.split cpl l >>= fun hit => ltrunc l cpl >>= fun suffix => unwrap hit.node >>= fun c =>
        c.lookupFreshlyInsertedLiteral suffix f) = c ↔ SuffixTree.lookupFreshlyInsertedLiteral ⟨lits, []⟩ left.literal f = c := by
      intro c
      rw [esplit, hp]
      simp only [bind, Except.bind, e3, unwrap]
      exact Iff.rfl
    have hclash : Clash ⟨lits, []⟩ left.literal ↔ left.literal ≠ [] ∧ (NonAsciiFirst left.literal ∨ NonAsciiFirst right.literal) := by
      constructor
      · rintro ⟨h1, _, h2 | ⟨k, hk, h2⟩⟩
        · exact ⟨h1, .inl h2⟩
        · rcases (hmem k).mp hk with rfl | rfl
          · exact ⟨h1, .inl h2⟩
          · exact ⟨h1, .inr h2⟩
      · rintro ⟨h1, h2⟩
        refine ⟨h1, ⟨left, (hmem left).mpr (.inl rfl), h1⟩, ?_⟩
        rcases h2 with h2 | h2
        · exact .inl h2
        · exact .inr ⟨right, (hmem right).mpr (.inr rfl), h2⟩
    refine outcome_congr hclash ?_
    by_cases hc : Clash ⟨lits, []⟩ left.literal
    · refine outcome_error hc ((hrun _).mpr ?_)
      unfold SuffixTree.lookupFreshlyInsertedLiteral SuffixTree.lookupLiteralMut
      rw [search_error ((bsearch_outcome (c := ⟨lits, []⟩) hs hsep hal).1 hc)]
    · rcases bsearch_cases_utf8 (c := ⟨lits, []⟩) hs hsep hal hc with ⟨A, k, B, ht, hk, hb⟩ | ⟨A, B, ht, hA, hB, hb⟩
      · have hkl : k = left := by
          rcases (hmem k).mp (by rw [show lits = A ++ k :: B from ht]; simp) with rfl | rfl
          · rfl
          · exact absurd hk hrk
        subst hkl
        have hse := search_of_hit (t := ⟨lits, []⟩) ht hal hal hb
        have hg2 : lits[A.length]? = some left := by rw [show lits = A ++ left :: B from ht]; simp
        simp only [show left.node = none from rfl, Option.isNone_none, if_true] at hse
        refine outcome_ok hc (r := ⟨lits.set A.length (g left), []⟩) ((hrun _).mpr ?_)
        unfold SuffixTree.lookupFreshlyInsertedLiteral SuffixTree.lookupLiteralMut
        rw [hse]
        simp only [SuffixTree.updateLiteral, hg2, unwrap, bind, Except.bind, hf, pure, Except.pure]
      · exfalso
        have hm := (hmem left).mpr (.inl rfl)
        rw [show lits = A ++ B from ht, List.mem_append] at hm
        rcases hm with h | h
        · exact absurd (hA left h) (Nat.lt_irrefl _)
        · exact absurd (hB left h) (Nat.lt_irrefl _)

theorem tail_outcome (hf : ∀ n, f n = .ok (g n)) {t : SuffixTree} (hs : SortedLits Utf8 t.literalChildren) (hsep : Sep t.literalChildren)
    {l : Bytes} (hl : Utf8 l) (hc : ¬Clash t l) (hne : ∀ n ∈ t.literalChildren, n.literal ≠ l) :
    Outcome (∃ n ∈ t.literalChildren, rk n.literal = rk l ∧ SplitClash n.literal l) (t.insertLiteralTail l f) := by
  rcases bsearch_cases_utf8 hs hsep hl hc with ⟨A, n, B, ht, hr, hb⟩ | ⟨A, B, ht, hA, hB, hb⟩
  · have hm : n ∈ t.literalChildren := by rw [ht]; simp
    have hn := hs.label n hm
    have hg : t.literalChildren[A.length]? = some n := by rw [ht]; simp
    have hne0 : n.literal ≠ [] := split_ne_nil hr (hne n hm)
    have hl0 : l ≠ [] := by
      intro h; rw [h] at hr; exact hne0 (rk_eq_nil.mp hr)
    have hpos : 0 < commonPrefixLen n.literal l := by
      have h1 : FirstAscii n.literal := (firstAscii_or hn).resolve_right fun h1 => hc ⟨hl0, ⟨n, hm, hne0⟩, .inr ⟨n, hm, h1⟩⟩
      have hbd := firstAscii_boundary h1 hne0
      cases hnl : n.literal with
      | nil => exact absurd hnl hne0
      | cons x a =>
        cases hll : l with
        | nil => exact absurd hll hl0
        | cons y b =>
          rw [hnl, hll] at hr
          rw [hnl] at hbd
          have hxy : x = y := by simpa [rk, UInt8.toNat_inj] using hr
          have : 1 ≤ commonPrefixLen (x :: a) (y :: b) := by
            apply cpl_max hbd (by simp)
            simp [hxy]
          omega
    have hcp : hasCommonPrefix n.literal l = some (commonPrefixLen n.literal l) := by
      unfold hasCommonPrefix; simp [hpos]
    have hiff : SplitClash n.literal l ↔ ∃ n ∈ t.literalChildren, rk n.literal = rk l ∧ SplitClash n.literal l := by
      constructor
      · intro h; exact ⟨n, hm, hr, h⟩
      · rintro ⟨k, hk, hkr, h⟩
        have h1 := hit_of_mem hs hm hr
        have h2 := hit_of_mem hs hk hkr
        rw [h1] at h2
        simp at h2
        rw [h2]; exact h
    have hso := split_outcome hf hn hl (hne n hm)
    refine outcome_congr hiff ?_
    unfold SuffixTree.insertLiteralTail
    rw [hb]
    simp only [bind, Except.bind, hg, unwrap, hcp] at hso ⊢
    refine ⟨fun h => ?_, fun h => ?_⟩
    · have := hso.1 h
      generalize n.split (commonPrefixLen n.literal l) l = a1 at this ⊢
      cases a1 with
      | error e => simpa using this
      | ok hit =>
        simp only at this ⊢
        generalize ltrunc l (commonPrefixLen n.literal l) = a2 at this ⊢
        cases a2 with
        | error e => simpa using this
        | ok suf =>
          simp only at this ⊢
          cases hhn : hit.node with
          | none => rw [hhn] at this; simp at this
          | some d =>
            rw [hhn] at this
            simp only at this ⊢
            rw [this]
    · obtain ⟨r, this⟩ := hso.2 h
      generalize n.split (commonPrefixLen n.literal l) l = a1 at this ⊢
      cases a1 with
      | error e => simp at this
      | ok hit =>
        simp only at this ⊢
        generalize ltrunc l (commonPrefixLen n.literal l) = a2 at this ⊢
        cases a2 with
        | error e => simp at this
        | ok suf =>
          simp only at this ⊢
          cases hhn : hit.node with
          | none => rw [hhn] at this; simp at this
          | some d =>
            rw [hhn] at this
            simp only at this ⊢
            rw [this]
            exact ⟨_, rfl⟩
  · have hno : ¬∃ n ∈ t.literalChildren, rk n.literal = rk l ∧ SplitClash n.literal l := by
      rintro ⟨n, hn, hr, _⟩
      rw [ht, List.mem_append] at hn
      rcases hn with hn | hn
      · have := hA n hn; omega
      · have := hB n hn; omega
    have e : (freshLit l) = { literal := l, hasValue := true, pattern := none, node := none } := rfl
    have hcmp : ∀ a ∈ t.literalChildren, ∃ o, LiteralNode.cmp (freshLit l) a = .ok o := by
      intro a ha
      exact ⟨_, (cmpStr_outcome (n := freshLit l) hl (hs.label a ha)).2 fun h => not_clash_pair hc ha (pairClash_symm h)⟩
    obtain ⟨r, hp⟩ := push_total (cmp := LiteralNode.cmp) (v := t.literalChildren) (x := freshLit l)
      ((sep_pairwise hs hsep).imp_of_mem fun {a b} ha hb h =>
        ⟨_, (cmpStr_outcome (n := b) (hs.label b hb) (hs.label a ha)).2 fun h' => h (pairClash_symm h')⟩) hcmp
    have hr : r = A ++ freshLit l :: B := push_lits_partial (by rw [← ht]; exact hs) (n := freshLit l) hA hB (by rw [← ht]; exact hp)
    refine outcome_ok hno (r := { t with literalChildren := A ++ g (freshLit l) :: B }) ?_
    unfold SuffixTree.insertLiteralTail
    rw [hb]
    simp only [bind, Except.bind, SuffixTree.addLiteralNode, LiteralNode.new, ← e, hp, hr, pure, Except.pure, SuffixTree.updateLiteral]
    simp [unwrap, hf]

/-- Adding the literal `l` runs into a comparison that panics. -/
def InsClash (t : SuffixTree) (l : Bytes) : Prop :=
  Troubled t l ∨ ∃ c y, walk t l = .stuck c y ∧ ∃ n ∈ c.literalChildren, rk n.literal = rk y ∧ SplitClash n.literal y

theorem walk_idem {t : SuffixTree} (hi : Inv P t) {x : Bytes} {c : SuffixTree} {y : Bytes} (h : walk t x = .stuck c y) : walk c y = .stuck c y := by
  induction hi generalizing x with
  | mk t lits inner child parsers pchild ih =>
    have here : walk t x = .stuck t x → walk c y = .stuck c y := by
      intro h1
      have h3 := h
      rw [h1] at h3; simp at h3
      rw [← h3.1, ← h3.2]; exact h1
    cases hh : hit? t.literalChildren x with
    | none => exact here (walk_none hh)
    | some n =>
      have hw := walk_some hh
      cases hn : n.node with
      | none =>
        simp only [hn] at hw
        split at hw
        · rw [hw] at h; simp at h
        · exact here hw
      | some d =>
        simp only [hn] at hw
        split at hw
        · exact here hw
        · split at hw
          · rw [hw] at h; simp at h
          · rw [hw] at h
            exact ih n (hit_mem hh) d hn h

theorem stuck_ne {t : SuffixTree} (hi : Inv Utf8 t) {x : Bytes} (hx : Utf8 x) (h : walk t x = .stuck t x) : ∀ n ∈ t.literalChildren, n.literal ≠ x := by
  rintro n hn rfl
  have hw := walk_some (hit_of_mem hi.lits hn rfl)
  rw [h] at hw
  cases hd : n.node with
  | none => rw [hd] at hw; simp at hw
  | some d =>
    rw [hd] at hw
    simp only at hw
    rw [if_neg (not_not_intro (List.prefix_refl _))] at hw
    split at hw
    · simp at hw
    · have := (walk_stuck labelPred_utf8 (hi.child n hn d hd) (by simpa using utf8_nil) hw.symm).2.2.1
      have := sizeOf_lit_child hn hd
      omega

theorem treeAt_sep {t : SuffixTree} {pre : Bytes} {c : SuffixTree} (h : TreeAt t pre c) (hs : SepTree t) : SepTree c := by
  induction h with
  | here => exact hs
  | down t n c pre d hn h0 hc h ih => exact ih (hs.child n hn c hc)

/-- `insert_literal` panics exactly if `InsClash`. -/
theorem insertLiteral_outcome (hf : ∀ n, f n = .ok (g n)) {t : SuffixTree} (hi : Inv Utf8 t) (hsep : SepTree t) {l : Bytes} (hl : Utf8 l) :
    Outcome (InsClash t l) (t.insertLiteral l f) := by
  obtain ⟨h1, h2⟩ := lookupMut_outcome hi hsep hl (onOk := fun node index => node.updateLiteral index f)
    (onErr := fun node remLen => do
      let off ← checkedSub l.length remLen
      let tail ← ltrunc l off
      node.insertLiteralTail tail f) (by
      intro d pos hp
      simp only [SuffixTree.updateLiteral, List.getElem?_eq_getElem hp, unwrap, bind, Except.bind, hf, pure, Except.pure]
      exact ⟨_, rfl⟩)
  by_cases htr : Troubled t l
  · exact outcome_error (.inl htr) (h1 htr)
  · have h2 := h2 htr
    have hw := walk_spec hi l
    cases hwl : walk t l with
    | found n =>
      rw [hwl] at h2
      obtain ⟨t', h2⟩ := h2
      refine outcome_ok ?_ h2
      rintro (h | ⟨c, y, h, _⟩)
      · exact htr h
      · rw [hwl] at h; simp at h
    | stuck c y =>
      rw [hwl] at h2 hw
      obtain ⟨pre, rfl, htree, _⟩ := hw
      obtain ⟨hic, hy, _⟩ := walk_stuck labelPred_utf8 hi hl hwl
      have hc : ¬Clash c y := fun h => htr ⟨pre, c, y, rfl, htree, h⟩
      have e1 : checkedSub (pre ++ y).length y.length = .ok pre.length := by simp [checkedSub]
      have e2 : ltrunc (pre ++ y) pre.length = .ok y := by
        rw [ltrunc, sliceFrom_ok (isCharBoundary_append_right hy)]; simp
      have ho := tail_outcome hf hic.lits (treeAt_sep htree hsep).sep hy hc (stuck_ne hic hy (walk_idem hi hwl))
      have hiff : (∃ n ∈ c.literalChildren, rk n.literal = rk y ∧ SplitClash n.literal y) ↔ InsClash t (pre ++ y) := by
        constructor
        · intro h; exact .inr ⟨c, y, hwl, h⟩
        · rintro (h | ⟨c', y', h, h'⟩)
          · exact absurd h htr
          · rw [hwl] at h; simp at h
            rw [h.1, h.2]; exact h'
      refine outcome_congr hiff ?_
      simp only [e1, e2, bind, Except.bind] at h2
      refine ⟨fun h => ?_, fun h => ?_⟩
      · exact h2.1 _ (ho.1 h)
      · obtain ⟨c', hc'⟩ := ho.2 h
        exact h2.2 c' hc'

/-- A node that replaces another one without changing what its label begins with. -/
theorem sep_replace {A B : List LiteralNode} {n n' : LiteralNode} (hs : SortedLits P (A ++ n :: B)) (h : Sep (A ++ n :: B))
    (h1 : NonAsciiFirst n'.literal → NonAsciiFirst n.literal) (h2 : n'.literal ≠ [] → n.literal ≠ []) : Sep (A ++ n' :: B) := by
  have hsort := hs.sorted
  rw [List.pairwise_append, List.pairwise_cons] at hsort
  obtain ⟨_, ⟨s2, _⟩, s3⟩ := hsort
  have old : ∀ k, k ∈ A ∨ k ∈ B → k ∈ A ++ n :: B := by
    intro k hk; rw [List.mem_append, List.mem_cons]; rcases hk with hk | hk <;> simp [hk]
  have ne : ∀ k, k ∈ A ∨ k ∈ B → k.literal ≠ n.literal := by
    rintro k (hk | hk) he
    · have := s3 k hk n (by simp); rw [he] at this; omega
    · have := s2 k hk; rw [he] at this; omega
  have hn : n ∈ A ++ n :: B := by simp
  intro m hm hf k hk h0
  have cases' : ∀ k ∈ A ++ n' :: B, k = n' ∨ k ∈ A ∨ k ∈ B := by
    intro k hk; rw [List.mem_append, List.mem_cons] at hk; rcases hk with hk | rfl | hk <;> simp [*]
  rcases cases' m hm with rfl | hm' <;> rcases cases' k hk with rfl | hk'
  · rfl
  · exact absurd (h n hn (h1 hf) k (old k hk') h0) (ne k hk')
  · exact absurd (h m (old m hm') hf n hn (h2 h0)).symm (ne m hm')
  · exact h m (old m hm') hf k (old k hk') h0

theorem nonAsciiFirst_take {l : Bytes} {k : Nat} (h : NonAsciiFirst (l.take k)) : NonAsciiFirst l := by
  obtain ⟨b, t, e, hb⟩ := h
  cases l with
  | nil => simp at e
  | cons a l =>
    cases k with
    | zero => simp at e
    | succ k => simp at e; exact ⟨a, l, rfl, by rw [e.1]; exact hb⟩

/-- An insertion that does not panic keeps the children apart. -/
theorem ins_sep (hg : GoodUpd g) (hgc : ∀ n, (∀ c, n.node = some c → SepTree c) → ∀ c, (g n).node = some c → SepTree c)
    {t t' : SuffixTree} {l : Bytes} (h : Ins g t l t') (hi : Inv Utf8 t) (hs : SepTree t) (hn : ¬InsClash t l) : SepTree t' := by
  induction h with
  | miss t l A B ht hA hB =>
    have hc : ¬Clash t l := fun h => hn (.inl (troubled_iff.mpr (.inl h)))
    have cases' : ∀ k ∈ A ++ g (freshLit l) :: B, k = g (freshLit l) ∨ k ∈ t.literalChildren := by
      intro k hk; rw [List.mem_append, List.mem_cons] at hk; rw [ht, List.mem_append]; rcases hk with hk | rfl | hk <;> simp [*]
    have hfl : (g (freshLit l)).literal = l := hg.literal _
    have ne : ∀ x : Bytes, NonAsciiFirst x → x ≠ [] := by rintro x ⟨_, _, rfl, _⟩; simp
    refine .mk _ ?_ ?_
    · intro m hm hf k hk h0
      rcases cases' m hm with rfl | hm <;> rcases cases' k hk with rfl | hk
      · rfl
      · rw [hfl] at hf
        exact absurd ⟨ne l hf, ⟨k, hk, h0⟩, .inl hf⟩ hc
      · rw [hfl] at h0
        exact absurd ⟨h0, ⟨m, hm, ne _ hf⟩, .inr ⟨m, hm, hf⟩⟩ hc
      · exact hs.sep m hm hf k hk h0
    · intro k hk c hkc
      rcases cases' k hk with rfl | hk
      · exact hgc (freshLit l) (by simp [freshLit]) c hkc
      · exact hs.child k hk c hkc
  | exact t l A B n ht hl' hv =>
    have hm : n ∈ t.literalChildren := by rw [ht]; simp
    refine .mk _ ?_ ?_
    · refine sep_replace (n := n) (by rw [← ht]; exact hi.lits) (by rw [← ht]; exact hs.sep) ?_ ?_ <;> rw [hg.literal] <;> exact id
    · intro k hk c hkc
      rw [List.mem_append, List.mem_cons] at hk
      rcases hk with hk | rfl | hk
      · exact hs.child k (by rw [ht]; simp [hk]) c hkc
      · exact hgc n (hs.child n hm) c hkc
      · exact hs.child k (by rw [ht]; simp [hk]) c hkc
  | split t l A B n ht hr hsp hpos hrk =>
    have hm : n ∈ t.literalChildren := by rw [ht]; simp
    have hne : n.literal ≠ l := split_ne hsp
    have hw : walk t l = .stuck t l := by
      rw [walk_some (hit_of_mem hi.lits hm hr)]
      rcases hsp with h1 | ⟨h1, h2⟩
      · cases n.node with
        | none => simp only; rw [if_neg hne]
        | some c => simp only; rw [if_pos h1]
      · rw [h1]; simp only; rw [if_neg hne]
    have hsc : ¬SplitClash n.literal l := fun h => hn (.inr ⟨t, l, hw, n, hm, hr, h⟩)
    have htake := cpl_take n.literal l
    refine .mk _ ?_ ?_
    · refine sep_replace (n := n) (by rw [← ht]; exact hi.lits) (by rw [← ht]; exact hs.sep) ?_ ?_
      · simp only [splitNode]
        rw [← htake]
        exact nonAsciiFirst_take
      · intro _; exact split_ne_nil hr hne
    · intro k hk c hkc
      rw [List.mem_append, List.mem_cons] at hk
      rcases hk with hk | rfl | hk
      · exact hs.child k (by rw [ht]; simp [hk]) c hkc
      · simp [splitNode] at hkc
        subst hkc
        have left : (g (freshLit (l.drop (commonPrefixLen n.literal l)))).literal = l.drop (commonPrefixLen n.literal l) := hg.literal _
        refine .mk _ ?_ ?_
        · intro m hm2 hf k hk2 h0
          simp only [splitChildren_mem] at hm2 hk2
          rcases hm2 with rfl | rfl <;> rcases hk2 with rfl | rfl
          · rfl
          · rw [left] at hf
            refine absurd ⟨?_, .inl hf⟩ hsc
            obtain ⟨_, _, h, _⟩ := hf; rw [h]; simp
          · rw [left] at h0
            exact absurd ⟨h0, .inr hf⟩ hsc
          · rfl
        · intro m hm2 c hc
          simp only [splitChildren_mem] at hm2
          rcases hm2 with rfl | rfl
          · exact hgc (freshLit _) (by simp [freshLit]) c hc
          · exact hs.child n hm c hc
      · exact hs.child k (by rw [ht]; simp [hk]) c hkc
  | down t l A B n c c' ht hr hp hc hne _ ih =>
    have hm : n ∈ t.literalChildren := by rw [ht]; simp
    have h0 : n.literal ≠ [] := by
      intro h0
      rw [h0] at hr
      have hx0 : l = [] := rk_eq_nil.mp hr.symm
      cases hv : n.hasValue with
      | true => exact hne ⟨hv, by rw [h0, hx0]⟩
      | false => exact (hi.inner n hm hv).1 h0
    obtain ⟨y, rfl⟩ := hp
    simp only [List.drop_left] at ih
    have hw : walk t (n.literal ++ y) = walk c y := by
      rw [walk_some (hit_of_mem hi.lits hm hr), hc]
      simp only
      rw [if_neg (not_not_intro (List.prefix_append _ _)), if_neg (by simpa using hne), List.drop_left]
    refine .mk _ ?_ ?_
    · refine sep_replace (n := n) (by rw [← ht]; exact hi.lits) (by rw [← ht]; exact hs.sep) ?_ ?_ <;> exact id
    · intro k hk d hkd
      rw [List.mem_append, List.mem_cons] at hk
      rcases hk with hk | rfl | hk
      · exact hs.child k (by rw [ht]; simp [hk]) d hkd
      · simp at hkd
        subst hkd
        refine ih (hi.child n hm c hc) (hs.child n hm c hc) ?_
        rintro (h | ⟨d, z, h, h'⟩)
        · exact hn (.inl (troubled_iff.mpr (.inr ⟨n, hm, h0, c, y, hc, rfl, h⟩)))
        · exact hn (.inr ⟨d, z, hw.trans h, h'⟩)
      · exact hs.child k (by rw [ht]; simp [hk]) d hkd

end

theorem sepTree_new : SepTree SuffixTree.new := .mk _ (by intro m hm; simp [SuffixTree.new] at hm) (by intro n hn; simp [SuffixTree.new] at hn)

theorem sepTree_single (toks : List Token) (q : Pattern) : SepTree (single toks q) := by
  induction toks with
  | nil => exact sepTree_new
  | cons tok rest ih =>
    cases tok with
    | parser a => exact .mk _ (by intro m hm; simp [single] at hm) (by intro n hn; simp [single] at hn)
    | literal l =>
      have elits : (single (.literal l :: rest) q).literalChildren = [⟨l, true, restPat rest q, restNode rest q⟩] := rfl
      refine .mk _ ?_ ?_
      · intro m hm _ n hn _
        rw [elits] at hm hn
        simp at hm hn
        rw [hm, hn]
      · intro n hn c hc
        rw [elits] at hn
        simp at hn
        subst hn
        cases rest with
        | nil => simp [restNode] at hc
        | cons tok rest =>
          have : restNode (tok :: rest) q = some (single (tok :: rest) q) := rfl
          simp only [this] at hc
          simp at hc
          rw [← hc]; exact ih

/-- Adding a pattern runs into a comparison that panics. -/
def AddClash (t : SuffixTree) (p : Pattern) : Prop := ∃ l rest, p.pattern = .literal l :: rest ∧ InsClash t l

theorem insert_outcome (sip : Bytes → UInt64) {t : SuffixTree} (hi : Inv Utf8 t) (hs : SepTree t) {p : Pattern} (ha : LitsP Utf8 p.pattern) :
    Outcome (AddClash t p) (t.insert sip p) := by
  cases hp : p.pattern with
  | nil =>
    refine outcome_ok ?_ (insert_empty sip t p hp)
    rintro ⟨l, rest, h, _⟩; rw [hp] at h; simp at h
  | cons tok rest =>
    rw [hp] at ha
    cases tok with
    | literal l =>
      rw [insert_lit sip t p l rest hp]
      refine outcome_congr ?_ (insertLiteral_outcome (fun _ => rfl) hi hs (ha l (by simp)))
      constructor
      · intro h; exact ⟨l, rest, hp, h⟩
      · rintro ⟨l', rest', h, h'⟩
        rw [hp] at h; simp at h
        rw [h.1]; exact h'
    | parser a =>
      refine outcome_ok ?_ (r := _) (by rw [insert_par sip t p a rest hp, insertParser_run])
      rintro ⟨l, rest, h, _⟩; rw [hp] at h; simp at h

theorem updLit_sep (rest : List Token) (q : Pattern) (n : LiteralNode) (h : ∀ c, n.node = some c → SepTree c) :
    ∀ c, (updLit rest q n).node = some c → SepTree c := by
  unfold updLit
  split
  · exact h
  · intro c hc
    simp [setChild] at hc
    subst hc
    exact sepTree_single rest q

theorem step_sep {sip : Bytes → UInt64} {t t' : SuffixTree} {p : Pattern} (h : Step sip t p t') (hi : Inv Utf8 t) (hs : SepTree t)
    (hn : ¬AddClash t p) : SepTree t' := by
  cases h with
  | empty hp => exact hs
  | lit l rest hp _ h => exact ins_sep (goodUpd_updLit _ _) (updLit_sep _ _) h hi hs fun h' => hn ⟨l, rest, hp, h'⟩
  | par a rest hp => exact .mk _ hs.sep hs.child

end Verif
