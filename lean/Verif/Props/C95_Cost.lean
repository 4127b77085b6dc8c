import Verif.Spec.Samples
import Verif.Model.Cost
import Verif.Props.C85_Calls
/-! C95: how many literals are compared with the text. -/
namespace Verif
open Spec

/-! ### Binary search -/

/-- A search among fewer than `2 ^ k` elements makes at most `k` comparisons. -/
theorem probes_le {α : Type} (f : α → M Ordering) (base : Nat) (s : List α) (k : Nat) (h : s.length < 2 ^ k) : (binarySearchLoopC f base s).2 ≤ k := by
  induction k generalizing base s with
  | zero =>
    have : s = [] := List.length_eq_zero_iff.mp (by omega)
    subst this
    unfold binarySearchLoopC; split <;> simp_all
  | succ k ih =>
    rw [Nat.pow_succ] at h
    unfold binarySearchLoopC
    split
    · simp
    · rename_i x tail hd
      have hl := congrArg List.length hd
      simp at hl
      split
      · simp
      · have := ih (base + s.length / 2 + 1) tail (by omega)
        simpa using this
      · have := ih base (s.take (s.length / 2)) (by simp; omega)
        simpa using this
      · simp

/-! ### The trie -/

theorem searchC_fst (t : SuffixTree) (x : Bytes) : (t.searchC x).1 = t.search x := by
  have h1 := SuffixTable.binarySearchLoopC_fst (fun p : LiteralNode => p.cmpStr x) 0 t.literalChildren
  unfold SuffixTree.searchC SuffixTree.search SortedVec.binarySearchBy binarySearchBy
  rw [← h1]
  rcases binarySearchLoopC (fun p : LiteralNode => p.cmpStr x) 0 t.literalChildren with ⟨r, c⟩
  rcases r with e | r
  · rfl
  · cases r <;> rfl

theorem lookupC_fst (t : SuffixTree) (x : Bytes) : (t.lookupLiteralC x).1 = t.lookupLiteral x := by
  have hs := searchC_fst
  fun_induction SuffixTree.lookupLiteralC t x with
  | case1 t l e c h => have := hs t l; rw [h] at this; unfold SuffixTree.lookupLiteral; rw [← this]
  | case2 t l e c h => have := hs t l; rw [h] at this; unfold SuffixTree.lookupLiteral; rw [← this]
  | case3 t l e h => have := hs t l; rw [h] at this; unfold SuffixTree.lookupLiteral; rw [← this]
  | case4 t l pos tr c h h1 =>
    have := hs t l; rw [h] at this; unfold SuffixTree.lookupLiteral; rw [← this]
    simp only []
    split <;> simp_all
  | case5 t l pos tr c h n h1 h2 =>
    have := hs t l; rw [h] at this; unfold SuffixTree.lookupLiteral; rw [← this]
    simp only []
    split <;> simp_all
    split <;> simp_all
  | case6 t l pos tr c h n h1 t' h2 r c' e ih =>
    rw [e] at ih
    have := hs t l; rw [h] at this; unfold SuffixTree.lookupLiteral; rw [← this]
    simp only []
    split <;> simp_all
    split <;> simp_all

theorem increasing_length {l : List Nat} {k : Nat} (hp : l.Pairwise (· < ·)) (h : ∀ n ∈ l, n < k) : l.length ≤ k := by
  induction l generalizing k with
  | nil => simp
  | cons a l ih =>
    rw [List.pairwise_cons] at hp
    -- shift the tail: it lies in `(a, k)`
    have : ∀ (l : List Nat) (a k : Nat), l.Pairwise (· < ·) → (∀ n ∈ l, a < n ∧ n < k) → a < k → a + l.length < k := by
      intro l
      induction l with
      | nil => intro a k _ _ h; simpa using h
      | cons b l ih =>
        intro a k hp h _
        rw [List.pairwise_cons] at hp
        have hb := h b (by simp)
        have := ih b k hp.2 (fun n hn => ⟨hp.1 n hn, (h n (by simp [hn])).2⟩) hb.2
        simp; omega
    have := this l a k hp.2 (fun n hn => ⟨hp.1 n hn, h n (by simp [hn])⟩) (h a (by simp))
    simp; omega

/-- The place of a first byte among the bytes a character can begin with. -/
def slot (n : Nat) : Nat := if n ≤ 128 then n else n - 64

/-- A node of the trie has fewer than 256 literal children: their first bytes differ and none is a continuation byte. -/
theorem children_few {l : List LiteralNode} (h : SortedLits Utf8 l) : l.length < 256 := by
  have hb : ∀ n ∈ l, rk n.literal ≤ 128 ∨ (193 ≤ rk n.literal ∧ rk n.literal ≤ 256) := by
    intro n hn
    have hu := h.label n hn
    cases hl : n.literal with
    | nil => simp [rk]
    | cons b x =>
      rw [hl] at hu
      have h1 := utf8_head hu
      have h2 := b.toNat_lt
      simp [isCont] at h1
      simp [rk]; omega
  have h1 : (l.map fun n => slot (rk n.literal)).Pairwise (· < ·) := by
    rw [List.pairwise_map]
    refine h.sorted.imp_of_mem ?_
    intro a b ha hb' hab
    have h2 := hb a ha
    have h3 := hb b hb'
    unfold slot
    split <;> split <;> omega
  have h2 := increasing_length (k := 193) h1 (by
    intro n hn
    simp at hn
    obtain ⟨m, hm, rfl⟩ := hn
    have := hb m hm
    unfold slot
    split <;> omega)
  simp at h2; omega

theorem searchC_cost {t : SuffixTree} (h : SortedLits Utf8 t.literalChildren) (x : Bytes) : (t.searchC x).2 ≤ 9 := by
  have h1 := probes_le (fun p : LiteralNode => p.cmpStr x) 0 t.literalChildren 8 (children_few h)
  unfold SuffixTree.searchC
  split <;> simp_all <;> omega

theorem lookupC_cost {t : SuffixTree} (hi : Inv Utf8 t) {x : Bytes} (hx : Utf8 x) : (t.lookupLiteralC x).2 ≤ 9 * (x.length + 1) := by
  fun_induction SuffixTree.lookupLiteralC t x with
  | case1 t l e c h => have := searchC_cost hi.lits l; rw [h] at this; simp at this ⊢; omega
  | case2 t l e c h => have := searchC_cost hi.lits l; rw [h] at this; simp at this ⊢; omega
  | case3 t l e h => have := searchC_cost hi.lits l; rw [h] at this; simp at this ⊢; omega
  | case4 t l pos tr c h h1 => have := searchC_cost hi.lits l; rw [h] at this; simp at this ⊢; omega
  | case5 t l pos tr c h n h1 h2 => have := searchC_cost hi.lits l; rw [h] at this; simp at this ⊢; omega
  | case6 t l pos tr c h n h1 t' h2 r c' e ih =>
    have hc := searchC_cost hi.lits l
    have hs := searchC_fst t l
    rw [h] at hc hs
    simp at hc hs
    have hm := List.mem_of_getElem? h1
    rcases search_partial hi.lits hx hs.symm with ⟨A, m, B, ht, hrk, hr⟩ | ⟨A, B, _, _, _, hr⟩
    · have hg : t.literalChildren[A.length]? = some m := by rw [ht]; simp
      split at hr
      · split at hr <;> simp at hr
      · split at hr
        · simp at hr
        · rename_i hp
          simp at hp
          split at hr
          · simp at hr
          · rename_i hv
            simp at hr
            obtain ⟨rfl, rfl⟩ := hr
            rw [hg] at h1
            simp at h1
            subst h1
            have hne : m.literal ≠ [] := by
              intro h0
              cases hb : m.hasValue with
              | false => exact (hi.inner m hm hb).1 h0
              | true =>
                rw [h0] at hrk
                have hl : l = [] := rk_eq_nil.mp hrk.symm
                simp [hb, h0, hl] at hv
            have hpos := List.length_pos_iff.mpr hne
            have hle := hp.length_le
            have hut : Utf8 (l.drop m.literal.length) := by
              obtain ⟨y, rfl⟩ := hp
              simpa using utf8_cancel (hi.lits.label m hm) hx
            have := ih (hi.child m hm _ h2) hut
            rw [e] at this
            simp at this ⊢; omega
    · simp at hr

theorem lookup_inv {t : SuffixTree} (hi : Inv Utf8 t) {l : Bytes} {node : SuffixTree} {n : Nat} (h : t.lookupLiteral l = .ok (.err node n)) :
    Inv Utf8 node := by
  fun_induction SuffixTree.lookupLiteral t l with
  | case1 => simp at h
  | case2 => simp at h
  | case3 t l hs => simp at h; rw [← h.1]; exact hi
  | case4 => simp at h
  | case5 => simp at h
  | case6 t l pos tr hs m hm c hc ih => exact ih (hi.child m (List.mem_of_getElem? hm) c hc) h

/-- The counted run does what the matcher does, with at most `k` comparisons. -/
structure Counted (r : M (Option MatchResult) × Nat) (m : M (Option MatchResult)) (k : Nat) : Prop where
  same : r.1 = m
  cost : r.2 ≤ k

theorem ltrunc_length {text x : Bytes} {n : Nat} (h : ltrunc text n = .ok x) : x.length ≤ text.length := (ltrunc_suffix h).length_le

theorem ltrunc_utf8 {text x : Bytes} {n : Nat} (hu : Utf8 text) (h : ltrunc text n = .ok x) : Utf8 x := by
  unfold ltrunc at h
  obtain ⟨h1, h2⟩ := sliceFrom_eq_ok h
  rw [h2]
  exact (boundary_split hu h1).2

theorem counted (n : Nat) :
    (∀ t : SuffixTree, 2 * sizeOf t < n → Inv Utf8 t → ∀ text, Utf8 text → ∀ k, text.length < k →
      Counted (t.parseC text) (t.parse text) (9 * k * (1 + t.allParsers.length))) ∧
    (∀ ps : List ParserNode, 2 * sizeOf ps < n → (∀ p ∈ ps, ∀ c, p.node = some c → Inv Utf8 c) → ∀ text, Utf8 text → ∀ k, text.length < k →
      Counted (parseWithParsersC ps text) (parseWithParsers ps text) (9 * k * (parParsers ps).length)) ∧
    (∀ p : ParserNode, 2 * sizeOf p < n → (∀ c, p.node = some c → Inv Utf8 c) → ∀ text, Utf8 text → ∀ k, text.length < k →
      Counted (p.parseC text) (p.parse text) (9 * k * p.allParsers.length)) := by
  induction n with
  | zero => exact ⟨fun _ h => absurd h (by omega), fun _ h => absurd h (by omega), fun _ h => absurd h (by omega)⟩
  | succ n ih =>
    obtain ⟨ih1, ih2, ih3⟩ := ih
    refine ⟨?_, ?_, ?_⟩
    · intro t ht hi text hu k hk
      have hcost := lookupC_cost hi hu
      have hfst := lookupC_fst t text
      have hmul : 9 * (text.length + 1) ≤ 9 * k := Nat.mul_le_mul_left 9 hk
      have hone : ∀ j, 9 * k * (1 + j) = 9 * k + 9 * k * j := fun j => by rw [Nat.mul_add]; simp
      rcases hlc : t.lookupLiteralC text with ⟨m, c⟩
      rw [hlc] at hcost hfst
      simp only [] at hcost hfst
      have nil : ∀ m, Counted (m, c) m (9 * k * (1 + t.allParsers.length)) := fun m => ⟨rfl, by rw [hone]; simp only []; omega⟩
      cases hl : t.lookupLiteral text with
      | error e =>
        rw [hl] at hfst; subst hfst
        have h1 : t.parseC text = (.error e, c) := by unfold SuffixTree.parseC; split <;> simp_all
        have h2 : t.parse text = .error e := by unfold SuffixTree.parse; split <;> simp_all
        rw [h1, h2]; exact nil _
      | ok r =>
        rw [hl] at hfst; subst hfst
        cases r with
        | ok node pos =>
          cases hc : node.literalChildren[pos]? with
          | none =>
            have h1 : t.parseC text = (.error .unwrap, c) := by unfold SuffixTree.parseC; split <;> simp_all
            have h2 : t.parse text = .error .unwrap := by unfold SuffixTree.parse; split <;> simp_all
            rw [h1, h2]; exact nil _
          | some child =>
            have h1 : t.parseC text = (.ok (SuffixTree.createMatchResultIfChildIsLeaf child), c) := by
              unfold SuffixTree.parseC; split <;> simp_all
            have h2 : t.parse text = .ok (SuffixTree.createMatchResultIfChildIsLeaf child) := by unfold SuffixTree.parse; split <;> simp_all
            rw [h1, h2]; exact nil _
        | err node rem =>
          have h1 : t.parseC text = match checkedSub text.length rem with
              | .error e => (.error e, c)
              | .ok off => match ltrunc text off with
                | .error e => (.error e, c)
                | .ok text => ((parseWithParsersC node.parserChildren text).1, c + (parseWithParsersC node.parserChildren text).2) := by
            conv => lhs; unfold SuffixTree.parseC
            split <;> simp_all <;> rfl
          have h2 : t.parse text = match checkedSub text.length rem with
              | .error e => .error e
              | .ok off => match ltrunc text off with
                | .error e => .error e
                | .ok text => parseWithParsers node.parserChildren text := by
            conv => lhs; unfold SuffixTree.parse
            split <;> simp_all <;> rfl
          rw [h1, h2]
          split
          · exact nil _
          · rename_i off hoff
            cases hx : ltrunc text off with
            | error e => simp only []; exact nil _
            | ok x =>
              simp only []
              have h3 := SuffixTree.lookupLiteral_err_size hl
              have h4 := SuffixTree.sizeOf_parserChildren node
              have hin : Inv Utf8 node := lookup_inv hi hl
              have h5 := ih2 node.parserChildren (by omega) hin.pchild x (ltrunc_utf8 hu hx) k (by have := ltrunc_length hx; omega)
              refine ⟨h5.same, ?_⟩
              have h6 := lookup_parsers (fun _ => true) hl
              simp at h6
              have h7 := h5.cost
              have h8 : 9 * k * (parParsers node.parserChildren).length ≤ 9 * k * t.allParsers.length := Nat.mul_le_mul_left _ h6
              rw [hone]; simp only []; omega
    · intro ps hps hin text hu k hk
      unfold parseWithParsersC parseWithParsers
      cases ps with
      | nil => exact ⟨rfl, by simp⟩
      | cons i rest =>
        simp at hps
        have hi := ih3 i (by omega) (hin i (by simp)) text hu k hk
        have hr := ih2 rest (by omega) (fun p hp => hin p (by simp [hp])) text hu k hk
        simp only [parParsers]
        rcases hT : i.parseC text with ⟨m, c⟩
        rw [hT] at hi
        rw [← hi.same]
        have h1 := hi.cost
        have h2 := hr.cost
        have h3 : 9 * k * (i.allParsers ++ parParsers rest).length = 9 * k * i.allParsers.length + 9 * k * (parParsers rest).length := by
          rw [List.length_append, Nat.mul_add]
        rw [h3]
        simp only [] at h1 h2 ⊢
        match m with
        | .error e => exact ⟨rfl, by simp only []; omega⟩
        | .ok (some r) => exact ⟨rfl, by simp only []; omega⟩
        | .ok none => exact ⟨hr.same, by simp only []; omega⟩
    · intro p hp hin text hu k hk
      have one : ∀ m, Counted (m, 0) m (9 * k * p.allParsers.length) := fun m => ⟨rfl, by simp⟩
      cases hv : p.parser.parse text with
      | error e => unfold ParserNode.parseC ParserNode.parse; simp only [hv]; exact one _
      | ok r =>
        cases r with
        | none => unfold ParserNode.parseC ParserNode.parse; simp only [hv]; exact one _
        | some value =>
          cases hx : ltrunc text value.length with
          | error e => unfold ParserNode.parseC ParserNode.parse; simp only [hv, hx]; exact one _
          | ok x =>
            cases hn : p.node with
            | none =>
              have h1 : p.parseC text = (p.pushLastKvpair x value, 0) := by
                unfold ParserNode.parseC; simp only [hv, hx]; split <;> simp_all
              have h2 : p.parse text = p.pushLastKvpair x value := by
                unfold ParserNode.parse; simp only [hv, hx]; split <;> simp_all
              rw [h1, h2]; exact one _
            | some node =>
              have h1 : p.parseC text = parseThenPushKvpairC node x p.parser value := by
                unfold ParserNode.parseC; simp only [hv, hx]; split <;> simp_all
              have h2 : p.parse text = parseThenPushKvpair node x p.parser value := by
                unfold ParserNode.parse; simp only [hv, hx]; split <;> simp_all
              have e2 : sizeOf p = 1 + sizeOf p.parser + sizeOf p.pattern + sizeOf p.node := by cases p; simp
              rw [hn] at e2; simp at e2
              have h3 := ih1 node (by omega) (hin node hn) x (ltrunc_utf8 hu hx) k (by have := ltrunc_length hx; omega)
              rw [h1, h2, par_parsers, hn, optParsers]
              rw [List.length_cons, Nat.add_comm _ 1]
              unfold parseThenPushKvpairC parseThenPushKvpair
              rw [← h3.same]
              rcases hT : node.parseC x with ⟨m, c⟩
              rw [hT] at h3
              have h5 := h3.cost
              match m with
              | .error e => exact ⟨rfl, h5⟩
              | .ok (some r) => exact ⟨rfl, h5⟩
              | .ok none => exact ⟨rfl, h5⟩

/-- C95: parsing a text with the trie makes at most 9·(length of the text + 1) comparisons of a literal with the text for the whole text and for each
parser of the patterns, however many literals there are. -/
theorem C95_trie (sip : Bytes → UInt64) (ps : List Pattern) (hu : ∀ p ∈ ps, Utf8Lits p) (t : SuffixTree) (h : SuffixTree.build sip ps = .ok t)
    (text : Bytes) (hx : Utf8 text) :
    ∃ n, t.parseC text = (t.parse text, n) ∧ n ≤ 9 * (text.length + 1) * (1 + (ps.flatMap fun p => tokenParsers p.pattern).length) := by
  have hi : Inv Utf8 t := (build_induct (sip := sip) (fun _ _ => True) trivial (fun _ _ _ _ _ _ _ _ => trivial) hu h).1
  have h1 := (counted (2 * sizeOf t + 1)).1 t (by omega) hi text hx (text.length + 1) (by omega)
  refine ⟨(t.parseC text).2, by rw [← h1.same], Nat.le_trans h1.cost (Nat.mul_le_mul_left _ ?_)⟩
  have := build_parsers (fun _ => true) hu h
  simpa using this

/-- C95: for patterns without parsers the bound depends on the text alone. -/
theorem C95_trie_literals (sip : Bytes → UInt64) (ps : List Pattern) (hu : ∀ p ∈ ps, Utf8Lits p) (hl : ∀ p ∈ ps, ∀ a, Token.parser a ∉ p.pattern)
    (t : SuffixTree) (h : SuffixTree.build sip ps = .ok t) (text : Bytes) (hx : Utf8 text) :
    ∃ n, t.parseC text = (t.parse text, n) ∧ n ≤ 9 * (text.length + 1) := by
  obtain ⟨n, h1, h2⟩ := C95_trie sip ps hu t h text hx
  refine ⟨n, h1, ?_⟩
  have : (ps.flatMap fun p => tokenParsers p.pattern) = [] := by
    rw [List.flatMap_eq_nil_iff]
    intro p hp
    unfold tokenParsers
    rw [List.filterMap_eq_nil_iff]
    intro a ha
    cases a with
    | literal l => rfl
    | parser a => exact absurd ha (hl p hp a)
  rw [this] at h2
  simpa using h2

/-! ### The suffix array -/

theorem lcpC_cost (t : SuffixTable) (x : Bytes) {k : Nat} (h : t.literalEntries.length < 2 ^ k) : (t.longestCommonPrefixC x).2 ≤ k + 2 := by
  have h1 := probes_le (fun e : LiteralE => .ok (cmpBytes e.literal x)) 0 t.literalEntries k h
  have h2 : ∀ pos, (t.lcpAroundPosC x pos).2 ≤ 2 := by
    intro pos
    unfold SuffixTable.lcpAroundPosC SuffixTable.lcpBetweenConsecutiveC
    split
    · simp
    · simp only []
      split
      · simp
      · split <;> simp
  unfold SuffixTable.longestCommonPrefixC
  rcases hb : binarySearchLoopC (fun e : LiteralE => .ok (cmpBytes e.literal x)) 0 t.literalEntries with ⟨r, c⟩
  rw [hb] at h1
  rcases r with e | r
  · simp at h1 ⊢; omega
  · cases r with
    | ok pos => simp at h1 ⊢; omega
    | err pos => have := h2 pos; simp at h1 ⊢; omega

/-- With one entry there is one probe and no neighbour to compare. -/
theorem lcpC_single (l : LiteralE) (ps : List ParserE) (x : Bytes) : ((⟨[l], ps⟩ : SuffixTable).longestCommonPrefixC x).2 ≤ 1 := by
  have h1 := probes_le (fun e : LiteralE => .ok (cmpBytes e.literal x)) 0 [l] 1 (by simp)
  have h2 : ∀ pos, ((⟨[l], ps⟩ : SuffixTable).lcpAroundPosC x pos).2 = 0 := by
    intro pos
    unfold SuffixTable.lcpAroundPosC SuffixTable.lcpBetweenConsecutiveC
    split
    · simp
    · simp only [List.getElem?_cons_succ, List.getElem?_nil]
      split <;> rfl
  unfold SuffixTable.longestCommonPrefixC
  rcases hb : binarySearchLoopC (fun e : LiteralE => .ok (cmpBytes e.literal x)) 0 [l] with ⟨r, c⟩
  rw [hb] at h1
  rcases r with e | r
  · simpa using h1
  · cases r with
    | ok pos => simpa using h1
    | err pos => have := h2 pos; simp [this] at h1 ⊢; exact h1

theorem lcpC_nil (ps : List ParserE) (x : Bytes) : ((⟨[], ps⟩ : SuffixTable).longestCommonPrefixC x) = (.ok none, 0) := by
  have h : binarySearchLoopC (fun e : LiteralE => .ok (cmpBytes e.literal x)) 0 [] = (.ok (.err 0), 0) := by
    unfold binarySearchLoopC; split <;> simp_all
  unfold SuffixTable.longestCommonPrefixC
  simp [h, SuffixTable.lcpAroundPosC]

/-- What `parseC` does once an entry has been picked. -/
theorem sparseC_lit {t : SuffixTable} {x : Bytes} {e : LiteralE} {c : Nat} (h : t.longestCommonPrefixC x = (.ok (some e), c)) {k : Nat}
    (hc : ∀ t', e.child = some t' → ∀ y, Counted (t'.parseC y) (t'.parse y) k) : Counted (t.parseC x) (t.parse x) (c + 1 + k) := by
  have h0 := (SuffixTable.longestCommonPrefixC_fst t x).symm
  rw [h] at h0
  simp only [] at h0
  by_cases c1 : commonPrefixLen e.literal x = x.length
  · have h1 : t.parseC x = (.ok (e.pattern.map MatchResult.new), c + 1) := by unfold SuffixTable.parseC; split <;> simp_all
    have h2 : t.parse x = .ok (e.pattern.map MatchResult.new) := by unfold SuffixTable.parse; split <;> simp_all
    rw [h1, h2]; exact ⟨rfl, by simp⟩
  · by_cases c2 : commonPrefixLen e.literal x < x.length
    · cases hx : ltrunc x (commonPrefixLen e.literal x) with
      | error er =>
        have h1 : t.parseC x = (.error er, c + 1) := by unfold SuffixTable.parseC; split <;> simp_all
        have h2 : t.parse x = .error er := by unfold SuffixTable.parse; split <;> simp_all
        rw [h1, h2]; exact ⟨rfl, by simp⟩
      | ok y =>
        cases hch : e.child with
        | none =>
          have h1 : t.parseC x = (.ok none, c + 1) := by
            unfold SuffixTable.parseC; split <;> simp_all
            split <;> simp_all
          have h2 : t.parse x = .ok none := by
            unfold SuffixTable.parse; split <;> simp_all
            split <;> simp_all
          rw [h1, h2]; exact ⟨rfl, by simp⟩
        | some t' =>
          have h1 : t.parseC x = ((t'.parseC y).1, c + 1 + (t'.parseC y).2) := by
            conv => lhs; unfold SuffixTable.parseC
            split <;> simp_all
            split <;> simp_all
          have h2 : t.parse x = t'.parse y := by
            conv => lhs; unfold SuffixTable.parse
            split <;> simp_all
            split <;> simp_all
          have h5 := hc t' hch y
          rw [h1, h2]
          exact ⟨h5.same, Nat.add_le_add_left h5.cost _⟩
    · have h1 : t.parseC x = (.ok none, c + 1) := by
        unfold SuffixTable.parseC; split <;> simp_all
        intro h; omega
      have h2 : t.parse x = .ok none := by
        unfold SuffixTable.parse; split <;> simp_all
        intro h; omega
      rw [h1, h2]; exact ⟨rfl, by simp⟩

theorem sparseC_par {t : SuffixTable} {x : Bytes} {c : Nat} (h : t.longestCommonPrefixC x = (.ok none, c)) {k : Nat}
    (hc : Counted (sparseWithParsersC t.parserEntries x) (sparseWithParsers t.parserEntries x) k) : Counted (t.parseC x) (t.parse x) (c + k) := by
  have h0 := (SuffixTable.longestCommonPrefixC_fst t x).symm
  rw [h] at h0
  simp only [] at h0
  have h1 : t.parseC x = ((sparseWithParsersC t.parserEntries x).1, c + (sparseWithParsersC t.parserEntries x).2) := by
    conv => lhs; unfold SuffixTable.parseC
    split <;> simp_all
  have h2 : t.parse x = sparseWithParsers t.parserEntries x := by
    conv => lhs; unfold SuffixTable.parse
    split <;> simp_all
  rw [h1, h2]
  exact ⟨hc.same, Nat.add_le_add_left hc.cost _⟩

theorem sparseC_entry {p : ParserE} {k : Nat} (hc : ∀ t', p.child = some t' → ∀ y, Counted (t'.parseC y) (t'.parse y) k) (x : Bytes) :
    Counted (p.parseC x) (p.parse x) k := by
  have one : ∀ m, Counted (m, 0) m k := fun m => ⟨rfl, by simp⟩
  cases hv : p.parser.parse x with
  | error e => unfold ParserE.parseC ParserE.parse; simp only [hv]; exact one _
  | ok r =>
    cases r with
    | none => unfold ParserE.parseC ParserE.parse; simp only [hv]; exact one _
    | some value =>
      cases hx : ltrunc x value.length with
      | error e => unfold ParserE.parseC ParserE.parse; simp only [hv, hx]; exact one _
      | ok y =>
        cases hn : p.child with
        | none =>
          have h1 : p.parseC x = (if y.isEmpty then .ok (p.createMatchResult value) else .ok none, 0) := by
            unfold ParserE.parseC; simp only [hv, hx]; split <;> simp_all
          have h2 : p.parse x = if y.isEmpty then .ok (p.createMatchResult value) else .ok none := by
            unfold ParserE.parse; simp only [hv, hx]; split <;> simp_all
          rw [h1, h2]; exact one _
        | some node =>
          have h1 : p.parseC x = match node.parseC y with
              | (.error e, c) => (.error e, c)
              | (.ok (some result), c) => (.ok (some (result.insert p.parser value)), c)
              | (.ok none, c) => (.ok none, c) := by
            conv => lhs; unfold ParserE.parseC
            simp only [hv, hx]; split <;> simp_all <;> rfl
          have h2 : p.parse x = match node.parse y with
              | .error e => .error e
              | .ok (some result) => .ok (some (result.insert p.parser value))
              | .ok none => .ok none := by
            conv => lhs; unfold ParserE.parse
            simp only [hv, hx]; split <;> simp_all <;> rfl
          have h3 := hc node hn y
          rw [h1, h2, ← h3.same]
          rcases hT : node.parseC y with ⟨m, c⟩
          rw [hT] at h3
          have h5 := h3.cost
          match m with
          | .error e => exact ⟨rfl, h5⟩
          | .ok (some r) => exact ⟨rfl, h5⟩
          | .ok none => exact ⟨rfl, h5⟩

theorem ssingle_counted (toks : List Token) (q : Pattern) (x : Bytes) :
    Counted ((ssingle toks q).parseC x) ((ssingle toks q).parse x) (2 * toks.length) := by
  induction toks generalizing x with
  | nil =>
    have := sparseC_par (t := ⟨[], []⟩) (lcpC_nil [] x) (k := 0) (by unfold sparseWithParsersC sparseWithParsers; exact ⟨rfl, by simp⟩)
    exact ⟨this.same, this.cost⟩
  | cons tok rest ih =>
    have hchild : ∀ t', (if rest.isEmpty then none else some (ssingle rest q)) = some t' → ∀ y, Counted (t'.parseC y) (t'.parse y) (2 * rest.length) := by
      intro t' h y
      split at h
      · simp at h
      · simp at h; rw [← h]; exact ih y
    cases tok with
    | literal l =>
      simp only [ssingle]
      generalize hE : ({ pattern := _, literal := l, child := _ } : LiteralE) = e
      have hec : e.child = if rest.isEmpty then none else some (ssingle rest q) := by rw [← hE]
      have h1 := lcpC_single e [] x
      rcases hl : (⟨[e], []⟩ : SuffixTable).longestCommonPrefixC x with ⟨r, c⟩
      rw [hl] at h1
      have h0 := (SuffixTable.longestCommonPrefixC_fst ⟨[e], []⟩ x).symm
      rw [hl] at h0
      simp only [] at h0 h1
      match r with
      | .error er =>
        have h2 : (⟨[e], []⟩ : SuffixTable).parseC x = (.error er, c) := by unfold SuffixTable.parseC; split <;> simp_all
        have h3 : (⟨[e], []⟩ : SuffixTable).parse x = .error er := by unfold SuffixTable.parse; split <;> simp_all
        rw [h2, h3]
        exact ⟨rfl, by simp; omega⟩
      | .ok none =>
        have := sparseC_par hl (k := 0) (by unfold sparseWithParsersC sparseWithParsers; exact ⟨rfl, by simp⟩)
        exact ⟨this.same, by have := this.cost; simp; omega⟩
      | .ok (some e') =>
        have hm := SuffixTable.lcp_mem h0
        simp at hm
        subst hm
        have := sparseC_lit hl (k := 2 * rest.length) (by rw [hec]; exact hchild)
        exact ⟨this.same, by have := this.cost; simp; omega⟩
    | parser a =>
      simp only [ssingle]
      generalize hE : ({ pattern := _, parser := a, child := _ } : ParserE) = e
      have hec : e.child = if rest.isEmpty then none else some (ssingle rest q) := by rw [← hE]
      have h2 := sparseC_entry (p := e) (k := 2 * rest.length) (by rw [hec]; exact hchild) x
      have h3 := sparseC_par (lcpC_nil [e] x) (k := 2 * rest.length) (by
        unfold sparseWithParsersC sparseWithParsers
        rw [← h2.same]
        rcases hT : e.parseC x with ⟨m, c⟩
        rw [hT] at h2
        have h5 := h2.cost
        match m with
        | .error e => exact ⟨rfl, h5⟩
        | .ok (some r) => exact ⟨rfl, h5⟩
        | .ok none =>
          unfold sparseWithParsersC sparseWithParsers
          exact ⟨rfl, h5⟩)
      exact ⟨h3.same, by have := h3.cost; simp; omega⟩

/-- The parser entries hold tables for patterns with `n` tokens altogether. -/
inductive ParCost : List ParserE → Nat → Prop
  | nil : ParCost [] 0
  | cons (e : ParserE) (es : List ParserE) (m n : Nat) :
      (∀ t, e.child = some t → ∃ rest q, t = ssingle rest q ∧ rest.length ≤ m) → ParCost es n → ParCost (e :: es) (m + n)

theorem parCost_counted {es : List ParserE} {n : Nat} (h : ParCost es n) (x : Bytes) :
    Counted (sparseWithParsersC es x) (sparseWithParsers es x) (2 * n) := by
  induction h with
  | nil => unfold sparseWithParsersC sparseWithParsers; exact ⟨rfl, by simp⟩
  | cons e es m n hc _ ih =>
    have h2 := sparseC_entry (p := e) (k := 2 * m) (by
      intro t ht y
      obtain ⟨rest, q, rfl, hl⟩ := hc t ht
      have := ssingle_counted rest q y
      exact ⟨this.same, by have := this.cost; omega⟩) x
    unfold sparseWithParsersC sparseWithParsers
    rw [← h2.same]
    rcases hT : e.parseC x with ⟨m', c⟩
    rw [hT] at h2
    have h5 := h2.cost
    have h6 := ih.cost
    simp only [] at h5
    match m' with
    | .error e => exact ⟨rfl, by simp only []; omega⟩
    | .ok (some r) => exact ⟨rfl, by simp only []; omega⟩
    | .ok none => exact ⟨ih.same, by simp only []; omega⟩

theorem supdP_child {rest : List Token} {q : Pattern} {e : ParserE} {m : Nat}
    (h : ∀ t, e.child = some t → ∃ rest q, t = ssingle rest q ∧ rest.length ≤ m) :
    ∀ t, (supdP rest q e).child = some t → ∃ rest' q, t = ssingle rest' q ∧ rest'.length ≤ m + (rest.length + 1) := by
  intro t ht
  unfold supdP at ht
  split at ht
  · obtain ⟨r, q, h1, h2⟩ := h t ht
    exact ⟨r, q, h1, by omega⟩
  · simp at ht
    exact ⟨rest, q, ht.symm, by omega⟩

theorem putPar_cost {sip : Bytes → UInt64} {a : Parser} {rest : List Token} {q : Pattern} {es : List ParserE} {n : Nat} (h : ParCost es n) :
    ∃ k, k ≤ n + (rest.length + 1) ∧ ParCost (putPar sip a (supdP rest q) es) k := by
  induction h with
  | nil =>
    unfold putPar
    refine ⟨0 + (rest.length + 1) + 0, by omega, .cons _ _ _ _ ?_ .nil⟩
    exact supdP_child (m := 0) (by simp [ParserE.new])
  | cons e es m n hc hes ih =>
    unfold putPar
    split
    · exact ⟨m + (rest.length + 1) + n, by omega, .cons _ _ _ _ (supdP_child hc) hes⟩
    · obtain ⟨k, h1, h2⟩ := ih
      exact ⟨m + k, by omega, .cons _ _ _ _ hc h2⟩

theorem putLit_length (l : Bytes) (f : LiteralE → LiteralE) (es : List LiteralE) : (putLit l f es).length ≤ es.length + 1 := by
  induction es with
  | nil => simp [putLit]
  | cons e es ih =>
    unfold putLit
    split <;> simp; omega

/-- The size of a table after some patterns have been added. -/
structure Small (t : SuffixTable) (ps : List Pattern) : Prop where
  lits : t.literalEntries.length ≤ ps.length
  pars : ∃ k, k ≤ (ps.flatMap Pattern.pattern).length ∧ ParCost t.parserEntries k

theorem small_step {sip : Bytes → UInt64} {ps : List Pattern} {t t' : SuffixTable} (hr : Reach sip ps t) (hs : Small t ps) {p : Pattern}
    (h : t.insert sip p = .ok t') : Small t' (ps ++ [p]) := by
  obtain ⟨h1, k, h2, h3⟩ := hs
  cases hp : p.pattern with
  | nil =>
    rw [sinsert_empty sip t p hp] at h; simp at h; subst h
    exact ⟨by simp; omega, k, by simp at h2 ⊢; omega, h3⟩
  | cons tok rest =>
    cases tok with
    | literal l =>
      rw [sinsert_lit sip t p l rest hp, sinsertLiteral_run hr.sorted] at h
      simp at h; subst h
      have := putLit_length l (supdL rest p.strip) t.literalEntries
      exact ⟨by simp; omega, k, by simp at h2 ⊢; omega, h3⟩
    | parser a =>
      rw [sinsert_par sip t p a rest hp, sinsertParser_run] at h
      simp at h; subst h
      obtain ⟨k', h4, h5⟩ := putPar_cost (sip := sip) (a := a) (rest := rest) (q := p.strip) h3
      exact ⟨by simp; omega, k', by simp [hp] at h2 ⊢; omega, h5⟩

theorem small_fold {sip : Bytes → UInt64} (qs : List Pattern) {ps : List Pattern} {t t' : SuffixTable} (hr : Reach sip ps t) (hs : Small t ps)
    (h : qs.foldlM (fun t p => t.addPattern sip p) t = .ok t') : Small t' (ps ++ qs) := by
  induction qs generalizing ps t with
  | nil => simp [pure, Except.pure] at h; subst h; simpa using hs
  | cons p qs ih =>
    obtain ⟨t1, h1, h2⟩ := reach_step hr p
    have h3 := small_step hr hs h1
    simp only [List.foldlM_cons, SuffixTable.addPattern, h1, bind, Except.bind] at h
    have := ih h2 h3 h
    simpa using this

theorem build_small {sip : Bytes → UInt64} {ps : List Pattern} {t : SuffixTable} (h : SuffixTable.build sip ps = .ok t) : Small t ps := by
  have := small_fold ps (reach_new sip) (ps := []) ⟨by simp [SuffixTable.new], 0, by simp, by simp [SuffixTable.new]; exact .nil⟩ h
  simpa using this

/-- The root: the probes, two neighbours and the picked entry, then what is below. -/
theorem root_counted {sip : Bytes → UInt64} {ps : List Pattern} {t : SuffixTable} (h : SuffixTable.build sip ps = .ok t) (x : Bytes) {k m : Nat}
    (hk : ∀ p ∈ ps, p.pattern.length ≤ k)
    (hm : ∀ k', k' ≤ (ps.flatMap Pattern.pattern).length → t.longestCommonPrefix x = .ok none → 2 * k' ≤ m) (hkm : 2 * k ≤ m) :
    Counted (t.parseC x) (t.parse x) (Nat.log2 ps.length + 4 + m) := by
  have hr := reach_of_build h
  obtain ⟨h1, n, h2, h3⟩ := build_small h
  have h4 := lcpC_cost t x (k := Nat.log2 ps.length + 1) (Nat.lt_of_le_of_lt h1 Nat.lt_log2_self)
  have h0 := (SuffixTable.longestCommonPrefixC_fst t x).symm
  rcases hl : t.longestCommonPrefixC x with ⟨r, c⟩
  rw [hl] at h0 h4
  simp only [] at h0 h4
  match r with
  | .error er =>
    have h2 : t.parseC x = (.error er, c) := by unfold SuffixTable.parseC; split <;> simp_all
    have h3 : t.parse x = .error er := by unfold SuffixTable.parse; split <;> simp_all
    rw [h2, h3]
    exact ⟨rfl, by simp; omega⟩
  | .ok none =>
    have h5 := sparseC_par hl (parCost_counted h3 x)
    have h6 := hm n h2 h0
    exact ⟨h5.same, by have := h5.cost; omega⟩
  | .ok (some e) =>
    have h5 := sparseC_lit hl (k := 2 * k) (by
      intro t' ht y
      obtain ⟨p, hp, rest, _, hpr, hc⟩ := (reach_lit hr (SuffixTable.lcp_mem h0)).2 t' ht
      rw [hc]
      have h6 := ssingle_counted rest p.strip y
      have h7 := hk p hp
      rw [hpr] at h7
      simp at h7
      exact ⟨h6.same, by have := h6.cost; omega⟩)
    exact ⟨h5.same, by have := h5.cost; omega⟩

/-- C95: parsing a text with the suffix array makes at most `log2 (number of patterns) + 4 + 2·(number of tokens)` comparisons of a literal with
the text, whatever the text is. -/
theorem C95_suffix_array (sip : Bytes → UInt64) (ps : List Pattern) (t : SuffixTable) (h : SuffixTable.build sip ps = .ok t) (text : Bytes) :
    ∃ n, t.parseC text = (t.parse text, n) ∧ n ≤ Nat.log2 ps.length + 4 + 2 * (ps.flatMap Pattern.pattern).length := by
  have h1 := root_counted h text (k := (ps.flatMap Pattern.pattern).length) (m := 2 * (ps.flatMap Pattern.pattern).length)
    (by
      intro p hp
      obtain ⟨A, B, rfl⟩ := List.append_of_mem hp
      simp; omega)
    (by intro k' hk' _; omega) (by omega)
  exact ⟨_, by rw [← h1.same], h1.cost⟩

theorem lcp_not_none {t : SuffixTable} (hs : SSorted t.literalEntries) {e : LiteralE} (he : e ∈ t.literalEntries) {x : Bytes} :
    t.longestCommonPrefix x ≠ .ok none := by
  unfold SuffixTable.longestCommonPrefix
  rcases ssearch hs x with ⟨A, m, B, h1, h2, h3, h3', h4⟩ | ⟨A, B, h1, h2, h3, h4⟩
  · rw [h4]
    simp [bind, Except.bind, pure, Except.pure, h1]
  · rw [h4]
    simp only [bind, Except.bind, pure, Except.pure, SuffixTable.lcpAroundPos, SuffixTable.lcpBetweenConsecutive]
    have hl : 0 < t.literalEntries.length := List.length_pos_of_mem he
    have hA : A.length ≤ t.literalEntries.length := by rw [h1]; simp
    split
    · rename_i h0
      rw [h0, List.getElem?_eq_getElem hl]; simp
    · rename_i h0
      rw [List.getElem?_eq_getElem (by omega : A.length - 1 < t.literalEntries.length)]
      simp only []
      split
      · simp
      · rename_i h5
        split
        · simp
        · rw [h5]; simp

/-- C95: if there is a pattern that begins with a literal, only the longest pattern counts. -/
theorem C95_suffix_array_literal (sip : Bytes → UInt64) (ps : List Pattern) (t : SuffixTable) (h : SuffixTable.build sip ps = .ok t) (text : Bytes)
    (k : Nat) (hk : ∀ p ∈ ps, p.pattern.length ≤ k) (hl : ∃ p ∈ ps, ∃ l, p.pattern.head? = some (.literal l)) :
    ∃ n, t.parseC text = (t.parse text, n) ∧ n ≤ Nat.log2 ps.length + 4 + 2 * k := by
  have h1 := root_counted h text (k := k) (m := 2 * k) hk
    (by
      intro k' _ hn
      obtain ⟨p, hp, l, hl⟩ := hl
      obtain ⟨e, he⟩ := (reach_has (reach_of_build h) l).mpr ⟨p, hp, hl⟩
      exact absurd hn (lcp_not_none (reach_of_build h).sorted he.1)) (by omega)
  exact ⟨_, by rw [← h1.same], h1.cost⟩

/-! ### Cases -/

def wordSample : List Pattern :=
  [Samples.pat 1 [.literal b!"apple"], Samples.pat 2 [.literal b!"apple pie"], Samples.pat 3 [.literal b!"banana"],
   Samples.pat 4 [.literal b!"cherry"], Samples.pat 5 [.literal b!"apricot"], Samples.pat 6 [.literal b!"zebra"]]

theorem wordSample_utf8 : ∀ p ∈ wordSample, Utf8Lits p := by
  intro p hp
  simp [wordSample] at hp
  rcases hp with rfl | rfl | rfl | rfl | rfl | rfl <;> simp [Samples.pat, Utf8Lits] <;> exact ascii_utf8 (by decide)

theorem wordSample_literals : ∀ p ∈ wordSample, ∀ a, Token.parser a ∉ p.pattern := by
  intro p hp a
  simp [wordSample] at hp
  rcases hp with rfl | rfl | rfl | rfl | rfl | rfl <;> simp [Samples.pat]

/-- Both matchers can be built from the six words; finding `apple pie` takes 9 comparisons in the trie (the bound is 90) and 3 in the suffix
array (the bound is 8). -/
example : (match SuffixTree.build Samples.sip wordSample with
    | .ok t => decide ((t.parseC b!"apple pie").2 = 9) && (match t.parse b!"apple pie" with | .ok (some _) => true | _ => false)
    | .error _ => false) = true := by decide +kernel

example : (match SuffixTable.build Samples.sip wordSample with
    | .ok t => decide ((t.parseC b!"apple pie").2 = 3) && (match t.parse b!"apple pie" with | .ok (some _) => true | _ => false)
    | .error _ => false) = true := by decide +kernel

/-- With parsers: `17 b` is found by the trie with 3 comparisons, one at the root and two behind the number. -/
example : (match SuffixTree.build Samples.sip callSample with
    | .ok t => decide ((t.parseC b!"17 b").2 = 3) && (match t.parse b!"17 b" with | .ok (some _) => true | _ => false)
    | .error _ => false) = true := by decide +kernel

example : (match SuffixTable.build Samples.sip (callSample.take 2) with
    | .ok t => decide ((t.parseC b!"17 b").2 = 2) && (match t.parse b!"17 b" with | .ok (some _) => true | _ => false)
    | .error _ => false) = true := by decide +kernel

/-- A pattern that begins with a literal, as the last theorem wants it. -/
example : (∃ p ∈ callSample, ∃ l, p.pattern.head? = some (.literal l)) ∧ ∀ p ∈ callSample, p.pattern.length ≤ 2 := by
  refine ⟨⟨Samples.pat 3 [.literal b!"a ", .parser (Samples.int b!"i")], by simp [callSample], b!"a ", rfl⟩, by decide +kernel⟩

end Verif
