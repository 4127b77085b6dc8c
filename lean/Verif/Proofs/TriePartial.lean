import Verif.Proofs.TrieInv
/-! Partial correctness of the trie operations for arbitrary UTF-8 strings: whenever an operation does not panic, it does what the
relations of `TrieInsert` say. -/
namespace Verif
open Spec

section generic
variable {α : Type}

theorem binarySearchLoop_mono {f : α → M Ordering} {g : α → Ordering} {base : Nat} {s : List α} {r : SearchRes}
    (hf : ∀ x ∈ s, ∀ o, f x = .ok o → o = g x) :
    binarySearchLoop f base s = .ok r → binarySearchLoop (fun x => .ok (g x)) base s = .ok r := by
  fun_induction binarySearchLoop f base s with
  | case1 base s h => intro hr; rw [binarySearchLoop]; split <;> simp_all
  | case2 base s x tail h e he => simp
  | case3 base s x tail h hx ih =>
    intro hr
    have hm : ∀ y ∈ x :: tail, y ∈ s := fun y hy => List.mem_of_mem_drop (by rw [h]; exact hy)
    have hg := hf x (hm x (by simp)) _ hx
    have := ih (fun y hy => hf y (hm y (by simp [hy]))) hr
    rw [binarySearchLoop]
    split
    · rename_i h2; rw [h] at h2; simp at h2
    · rename_i h2; rw [h] at h2; simp at h2; obtain ⟨h3, h4⟩ := h2; subst h3; subst h4
      rw [← hg]; exact this
  | case4 base s x tail h hx ih =>
    intro hr
    have hm : ∀ y ∈ x :: tail, y ∈ s := fun y hy => List.mem_of_mem_drop (by rw [h]; exact hy)
    have hg := hf x (hm x (by simp)) _ hx
    have := ih (fun y hy => hf y (List.mem_of_mem_take hy)) hr
    rw [binarySearchLoop]
    split
    · rename_i h2; rw [h] at h2; simp at h2
    · rename_i h2; rw [h] at h2; simp at h2; obtain ⟨h3, h4⟩ := h2; subst h3; subst h4
      rw [← hg]; exact this
  | case5 base s x tail h hx =>
    intro hr
    have hm : ∀ y ∈ x :: tail, y ∈ s := fun y hy => List.mem_of_mem_drop (by rw [h]; exact hy)
    have hg := hf x (hm x (by simp)) _ hx
    rw [binarySearchLoop]
    split
    · rename_i h2; rw [h] at h2; simp at h2
    · rename_i h2; rw [h] at h2; simp at h2; obtain ⟨h3, h4⟩ := h2; subst h3; subst h4
      rw [← hg]; exact hr

theorem binarySearchBy_partial {f : α → M Ordering} {g : α → Ordering} {s : List α} {r : SearchRes}
    (hf : ∀ x ∈ s, ∀ o, f x = .ok o → o = g x) (hs : s.Pairwise fun x y => rank (g x) ≤ rank (g y))
    (hr : binarySearchBy f s = .ok r) :
    (∃ i x, r = .ok i ∧ s[i]? = some x ∧ g x = .eq) ∨
    (∃ i, r = .err i ∧ i ≤ s.length ∧ (∀ x ∈ s.take i, g x = .lt) ∧ (∀ x ∈ s.drop i, g x = .gt)) := by
  have h1 : binarySearchBy (fun x => .ok (g x)) s = .ok r := binarySearchLoop_mono hf hr
  rcases binarySearchBy_spec (fun x => .ok (g x)) g s (fun _ _ => rfl) hs with ⟨i, x, h2, h3⟩ | ⟨i, h2, h3⟩
  · rw [h1] at h2; simp at h2; exact .inl ⟨i, x, h2, h3⟩
  · rw [h1] at h2; simp at h2; exact .inr ⟨i, h2, h3⟩

theorem insertStable_mono {cmp : α → α → M Ordering} {c : α → α → Ordering} {x : α} {l r : List α}
    (hf : ∀ y ∈ l, ∀ o, cmp x y = .ok o → o = c x y) (h : insertStable cmp x l = .ok r) : r = insertPure c x l := by
  induction l generalizing r with
  | nil => simp [insertStable] at h; rw [← h]; rfl
  | cons y ys ih =>
    unfold insertStable at h
    unfold insertPure
    cases hc : cmp x y with
    | error e => rw [hc] at h; simp at h
    | ok o =>
      have ho := hf y (by simp) o hc
      rw [hc] at h
      cases hi : insertStable cmp x ys with
      | error e =>
        rw [hi] at h
        cases o <;> simp at h
        rw [if_pos ho.symm, h]
      | ok r' =>
        have hr' := ih (fun z hz => hf z (by simp [hz])) hi
        rw [hi] at h
        cases o <;> simp at h
        · rw [if_pos ho.symm, h]
        · rw [if_neg (by rw [← ho]; simp), ← h, hr']
        · rw [if_neg (by rw [← ho]; simp), ← h, hr']

theorem foldlM_insertStable_mono {cmp : α → α → M Ordering} {c : α → α → Ordering} {acc l r : List α}
    (hf : ∀ x ∈ acc ++ l, ∀ y ∈ acc ++ l, ∀ o, cmp x y = .ok o → o = c x y)
    (h : l.foldlM (fun acc x => insertStable cmp x acc) acc = .ok r) :
    l.foldlM (fun acc x => insertStable (fun a b => .ok (c a b)) x acc) acc = .ok r := by
  induction l generalizing acc with
  | nil => exact h
  | cons x xs ih =>
    simp only [List.foldlM_cons, bind, Except.bind] at h ⊢
    cases hi : insertStable cmp x acc with
    | error e => rw [hi] at h; simp at h
    | ok acc' =>
      rw [hi] at h
      have e := insertStable_mono (fun y hy => hf x (by simp) y (by simp [hy])) hi
      have e2 : insertStable (fun a b => .ok (c a b)) x acc = .ok acc' := by
        rw [e]; exact insertStable_eq _ c x acc (fun _ _ => rfl)
      rw [e2]
      apply ih _ h
      have hm : ∀ z, z ∈ acc' ++ xs → z ∈ acc ++ x :: xs := by
        intro z hz
        rw [List.mem_append] at hz ⊢
        rcases hz with hz | hz
        · rw [e] at hz
          have := (insertPure_perm c x acc).mem_iff.mp hz
          simp at this
          rcases this with rfl | h
          · simp
          · exact .inl h
        · simp [hz]
      exact fun a ha b hb => hf a (hm a ha) b (hm b hb)

theorem push_partial {cmp : α → α → M Ordering} {c : α → α → Ordering} {v r : List α} {x : α}
    (hf : ∀ a ∈ v ++ [x], ∀ b ∈ v ++ [x], ∀ o, cmp a b = .ok o → o = c a b)
    (hs : v.Pairwise fun a b => c b a ≠ .lt) (h : SortedVec.push cmp v x = .ok r) : r = insertPure c x v := by
  have h1 : SortedVec.push (fun a b => .ok (c a b)) v x = .ok r := by
    unfold SortedVec.push stableSort at h ⊢
    exact foldlM_insertStable_mono (by simpa using hf) h
  rw [push_eq _ c v x (fun _ _ _ _ => rfl) hs] at h1
  simpa using h1.symm
end generic

theorem slice_head_ok {a : UInt8} {s r : Bytes} (h : slice (a :: s) 0 1 = .ok r) :
    r = [a] ∧ isCharBoundary (a :: s) 1 = true := by
  unfold slice at h
  split at h
  · rename_i hb
    simp at h
    exact ⟨h.symm, hb.2.2⟩
  · simp at h

theorem cmpU8_compare (a b : UInt8) : cmpBytes [a] [b] = compare (a.toNat + 1) (b.toNat + 1) := by
  simp only [cmpBytes, cmpU8]
  rcases Nat.lt_trichotomy a.toNat b.toNat with h | h | h
  · rw [compare_nat_lt (by omega)]; simp [h]
  · simp [h]
  · rw [compare_nat_gt (by omega)]
    rw [if_neg (by omega), if_neg (by omega)]

/-- If `cmp_str` does not panic it compares the keys; non-empty strings then start with a one-byte character. -/
theorem cmpStr_ok {n : LiteralNode} {x : Bytes} {o : Ordering} (h : n.cmpStr x = .ok o) :
    o = compare (rk n.literal) (rk x) ∧
    (n.literal ≠ [] → x ≠ [] → isCharBoundary n.literal 1 = true ∧ isCharBoundary x 1 = true) := by
  unfold LiteralNode.cmpStr at h
  cases hl : n.literal with
  | nil =>
    rw [hl] at h
    cases x with
    | nil => simp at h; simp [rk, ← h]
    | cons b x => simp at h; simp [rk, ← h]; rw [compare_nat_lt (by omega)]
  | cons a s =>
    rw [hl] at h
    cases x with
    | nil => simp at h; simp [rk, ← h]; rw [compare_nat_gt (by omega)]
    | cons b x =>
      simp only [List.isEmpty_cons, Bool.false_and, Bool.false_eq_true, if_false, bind, Except.bind, pure, Except.pure] at h
      cases h1 : slice (a :: s) 0 1 with
      | error e => rw [h1] at h; simp at h
      | ok r1 =>
        rw [h1] at h
        cases h2 : slice (b :: x) 0 1 with
        | error e => rw [h2] at h; simp at h
        | ok r2 =>
          rw [h2] at h
          simp at h
          obtain ⟨rfl, hb1⟩ := slice_head_ok h1
          obtain ⟨rfl, hb2⟩ := slice_head_ok h2
          refine ⟨?_, fun _ _ => ⟨hb1, hb2⟩⟩
          rw [← h, cmpU8_compare]; rfl

variable {P : Bytes → Prop}

theorem bsearch_partial {l : List LiteralNode} (h : SortedLits P l) {x : Bytes} {r : SearchRes}
    (hr : SortedVec.binarySearchBy (fun p => p.cmpStr x) l = .ok r) :
    (∃ A n B, l = A ++ n :: B ∧ rk n.literal = rk x ∧ r = .ok A.length) ∨
    (∃ A B, l = A ++ B ∧ (∀ m ∈ A, rk m.literal < rk x) ∧ (∀ m ∈ B, rk x < rk m.literal) ∧ r = .err A.length) := by
  have key := binarySearchBy_partial (g := fun p : LiteralNode => compare (rk p.literal) (rk x))
    (fun n _ o ho => (cmpStr_ok ho).1) (h.sorted.imp fun hab => rank_mono hab) hr
  rcases key with ⟨i, n, h1, h2, h3⟩ | ⟨i, h1, h2, h3, h4⟩
  · left
    obtain ⟨hi, he⟩ := List.getElem?_eq_some_iff.mp h2
    refine ⟨l.take i, n, l.drop (i + 1), ?_, by simpa using h3, ?_⟩
    · rw [← he]; simp
    · rw [List.length_take, Nat.min_eq_left (by omega)]; exact h1
  · right
    refine ⟨l.take i, l.drop i, by simp, ?_, ?_, ?_⟩
    · intro m hm; simpa [Nat.compare_eq_lt] using h3 m hm
    · intro m hm; simpa [Nat.compare_eq_gt] using h4 m hm
    · rw [List.length_take, Nat.min_eq_left h2]; exact h1

/-- The result of `search`, if it does not panic. -/
theorem search_partial {t : SuffixTree} (h : SortedLits Utf8 t.literalChildren) {x : Bytes} (hx : Utf8 x)
    {r : LiteralLookupResult} (hr : t.search x = .ok r) :
    (∃ A n B, t.literalChildren = A ++ n :: B ∧ rk n.literal = rk x ∧
      r = (if n.node.isNone then (if n.literal = x then .found A.length else .notFound)
        else if ¬ n.literal <+: x then .notFound
        else if n.hasValue && n.literal = x then .found A.length
        else .goDown A.length (x.drop n.literal.length))) ∨
    (∃ A B, t.literalChildren = A ++ B ∧ (∀ m ∈ A, rk m.literal < rk x) ∧ (∀ m ∈ B, rk x < rk m.literal) ∧
      r = .notFound) := by
  unfold SuffixTree.search at hr
  simp only [bind, Except.bind] at hr
  cases hb : SortedVec.binarySearchBy (fun p => p.cmpStr x) t.literalChildren with
  | error e => rw [hb] at hr; simp at hr
  | ok res =>
    rw [hb] at hr
    rcases bsearch_partial h hb with ⟨A, n, B, ht, hrk, rfl⟩ | ⟨A, B, ht, hA, hB, rfl⟩
    · left
      refine ⟨A, n, B, ht, hrk, ?_⟩
      have hg : t.literalChildren[A.length]? = some n := by rw [ht]; simp
      have hn : Utf8 n.literal := h.label n (List.mem_of_getElem? hg)
      simp only at hr
      unfold SuffixTree.searchPrefixIsFound at hr
      simp only [hg, unwrap, bind, Except.bind] at hr
      cases hn' : n.node with
      | none =>
        simp only [LiteralNode.isLeaf, hn', Option.isNone_none, if_true] at hr ⊢
        unfold SuffixTree.searchLeaf at hr
        simp only [hg, unwrap, bind, Except.bind, pure, Except.pure] at hr
        split at hr
        · rename_i h1; rw [if_pos h1]; simpa using hr.symm
        · rename_i h1; rw [if_neg h1]; simpa using hr.symm
      | some c =>
        simp only [LiteralNode.isLeaf, hn', Option.isNone_some, Bool.false_eq_true, if_false] at hr ⊢
        unfold SuffixTree.searchNotLeaf at hr
        simp only [hg, unwrap, bind, Except.bind, pure, Except.pure] at hr
        by_cases hp : n.literal <+: x
        · have hc : commonPrefixLen n.literal x = n.literal.length := cpl_eq_length_left.mpr hp
          have hl := hp.length_le
          rw [hc, if_neg (Nat.lt_irrefl _)] at hr
          rw [if_neg (not_not_intro hp)]
          have e : (x.isEmpty || decide (n.literal.length = x.length)) = decide (n.literal = x) := by
            rw [Bool.eq_iff_iff]
            simp only [Bool.or_eq_true, decide_eq_true_eq, List.isEmpty_iff]
            constructor
            · rintro (rfl | h2)
              · exact List.prefix_nil.mp hp
              · exact hp.eq_of_length h2
            · intro h2; right; rw [h2]
          rw [e] at hr
          split at hr
          · rename_i h1; rw [if_pos h1]; simpa using hr.symm
          · rename_i h1
            rw [if_neg h1]
            have hbd : isCharBoundary x n.literal.length = true := by
              obtain ⟨y, rfl⟩ := hp
              exact isCharBoundary_append_right (utf8_cancel hn hx)
            have e2 : ltrunc x n.literal.length = .ok (x.drop n.literal.length) := sliceFrom_ok hbd
            simp only [hn', e2] at hr
            simpa using hr.symm
        · rw [if_pos (cpl_lt_iff.mpr hp)] at hr
          rw [if_pos hp]
          simpa using hr.symm
    · right
      refine ⟨A, B, ht, hA, hB, ?_⟩
      simpa [pure, Except.pure] using hr.symm

section
variable {g : LiteralNode → LiteralNode} {f : LiteralNode → M LiteralNode}

theorem insertPure_place {A B : List LiteralNode} {n : LiteralNode}
    (hA : ∀ m ∈ A, rk m.literal < rk n.literal) (hB : ∀ m ∈ B, rk n.literal < rk m.literal) :
    insertPure (fun a b : LiteralNode => compare (rk a.literal) (rk b.literal)) n (A ++ B) = A ++ n :: B := by
  apply insertPure_split
  · intro y hy
    rw [compare_nat_gt (hA y hy)]; simp
  · intro y hy
    exact compare_nat_lt (hB y (List.mem_of_mem_head? hy))

theorem push_lits_partial {A B r : List LiteralNode} (h : SortedLits P (A ++ B)) {n : LiteralNode}
    (hA : ∀ m ∈ A, rk m.literal < rk n.literal) (hB : ∀ m ∈ B, rk n.literal < rk m.literal)
    (hr : SortedVec.push LiteralNode.cmp (A ++ B) n = .ok r) : r = A ++ n :: B := by
  have := push_partial (c := fun a b : LiteralNode => compare (rk a.literal) (rk b.literal))
    (fun a _ b _ o ho => (cmpStr_ok ho).1) (h.sorted.imp fun hab => by rw [compare_nat_gt hab]; simp) hr
  rw [this, insertPure_place hA hB]

theorem boundary_drop {s : Bytes} {n k : Nat} (hn : n ≤ s.length) (h : isCharBoundary (s.drop n) k = true) (hk : 0 < k) :
    isCharBoundary s (n + k) = true := by
  unfold isCharBoundary at h ⊢
  split at h
  · rename_i h1
    rcases h1 with h1 | h1
    · omega
    · rw [if_pos]; right; simp at h1; omega
  · rename_i h1
    rw [List.getElem?_drop] at h
    split
    · rfl
    · exact h

theorem cpl_rk_ne_of {a b : Bytes} (hab : a ≠ b)
    (hb : a.drop (commonPrefixLen a b) ≠ [] → b.drop (commonPrefixLen a b) ≠ [] →
      isCharBoundary (a.drop (commonPrefixLen a b)) 1 = true) :
    rk (a.drop (commonPrefixLen a b)) ≠ rk (b.drop (commonPrefixLen a b)) := by
  have hle := cpl_le a b
  have ht := cpl_take a b
  intro h
  cases hda : a.drop (commonPrefixLen a b) with
  | nil =>
    rw [hda] at h
    have hdb : b.drop (commonPrefixLen a b) = [] := by rw [← rk_eq_nil]; simpa [rk] using h.symm
    apply hab
    have ea := List.take_append_drop (commonPrefixLen a b) a
    have eb := List.take_append_drop (commonPrefixLen a b) b
    rw [hda] at ea
    rw [hdb, ← ht] at eb
    exact ea.symm.trans eb
  | cons x a' =>
    cases hdb : b.drop (commonPrefixLen a b) with
    | nil => rw [hda, hdb] at h; simp [rk] at h
    | cons y b' =>
      have hbd := boundary_drop (by omega) (hb (by rw [hda]; simp) (by rw [hdb]; simp)) (by omega)
      rw [hda, hdb] at h
      have hxy : x = y := by simpa [rk, UInt8.toNat_inj] using h
      have hlb := congrArg List.length hdb
      simp at hlb
      have : commonPrefixLen a b + 1 ≤ commonPrefixLen a b := by
        apply cpl_max hbd (by omega)
        rw [List.take_add, List.take_add, ht, hda, hdb, hxy]
        simp
      omega

/-- `split` and the update of the new entry, if they do not panic. -/
theorem split_partial (hf : ∀ n, f n = .ok (g n)) {n m : LiteralNode} {l : Bytes} (hn : Utf8 n.literal)
    (hl : Utf8 l) (hne : n.literal ≠ l) (hm : n.split (commonPrefixLen n.literal l) l = .ok m) :
    rk (n.literal.drop (commonPrefixLen n.literal l)) ≠ rk (l.drop (commonPrefixLen n.literal l)) ∧
    ∃ c, m = { literal := l.take (commonPrefixLen n.literal l), hasValue := false, pattern := none, node := some c } ∧
      ∀ c', c.lookupFreshlyInsertedLiteral (l.drop (commonPrefixLen n.literal l)) f = .ok c' →
        c' = { literalChildren := splitChildren g n l, parserChildren := [] } := by
  have hle := cpl_le n.literal l
  have hbl := cpl_boundary_left hn hl
  have hbr := cpl_boundary_right hn hl
  have hcr := @cpl_rk_ne_of n.literal l hne
  generalize hcpl : commonPrefixLen n.literal l = cpl at *
  let right : LiteralNode := { n with literal := n.literal.drop cpl }
  let left : LiteralNode := freshLit (l.drop cpl)
  have hal : Utf8 left.literal := (boundary_split hl hbr).2
  have har : Utf8 right.literal := (boundary_split hn hbl).2
  have e6 : left = { literal := l.drop cpl, hasValue := true, pattern := none, node := none } := rfl
  have e7 : right = { literal := n.literal.drop cpl, hasValue := n.hasValue, pattern := n.pattern, node := n.node } := rfl
  -- the run of split
  unfold LiteralNode.split at hm
  have e1 : checkedSub l.length cpl = .ok (l.length - cpl) := by simp [checkedSub]; omega
  have e2 : rtrunc l (l.length - cpl) = .ok (l.take cpl) := by
    have : l.length - (l.length - cpl) = cpl := by omega
    unfold rtrunc
    rw [if_neg (by omega), this]
    exact sliceTo_ok hbr
  have e3 : ltrunc l cpl = .ok (l.drop cpl) := sliceFrom_ok hbr
  have e4 : ltrunc n.literal cpl = .ok (n.literal.drop cpl) := sliceFrom_ok hbl
  have e5 : SortedVec.push LiteralNode.cmp [] left = .ok [left] := rfl
  simp only [e1, e2, e3, e4, bind, Except.bind, pure, Except.pure, SuffixTree.addLiteralNode, SuffixTree.new,
    LiteralNode.new] at hm
  rw [← e6, e5] at hm
  simp only at hm
  rw [← e7] at hm
  cases hp : SortedVec.push LiteralNode.cmp [left] right with
  | error e => rw [hp] at hm; simp at hm
  | ok lits =>
    rw [hp] at hm
    simp at hm
    have hcmp : ∃ o, LiteralNode.cmp right left = .ok o := by
      cases ho : LiteralNode.cmp right left with
      | ok o => exact ⟨o, rfl⟩
      | error e =>
        simp [SortedVec.push, stableSort, List.foldlM_cons, insertStable, bind, Except.bind, ho] at hp
    obtain ⟨o, ho⟩ := hcmp
    have hrk : rk right.literal ≠ rk left.literal := hcr fun h1 h2 => ((cmpStr_ok ho).2 h1 h2).1
    refine ⟨hrk, ⟨lits, []⟩, hm.symm, ?_⟩
    intro c' hc'
    have hlits : (rk left.literal < rk right.literal ∧ lits = [left, right]) ∨
       (rk right.literal < rk left.literal ∧ lits = [right, left]) := by
      have hsl : SortedLits Utf8 [left] := ⟨by simp, by intro m hm; simp at hm; rw [hm]; exact hal⟩
      rcases Nat.lt_or_ge (rk left.literal) (rk right.literal) with h1 | h1
      · exact .inl ⟨h1, push_lits_partial (A := [left]) (B := []) (by simpa using hsl) (by intro m hm; simp at hm; rw [hm]; exact h1) (by simp) (by simpa using hp)⟩
      · have h2 : rk right.literal < rk left.literal := Nat.lt_of_le_of_ne h1 hrk
        exact .inr ⟨h2, push_lits_partial (A := []) (B := [left]) (by simpa using hsl) (by simp) (by intro m hm; simp at hm; rw [hm]; exact h2) (by simpa using hp)⟩
    have hs : SortedLits Utf8 lits := by
      rcases hlits with ⟨h1, rfl⟩ | ⟨h1, rfl⟩
      · exact ⟨by simpa using h1, by intro m hm; simp at hm; rcases hm with rfl | rfl <;> assumption⟩
      · exact ⟨by simpa using h1, by intro m hm; simp at hm; rcases hm with rfl | rfl <;> assumption⟩
    have hsc : splitChildren g n l = if rk left.literal < rk right.literal then [g left, right] else [right, g left] := by
      unfold splitChildren; simp only [hcpl]; rfl
    unfold SuffixTree.lookupFreshlyInsertedLiteral SuffixTree.lookupLiteralMut at hc'
    rw [show l.drop cpl = left.literal from rfl] at hc'
    cases hse : SuffixTree.search ⟨lits, []⟩ left.literal with
    | error e => rw [hse] at hc'; simp at hc'
    | ok r =>
      rw [hse] at hc'
      rcases search_partial (t := ⟨lits, []⟩) hs hal hse with ⟨A, k, B, ht, hk, rfl⟩ | ⟨A, B, ht, hA, hB, rfl⟩
      · have hkl : k = left := by
          have hmem : k ∈ lits := by rw [show lits = A ++ k :: B from ht]; simp
          rcases hlits with ⟨h1, rfl⟩ | ⟨h1, rfl⟩
          · simp at hmem; rcases hmem with rfl | rfl
            · rfl
            · exact absurd hk hrk
          · simp at hmem; rcases hmem with rfl | rfl
            · exact absurd hk hrk
            · rfl
        subst hkl
        simp only [show left.node = none from rfl, Option.isNone_none, if_true] at hc'
        have hg2 : lits[A.length]? = some left := by rw [show lits = A ++ left :: B from ht]; simp
        simp only [SuffixTree.updateLiteral, hg2, unwrap, bind, Except.bind, hf, pure, Except.pure] at hc'
        simp at hc'
        rw [← hc', hsc]
        rcases hlits with ⟨h1, rfl⟩ | ⟨h1, rfl⟩
        · rw [if_pos h1]
          have hA0 : A = [] := by
            cases A with
            | nil => rfl
            | cons a A =>
              simp at ht
              have h3 := congrArg List.length ht.2
              simp at h3
              have : A = [] := List.eq_nil_of_length_eq_zero (by omega)
              subst this
              simp at ht
              exact absurd (congrArg (fun z : LiteralNode => rk z.literal) ht.2.1) hrk
          subst hA0
          simp
        · rw [if_neg (by omega)]
          have hA0 : A = [right] := by
            cases A with
            | nil =>
              simp at ht
              exact absurd (congrArg (fun z : LiteralNode => rk z.literal) ht.1) hrk
            | cons a A =>
              simp at ht
              have h3 := congrArg List.length ht.2
              simp at h3
              have : A = [] := List.eq_nil_of_length_eq_zero (by omega)
              subst this
              simp [ht.1]
          subst hA0
          simp
      · exfalso
        have hmem : left ∈ lits := by rcases hlits with ⟨_, rfl⟩ | ⟨_, rfl⟩ <;> simp
        rw [show lits = A ++ B from ht, List.mem_append] at hmem
        rcases hmem with h | h
        · exact absurd (hA left h) (Nat.lt_irrefl _)
        · exact absurd (hB left h) (Nat.lt_irrefl _)

theorem insertLiteralTail_miss_partial (hf : ∀ n, f n = .ok (g n)) {t t' : SuffixTree} {l : Bytes} {A B : List LiteralNode}
    (hs : SortedLits P t.literalChildren) (ht : t.literalChildren = A ++ B)
    (hA : ∀ m ∈ A, rk m.literal < rk l) (hB : ∀ m ∈ B, rk l < rk m.literal)
    (hr : t.insertLiteralTail l f = .ok t') :
    t' = { t with literalChildren := A ++ g (freshLit l) :: B } := by
  unfold SuffixTree.insertLiteralTail at hr
  simp only [bind, Except.bind] at hr
  cases hb : SortedVec.binarySearchBy (fun p => p.cmpStr l) t.literalChildren with
  | error e => rw [hb] at hr; simp at hr
  | ok res =>
    rw [hb] at hr
    rcases bsearch_partial hs hb with ⟨A', n, B', ht', hrk, rfl⟩ | ⟨A', B', ht', hA', hB', rfl⟩
    · exfalso
      have hm : n ∈ A ++ B := by rw [← ht, ht']; simp
      rw [List.mem_append] at hm
      rcases hm with hm | hm
      · have := hA n hm; omega
      · have := hB n hm; omega
    · have e : (freshLit l) = { literal := l, hasValue := true, pattern := none, node := none } := rfl
      simp only [SuffixTree.addLiteralNode, LiteralNode.new, ← e, bind, Except.bind] at hr
      rw [ht] at hs hr
      have hAA : A' = A ∧ B' = B := by
        have e2 : A ++ B = A' ++ B' := by rw [← ht, ht']
        apply And.symm
        rcases Nat.lt_trichotomy A'.length A.length with hl | hl | hl
        · exfalso
          have e : (A ++ B)[A'.length]? = (A' ++ B')[A'.length]? := by rw [e2]
          rw [List.getElem?_append_left hl, List.getElem?_append_right (by omega), List.getElem?_eq_getElem hl] at e
          have := hB' _ (List.mem_of_getElem? e.symm)
          have := hA _ (List.getElem_mem hl)
          omega
        · have := List.append_inj e2 hl.symm
          exact ⟨this.2.symm, this.1.symm⟩
        · exfalso
          have e : (A ++ B)[A.length]? = (A' ++ B')[A.length]? := by rw [e2]
          rw [List.getElem?_append_left hl, List.getElem?_append_right (by omega), List.getElem?_eq_getElem hl] at e
          have := hB _ (List.mem_of_getElem? e)
          have := hA' _ (List.getElem_mem hl)
          omega
      obtain ⟨rfl, rfl⟩ := hAA
      cases hp : SortedVec.push LiteralNode.cmp (A' ++ B') (freshLit l) with
      | error e => rw [hp] at hr; simp at hr
      | ok r =>
        have := push_lits_partial hs (n := freshLit l) hA hB hp
        subst this
        rw [hp] at hr
        simp [pure, Except.pure, SuffixTree.updateLiteral, unwrap, hf, bind, Except.bind] at hr
        exact hr.symm

theorem insertLiteralTail_split_partial (hf : ∀ n, f n = .ok (g n)) {t t' : SuffixTree} {l : Bytes}
    {A B : List LiteralNode} {n : LiteralNode}
    (hs : SortedLits Utf8 t.literalChildren) (hl : Utf8 l) (ht : t.literalChildren = A ++ n :: B)
    (hr : rk n.literal = rk l) (hne : n.literal ≠ l) (hrun : t.insertLiteralTail l f = .ok t') :
    0 < commonPrefixLen n.literal l ∧
    rk (n.literal.drop (commonPrefixLen n.literal l)) ≠ rk (l.drop (commonPrefixLen n.literal l)) ∧
    t' = { t with literalChildren := A ++ splitNode g n l :: B } := by
  unfold SuffixTree.insertLiteralTail at hrun
  simp only [bind, Except.bind] at hrun
  cases hb : SortedVec.binarySearchBy (fun p => p.cmpStr l) t.literalChildren with
  | error e => rw [hb] at hrun; simp at hrun
  | ok res =>
    rw [hb] at hrun
    have hn : Utf8 n.literal := hs.label n (by rw [ht]; simp)
    rcases bsearch_partial hs hb with ⟨A', n', B', ht', hrk, rfl⟩ | ⟨A', B', ht', hA', hB', rfl⟩
    · have huniq : A' = A ∧ n' = n ∧ B' = B := by
        have hsort := hs.sorted
        rw [ht, List.pairwise_append, List.pairwise_cons] at hsort
        obtain ⟨_, ⟨s2, _⟩, s3⟩ := hsort
        have e2 : A ++ n :: B = A' ++ n' :: B' := by rw [← ht, ht']
        rcases Nat.lt_trichotomy A'.length A.length with hlen | hlen | hlen
        · exfalso
          have : n' ∈ A := by
            have e : (A ++ n :: B)[A'.length]? = some n' := by rw [e2]; simp
            rw [List.getElem?_append_left hlen] at e
            exact List.mem_of_getElem? e
          have := s3 n' this n (by simp)
          omega
        · have := List.append_inj e2 hlen.symm
          simp at this
          exact ⟨this.1.symm, this.2.1.symm, this.2.2.symm⟩
        · exfalso
          have : n' ∈ B := by
            have e : (A ++ n :: B)[A'.length]? = some n' := by rw [e2]; simp
            rw [List.getElem?_append_right (by omega)] at e
            obtain ⟨k, hk⟩ : ∃ k, A'.length - A.length = k + 1 := ⟨A'.length - A.length - 1, by omega⟩
            rw [hk] at e
            simp at e
            exact List.mem_of_getElem? e
          have := s2 n' this
          omega
      obtain ⟨rfl, rfl, rfl⟩ := huniq
      have hg2 : t.literalChildren[A'.length]? = some n' := by rw [ht]; simp
      simp only [hg2, unwrap] at hrun
      unfold hasCommonPrefix at hrun
      by_cases hpos : 0 < commonPrefixLen n'.literal l
      · simp only [gt_iff_lt, hpos, if_true] at hrun
        cases hsp : n'.split (commonPrefixLen n'.literal l) l with
        | error e => rw [hsp] at hrun; simp at hrun
        | ok m =>
          rw [hsp] at hrun
          obtain ⟨h1, c, rfl, h3⟩ := split_partial hf hn hl hne hsp
          have e3 : ltrunc l (commonPrefixLen n'.literal l) = .ok (l.drop (commonPrefixLen n'.literal l)) :=
            sliceFrom_ok (cpl_boundary_right hn hl)
          simp only [e3] at hrun
          cases hc : c.lookupFreshlyInsertedLiteral (l.drop (commonPrefixLen n'.literal l)) f with
          | error e => rw [hc] at hrun; simp at hrun
          | ok c' =>
            rw [hc] at hrun
            have := h3 c' hc
            subst this
            refine ⟨hpos, h1, ?_⟩
            simp [pure, Except.pure, ht] at hrun
            rw [← hrun]; simp [splitNode]
      · simp [hpos] at hrun
    · exfalso
      have hm : n ∈ A' ++ B' := by rw [← ht', ht]; simp
      rw [List.mem_append] at hm
      rcases hm with hm | hm
      · have := hA' n hm; omega
      · have := hB' n hm; omega

/-- If `insert_literal` does not panic, it performs `Ins`. -/
theorem ins_of_lookup (hf : ∀ n, f n = .ok (g n)) {t t' : SuffixTree} {l : Bytes} (hi : Inv Utf8 t) (orig pre : Bytes)
    (ho : orig = pre ++ l) (hl : Utf8 l)
    (hrun : t.lookupLiteralMut l (fun node index => node.updateLiteral index f)
      (fun node remLen => do
        let off ← checkedSub orig.length remLen
        let tail ← ltrunc orig off
        node.insertLiteralTail tail f) = .ok t') : Ins g t l t' := by
  induction hi generalizing l pre t' with
  | mk t lits inner child parsers pchild ih =>
    have e1 : checkedSub orig.length l.length = .ok pre.length := by simp [checkedSub, ho]
    have e2 : ltrunc orig pre.length = .ok l := by
      have : isCharBoundary orig pre.length = true := by rw [ho]; exact isCharBoundary_append_right hl
      rw [ltrunc, sliceFrom_ok this]; simp [ho]
    unfold SuffixTree.lookupLiteralMut at hrun
    cases hs : t.search l with
    | error e => rw [hs] at hrun; simp at hrun
    | ok r =>
      rw [hs] at hrun
      rcases search_partial lits hl hs with ⟨A, n, B, ht, hr, rfl⟩ | ⟨A, B, ht, hA, hB, rfl⟩
      · have hm : n ∈ t.literalChildren := by rw [ht]; simp
        have hg2 : t.literalChildren[A.length]? = some n := by rw [ht]; simp
        have finish : ∀ (hr' : t.insertLiteralTail l f = .ok t')
            (hsp : ¬ n.literal <+: l ∨ (n.node = none ∧ n.literal ≠ l)), Ins g t l t' := by
          intro hr' hsp
          obtain ⟨h1, h2, h3⟩ := insertLiteralTail_split_partial hf lits hl ht hr (split_ne hsp) hr'
          rw [h3]
          exact .split t l A B n ht hr hsp h1 h2
        have found : ∀ (hv : n.hasValue = true) (he : n.literal = l) (hu : t.updateLiteral A.length f = .ok t'), Ins g t l t' := by
          intro hv he hu
          simp [SuffixTree.updateLiteral, hg2, unwrap, bind, Except.bind, hf, pure, Except.pure] at hu
          rw [← hu, ht]
          have := Ins.exact (g := g) t l A B n ht he hv
          simpa using this
        cases hn : n.node with
        | none =>
          simp only [hn, Option.isNone_none, if_true] at hrun
          by_cases he : n.literal = l
          · rw [if_pos he] at hrun
            refine found ?_ he hrun
            cases hv : n.hasValue with
            | true => rfl
            | false => exact absurd hn (inner n hm hv).2.2
          · rw [if_neg he] at hrun
            simp only [e1, e2, bind, Except.bind] at hrun
            exact finish hrun (.inr ⟨hn, he⟩)
        | some c =>
          simp only [hn, Option.isNone_some, Bool.false_eq_true, if_false] at hrun
          by_cases hp : n.literal <+: l
          · rw [if_neg (not_not_intro hp)] at hrun
            by_cases he : (n.hasValue && decide (n.literal = l)) = true
            · rw [if_pos he] at hrun
              simp at he
              exact found he.1 he.2 hrun
            · rw [if_neg he] at hrun
              simp only at hrun
              split at hrun
              · rename_i h2; rw [hg2] at h2; simp at h2
              · rename_i n' h2
                rw [hg2] at h2; simp at h2; subst h2
                split at hrun
                · rename_i h2; rw [hn] at h2; simp at h2
                · rename_i c2 h2
                  rw [hn] at h2; simp at h2; subst h2
                  split at hrun
                  · simp at hrun
                  · rename_i c' hc'
                    simp at hrun
                    rw [← hrun]
                    have hl' : Utf8 (l.drop n.literal.length) := by
                      obtain ⟨y, rfl⟩ := hp
                      simpa using utf8_cancel (lits.label n hm) hl
                    have := ih n hm c hn (pre ++ n.literal) (l := l.drop n.literal.length)
                      (by obtain ⟨y, rfl⟩ := hp; simp [ho]) hl' hc'
                    have := Ins.down (g := g) t l A B n c c' ht hr hp hn (by simpa using he) this
                    simpa [ht] using this
          · rw [if_pos hp] at hrun
            simp only [e1, e2, bind, Except.bind] at hrun
            exact finish hrun (.inl hp)
      · simp only [e1, e2, bind, Except.bind] at hrun
        rw [insertLiteralTail_miss_partial hf lits ht hA hB hrun]
        exact .miss t l A B ht hA hB
end

/-- Partial correctness of `add_pattern`. -/
theorem step_of_insert {sip : Bytes → UInt64} {t t' : SuffixTree} (hi : Inv Utf8 t) {p : Pattern} (ha : LitsP Utf8 p.pattern)
    (h : t.insert sip p = .ok t') : Step sip t p t' ∧ Inv Utf8 t' := by
  have key : Step sip t p t' := by
    cases hp : p.pattern with
    | nil =>
      rw [insert_empty sip t p hp] at h
      simp at h; subst h
      exact .empty hp
    | cons tok rest =>
      rw [hp] at ha
      cases tok with
      | literal l =>
        rw [insert_lit sip t p l rest hp] at h
        exact .lit l rest hp t' (ins_of_lookup (fun _ => rfl) hi l [] rfl (ha l (by simp)) h)
      | parser a =>
        rw [insert_par sip t p a rest hp, insertParser_run] at h
        simp at h; subst h
        exact .par a rest hp
  exact ⟨key, step_inv labelPred_utf8 key hi ha⟩

end Verif
