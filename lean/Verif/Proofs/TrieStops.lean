import Verif.Proofs.TrieEffect
import Verif.Spec.Table
/-! Where a walk through the trie ends, in terms of the set of literal entries. -/
namespace Verif
open Spec

variable {P : Bytes → Prop}

/-- The subtree reached through literal nodes with the given text. -/
inductive TreeAt : SuffixTree → Bytes → SuffixTree → Prop
  | here (t : SuffixTree) : TreeAt t [] t
  | down (t : SuffixTree) (n : LiteralNode) (c : SuffixTree) (pre : Bytes) (d : SuffixTree) (hn : n ∈ t.literalChildren)
      (h0 : n.literal ≠ []) (hc : n.node = some c) (h : TreeAt c pre d) : TreeAt t (n.literal ++ pre) d

theorem treeAt_nil {t c : SuffixTree} (h : TreeAt t [] c) : c = t := by
  generalize hp : ([] : Bytes) = pre at h
  cases h with
  | here => rfl
  | down _ n c pre d hn h0 hc h =>
    have := congrArg List.length hp
    rw [List.length_append] at this
    exact absurd (List.length_eq_zero_iff.mp (by simp at this; omega)) h0

theorem entryAt_node (hs : SortedLits P t.literalChildren) {n : LiteralNode} (hn : n ∈ t.literalChildren) {x : Bytes}
    (hr : rk n.literal = rk x) {w : Option Pattern} {ps : List ParserNode} (h : EntryAt t x w ps) : NEntry n x w ps := by
  rw [entryAt_iff] at h
  obtain ⟨m, hm, h⟩ := h
  have h1 := hit_of_mem hs hn hr
  have h2 := hit_of_mem hs hm (nentry_rk h).symm
  rw [h1] at h2
  simp at h2
  rw [h2]; exact h

theorem treeAt_node (hs : SortedLits P t.literalChildren) {n : LiteralNode} (hn : n ∈ t.literalChildren) {x pre : Bytes}
    (hr : rk n.literal = rk x) {d : SuffixTree} (h : TreeAt t pre d) (hp : pre <+: x) (hpre : pre ≠ []) :
    n.literal ≠ [] ∧ ∃ c pre', n.node = some c ∧ pre = n.literal ++ pre' ∧ TreeAt c pre' d := by
  cases h with
  | here => exact absurd rfl hpre
  | down _ m c pre' d hm h0 hc h =>
    have h1 := hit_of_mem hs hn hr
    have h2 := hit_of_mem (x := x) hs hm (by
      rw [← prefix_rk hp hpre]
      exact prefix_rk (List.prefix_append _ _) h0)
    rw [h1] at h2
    simp at h2
    subst h2
    exact ⟨h0, c, pre', hc, rfl, h⟩

/-- An entry is found by following its text. -/
theorem walk_entry {t : SuffixTree} {x : Bytes} {w : Option Pattern} {ps : List ParserNode} (h : EntryAt t x w ps)
    (hi : Inv P t) (hs : TShape t) : ∃ n, walk t x = .found n ∧ w = n.pattern ∧ ps = parsersOf n := by
  induction h with
  | here t n hn hv =>
    refine ⟨n, ?_, rfl, rfl⟩
    rw [walk_some (hit_of_mem hi.lits hn rfl)]
    cases n.node with
    | none => simp
    | some c => simp [hv]
  | down t n c x w ps hn h0 hc h ih =>
    obtain ⟨m, h1, h2⟩ := ih (hi.child n hn c hc) (hs.child n hn h0 c hc)
    refine ⟨m, ?_, h2⟩
    rw [walk_some (hit_of_mem hi.lits hn (prefix_rk (List.prefix_append _ _) h0))]
    simp only [hc]
    rw [if_neg (not_not_intro (List.prefix_append _ _)), if_neg, List.drop_left]
    · exact h1
    · intro hv
      simp at hv
      obtain ⟨hv, rfl⟩ := hv
      rw [entryAt_iff] at h
      obtain ⟨k, hk, h⟩ := h
      exact (hs.entry n hn hv h0 c hc).2 k hk (rk_eq_nil.mp (nentry_rk h).symm)

/-- There is at most one entry for a text. -/
theorem entry_unique {t : SuffixTree} (hi : Inv P t) (hs : TShape t) {x : Bytes} {w w' : Option Pattern} {ps ps' : List ParserNode}
    (h : EntryAt t x w ps) (h' : EntryAt t x w' ps') : w = w' ∧ ps = ps' := by
  obtain ⟨n, h1, h2, h3⟩ := walk_entry h hi hs
  obtain ⟨n', h1', h2', h3'⟩ := walk_entry h' hi hs
  rw [h1] at h1'
  simp at h1'
  subst h1'
  exact ⟨h2.trans h2'.symm, h3.trans h3'.symm⟩

/-- What is found by following a text is the entry of this text; otherwise the walk ends in the deepest subtree that the text leads to. -/
theorem walk_spec {t : SuffixTree} (hi : Inv P t) (x : Bytes) :
    match walk t x with
    | .found n => EntryAt t x n.pattern (parsersOf n)
    | .stuck c y => ∃ pre, x = pre ++ y ∧ TreeAt t pre c ∧ ∀ pre' c', TreeAt t pre' c' → pre' <+: x → pre'.length ≤ pre.length := by
  induction hi generalizing x with
  | mk t lits inner child parsers pchild ih =>
    have stay : (∀ pre' c', TreeAt t pre' c' → pre' <+: x → pre' = []) →
        ∃ pre, x = pre ++ x ∧ TreeAt t pre t ∧ ∀ pre' c', TreeAt t pre' c' → pre' <+: x → pre'.length ≤ pre.length := by
      intro h
      exact ⟨[], rfl, .here t, fun pre' c' h1 h2 => by rw [h pre' c' h1 h2]; simp⟩
    cases hh : hit? t.literalChildren x with
    | none =>
      rw [walk_none hh]
      refine stay ?_
      intro pre' c' h1 h2
      cases h1 with
      | here => rfl
      | down _ n c pre _ hn h0 hc h =>
        exfalso
        refine hit_none_iff.mp hh n hn ?_
        exact prefix_rk ((List.prefix_append _ _).trans h2) h0
    | some n =>
      have hn := hit_mem hh
      have hr := hit_rk hh
      rw [walk_some hh]
      cases hc : n.node with
      | none =>
        simp only
        by_cases hx : n.literal = x
        · rw [if_pos hx]
          subst hx
          refine .here t n hn ?_
          cases hv : n.hasValue with
          | true => rfl
          | false => exact absurd hc (inner n hn hv).2.2
        · rw [if_neg hx]
          refine stay ?_
          intro pre' c' h1 h2
          by_cases h3 : pre' = []
          · exact h3
          · obtain ⟨_, c, _, h4, _⟩ := treeAt_node lits hn hr h1 h2 h3
            rw [hc] at h4; simp at h4
      | some c =>
        simp only
        by_cases hp : n.literal <+: x
        · rw [if_neg (not_not_intro hp)]
          by_cases he : (n.hasValue && decide (n.literal = x)) = true
          · rw [if_pos he]
            simp at he
            obtain ⟨hv, rfl⟩ := he
            exact .here t n hn hv
          · rw [if_neg he]
            have h0 : n.literal ≠ [] := by
              intro h0
              cases hv : n.hasValue with
              | true =>
                apply he
                rw [h0] at hr ⊢
                have : x = [] := rk_eq_nil.mp hr.symm
                simp [hv, this]
              | false => exact (inner n hn hv).1 h0
            obtain ⟨y, rfl⟩ := hp
            rw [List.drop_left]
            have ih := ih n hn c hc y
            cases hw : walk c y with
            | found m =>
              rw [hw] at ih
              exact .down t n c y _ _ hn h0 hc ih
            | stuck d z =>
              rw [hw] at ih
              obtain ⟨pre, rfl, h1, h2⟩ := ih
              refine ⟨n.literal ++ pre, by simp, .down t n c pre d hn h0 hc h1, ?_⟩
              intro pre' c' h3 h4
              by_cases h5 : pre' = []
              · simp [h5]
              · obtain ⟨_, c2, pre2, h6, rfl, h7⟩ := treeAt_node lits hn hr h3 h4 h5
                rw [hc] at h6; simp at h6; subst h6
                have := h2 pre2 c' h7 ((List.prefix_append_right_inj _).mp h4)
                simp; exact this
        · rw [if_pos hp]
          refine stay ?_
          intro pre' c' h1 h2
          by_cases h3 : pre' = []
          · exact h3
          · obtain ⟨_, c2, pre2, h6, rfl, h7⟩ := treeAt_node lits hn hr h1 h2 h3
            exact absurd ((List.prefix_append _ _).trans h2) hp

theorem commonStart_rk {a b : Bytes} (h : rk a ≠ rk b) : CommonStart a b [] := by
  refine ⟨List.nil_prefix, List.nil_prefix, ?_⟩
  intro c h1 h2
  by_cases hc : c = []
  · simp [hc]
  · exact absurd ((prefix_rk h1 hc).symm.trans (prefix_rk h2 hc)) h

theorem commonStart_append {l a b c : Bytes} (h : CommonStart a b c) : CommonStart (l ++ a) (l ++ b) (l ++ c) := by
  obtain ⟨h1, h2, h3⟩ := h
  refine ⟨(List.prefix_append_right_inj l).mpr h1, (List.prefix_append_right_inj l).mpr h2, ?_⟩
  intro d hd1 hd2
  by_cases hl : l.length ≤ d.length
  · obtain ⟨e, rfl⟩ : l <+: d := List.prefix_of_prefix_length_le (List.prefix_append _ _) hd1 hl
    have := h3 e ((List.prefix_append_right_inj l).mp hd1) ((List.prefix_append_right_inj l).mp hd2)
    simp; exact this
  · simp; omega

theorem commonStart_unique {a b c c' : Bytes} (h : CommonStart a b c) (h' : CommonStart a b c') : c = c' := by
  have e : c.length = c'.length := Nat.le_antisymm (h'.2.2 c h.1 h.2.1) (h.2.2 c' h'.1 h'.2.1)
  have := List.prefix_of_prefix_length_le h.1 h'.1 (by omega)
  exact this.eq_of_length e

/-- A subtree other than the root belongs to an entry with parsers, or lies where two entries part. -/
theorem treeAt_stop {t : SuffixTree} {pre : Bytes} {c : SuffixTree} (h : TreeAt t pre c) (hi : Inv P t) (hs : TShape t) (hpre : pre ≠ []) :
    (c.parserChildren ≠ [] ∧ ∃ w, EntryAt t pre w c.parserChildren) ∨
    (c.parserChildren = [] ∧ (∀ w ps, EntryAt t pre w ps → ps = []) ∧
      ∃ x1 w1 p1 x2 w2 p2, EntryAt t x1 w1 p1 ∧ EntryAt t x2 w2 p2 ∧ x1 ≠ x2 ∧ CommonStart x1 x2 pre) := by
  induction h with
  | here => exact absurd rfl hpre
  | down t n c pre d hn h0 hc h ih =>
    have hic := hi.child n hn c hc
    have hsc := hs.child n hn h0 c hc
    by_cases hp : pre = []
    · subst hp
      have := treeAt_nil h
      subst this
      simp only [List.append_nil]
      cases hv : n.hasValue with
      | true =>
        refine .inl ⟨(hs.entry n hn hv h0 d hc).1, n.pattern, ?_⟩
        have := EntryAt.here t n hn hv
        have e : parsersOf n = d.parserChildren := by unfold parsersOf; rw [if_neg h0, hc]
        rw [e] at this
        exact this
      | false =>
        obtain ⟨d', hd', e1, m1, hm1, m2, hm2, e2⟩ := hs.inner n hn hv
        rw [hc] at hd'; simp at hd'; subst hd'
        refine .inr ⟨e1, ?_, ?_⟩
        · intro w ps he
          rcases entryAt_node hi.lits hn rfl he with ⟨hv', _⟩ | ⟨_, c2, x', hc2, he', h3⟩
          · rw [hv] at hv'; simp at hv'
          · have : x' = [] := by simpa using he'
            subst this
            rw [entryAt_iff] at h3
            obtain ⟨m, hm, h3⟩ := h3
            have hm0 : m.literal = [] := rk_eq_nil.mp (nentry_rk h3).symm
            rcases h3 with ⟨_, _, _, rfl⟩ | ⟨h4, _⟩
            · simp [parsersOf, hm0]
            · exact absurd hm0 h4
        · obtain ⟨x1, w1, p1, n1⟩ := nentry_exists hsc hic hm1
          obtain ⟨x2, w2, p2, n2⟩ := nentry_exists hsc hic hm2
          have hr : rk x1 ≠ rk x2 := by rw [nentry_rk n1, nentry_rk n2]; exact e2
          refine ⟨_, w1, p1, _, w2, p2, .down t n d x1 w1 p1 hn h0 hc (entryAt_iff.mpr ⟨m1, hm1, n1⟩),
            .down t n d x2 w2 p2 hn h0 hc (entryAt_iff.mpr ⟨m2, hm2, n2⟩), ?_, ?_⟩
          · intro he
            rw [List.append_cancel_left_eq] at he
            exact hr (by rw [he])
          · have := commonStart_append (l := n.literal) (commonStart_rk hr)
            simpa using this
    · rcases ih hic hsc hp with ⟨h1, w, h2⟩ | ⟨h1, h2, x1, w1, p1, x2, w2, p2, n1, n2, hne, h3⟩
      · exact .inl ⟨h1, w, .down t n c pre w _ hn h0 hc h2⟩
      · refine .inr ⟨h1, ?_, _, w1, p1, _, w2, p2, .down t n c x1 w1 p1 hn h0 hc n1, .down t n c x2 w2 p2 hn h0 hc n2, ?_,
          commonStart_append h3⟩
        · intro w ps he
          rcases entryAt_node hi.lits hn (prefix_rk (List.prefix_append _ _) h0) he with ⟨_, h4, _⟩ | ⟨_, c2, x', hc2, he', h5⟩
          · exact absurd (by simpa using h4) hp
          · rw [List.append_cancel_left_eq] at he'
            subst he'
            rw [hc] at hc2; simp at hc2; subst hc2
            exact h2 w ps h5
        · intro he
          rw [List.append_cancel_left_eq] at he
          exact hne he

theorem entry_treeAt {t : SuffixTree} {x : Bytes} {w : Option Pattern} {ps : List ParserNode} (h : EntryAt t x w ps) (hps : ps ≠ []) :
    ∃ c, TreeAt t x c := by
  induction h with
  | here t n hn hv =>
    unfold parsersOf at hps
    split at hps
    · exact absurd rfl hps
    · rename_i h0
      cases hc : n.node with
      | none => rw [hc] at hps; exact absurd rfl hps
      | some c =>
        refine ⟨c, ?_⟩
        have := TreeAt.down t n c [] c hn h0 hc (.here c)
        simpa using this
  | down t n c x w ps hn h0 hc h ih =>
    obtain ⟨d, hd⟩ := ih hps
    exact ⟨d, .down t n c x d hn h0 hc hd⟩

/-- The trie has a subtree where two entries part. -/
theorem parting_treeAt {t : SuffixTree} (hi : Inv P t) {x1 x2 : Bytes} {w1 w2 : Option Pattern} {p1 p2 : List ParserNode}
    (h1 : EntryAt t x1 w1 p1) (h2 : EntryAt t x2 w2 p2) (hne : x1 ≠ x2) {b : Bytes} (hb : CommonStart x1 x2 b) : ∃ c, TreeAt t b c := by
  induction hi generalizing x1 x2 b with
  | mk t lits inner child parsers pchild ih =>
    by_cases hr : rk x1 = rk x2
    · rw [entryAt_iff] at h1
      obtain ⟨n, hn, h1⟩ := h1
      have h2 := entryAt_node lits hn ((nentry_rk h1).symm.trans hr) h2
      have here : ∀ c y, n.literal ≠ [] → n.node = some c → CommonStart n.literal (n.literal ++ y) n.literal ∧ TreeAt t n.literal c := by
        intro c y h0 hc
        refine ⟨⟨List.prefix_refl _, List.prefix_append _ _, fun c' h _ => h.length_le⟩, ?_⟩
        have := TreeAt.down t n c [] c hn h0 hc (.here c)
        simpa using this
      have swap : CommonStart x2 x1 b := ⟨hb.2.1, hb.1, fun c h1 h2 => hb.2.2 c h2 h1⟩
      rcases h1 with ⟨_, rfl, _⟩ | ⟨h0, c, y1, hc, rfl, h1⟩
      · rcases h2 with ⟨_, rfl, _⟩ | ⟨h0, c, y2, hc, rfl, h2⟩
        · exact absurd rfl hne
        · obtain ⟨k1, k2⟩ := here c y2 h0 hc
          rw [commonStart_unique hb k1]
          exact ⟨c, k2⟩
      · rcases h2 with ⟨_, rfl, _⟩ | ⟨h0', c', y2, hc', rfl, h2⟩
        · obtain ⟨k1, k2⟩ := here c y1 h0 hc
          rw [commonStart_unique swap k1]
          exact ⟨c, k2⟩
        · rw [hc] at hc'; simp at hc'; subst hc'
          have hpre : n.literal <+: b := by
            have := hb.2.2 n.literal (List.prefix_append _ _) (List.prefix_append _ _)
            exact List.prefix_of_prefix_length_le (List.prefix_append _ _) hb.1 this
          obtain ⟨b', rfl⟩ := hpre
          have hb' : CommonStart y1 y2 b' := by
            refine ⟨(List.prefix_append_right_inj _).mp hb.1, (List.prefix_append_right_inj _).mp hb.2.1, ?_⟩
            intro c' k1 k2
            have := hb.2.2 (n.literal ++ c') ((List.prefix_append_right_inj _).mpr k1) ((List.prefix_append_right_inj _).mpr k2)
            simpa using this
          obtain ⟨d, hd⟩ := ih n hn c hc h1 h2 (by rintro rfl; exact hne rfl) hb'
          exact ⟨d, .down t n c b' d hn h0 hc hd⟩
    · rw [commonStart_unique hb (commonStart_rk hr)]
      exact ⟨t, .here t⟩

end Verif
