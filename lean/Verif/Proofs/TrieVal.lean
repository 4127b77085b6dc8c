import Verif.Proofs.TrieSound
/-! What insertion does to the answers for single texts. -/
namespace Verif
open Spec

variable {P : Bytes → Prop}

/-- The pattern found at the end of a walk along the literal nodes. -/
def val (t : SuffixTree) (x : Bytes) : Option Pattern :=
  match walk t x with
  | .found n => n.pattern
  | .stuck _ _ => none

theorem val_none {t : SuffixTree} {x : Bytes} (h : hit? t.literalChildren x = none) : val t x = none := by
  unfold val; rw [walk_none h]

theorem val_some {t : SuffixTree} {x : Bytes} {n : LiteralNode} (h : hit? t.literalChildren x = some n) :
    val t x = match n.node with
      | none => if n.literal = x then n.pattern else none
      | some c =>
        if ¬ n.literal <+: x then none
        else if n.hasValue && n.literal = x then n.pattern
        else val c (x.drop n.literal.length) := by
  unfold val
  rw [walk_some h]
  cases n.node with
  | none => simp only; split <;> rename_i h1 <;> split at h1 <;> simp_all
  | some c =>
    simp only
    by_cases h1 : n.literal <+: x
    · rw [if_neg (not_not_intro h1), if_neg (not_not_intro h1)]
      by_cases h2 : (n.hasValue && decide (n.literal = x)) = true
      · rw [if_pos h2, if_pos h2]
      · rw [if_neg h2, if_neg h2]
    · rw [if_pos h1, if_pos h1]

theorem hit_append (A B : List LiteralNode) (x : Bytes) : hit? (A ++ B) x = (hit? A x).or (hit? B x) := by
  unfold hit?; rw [List.find?_append]

theorem hit_cons (n : LiteralNode) (B : List LiteralNode) (x : Bytes) :
    hit? (n :: B) x = if rk n.literal = rk x then some n else hit? B x := by
  unfold hit?; rw [List.find?_cons]
  by_cases h : rk n.literal = rk x
  · simp [h]
  · rw [if_neg h, show (rk n.literal == rk x) = false by rw [beq_eq_false_iff_ne]; exact h]

theorem walk_down {t : SuffixTree} {x : Bytes} {n : LiteralNode} {c : SuffixTree} (h : hit? t.literalChildren x = some n)
    (hc : n.node = some c) (hp : n.literal <+: x) (hne : ¬ (n.hasValue = true ∧ n.literal = x)) :
    walk t x = walk c (x.drop n.literal.length) := by
  rw [walk_some h, hc]
  simp only
  rw [if_neg (not_not_intro hp), if_neg (by simpa using hne)]

/-- Replacing a child by one with the same key. -/
theorem hit_replace {A B : List LiteralNode} {n n' : LiteralNode} (hs : SortedLits P (A ++ n :: B))
    (hr : rk n'.literal = rk n.literal) (x : Bytes) :
    (rk x = rk n.literal → hit? (A ++ n :: B) x = some n ∧ hit? (A ++ n' :: B) x = some n') ∧
    (rk x ≠ rk n.literal → hit? (A ++ n' :: B) x = hit? (A ++ n :: B) x) := by
  refine ⟨fun h => ?_, fun h => ?_⟩
  · have hA : hit? A x = none := by
      apply hit_none
      intro m hm
      have h1 := hs.sorted
      rw [List.pairwise_append] at h1
      have := h1.2.2 m hm n (by simp)
      omega
    rw [hit_append, hit_append, hA, hit_cons, hit_cons, if_pos h.symm, if_pos (by omega)]
    simp
  · rw [hit_append, hit_append, hit_cons, hit_cons, if_neg (by omega), if_neg (by omega)]

theorem prefix_rk {a b : Bytes} (h : a <+: b) (hne : a ≠ []) : rk a = rk b := by
  obtain ⟨y, rfl⟩ := h
  cases a with
  | nil => simp at hne
  | cons x a => rfl

/-- The entry of the inserted literal is found afterwards. -/
theorem ins_found {g : LiteralNode → LiteralNode} (hg : GoodUpd g) {t t' : SuffixTree} {l : Bytes} (h : Ins g t l t')
    (hi : Inv P t) : ∃ m, walk t' l = .found (g m) ∧ m.pattern = val t l := by
  induction h with
  | miss t l A B ht hA hB =>
    have h0 : hit? t.literalChildren l = none := by
      apply hit_none
      intro m hm
      rw [ht, List.mem_append] at hm
      rcases hm with hm | hm
      · have := hA m hm; omega
      · have := hB m hm; omega
    have hAn : hit? A l = none := hit_none fun m hm => by have := hA m hm; omega
    refine ⟨freshLit l, ?_, by rw [val_none h0]; rfl⟩
    have hh : hit? (A ++ g (freshLit l) :: B) l = some (g (freshLit l)) := by
      rw [hit_append, hAn, hit_cons, if_pos (by rw [hg.literal]; rfl)]; rfl
    rw [walk_some hh]
    have e1 : (g (freshLit l)).literal = l := hg.literal _
    have e2 : (g (freshLit l)).hasValue = true := hg.hasValue _
    cases (g (freshLit l)).node with
    | none => simp [e1]
    | some c => simp [e1, e2]
  | exact t l A B n ht hl hv =>
    have hs := hi.lits; rw [ht] at hs
    obtain ⟨h1, h2⟩ := (hit_replace hs (n' := g n) (by rw [hg.literal]) l).1 (by rw [hl])
    rw [← ht] at h1
    refine ⟨n, ?_, ?_⟩
    · rw [walk_some h2]
      have e1 : (g n).literal = l := by rw [hg.literal, hl]
      have e2 : (g n).hasValue = true := by rw [hg.hasValue, hv]
      cases (g n).node with
      | none => simp [e1]
      | some c => simp [e1, e2]
    · rw [val_some h1]
      cases n.node with
      | none => simp [hl]
      | some c => simp [hl, hv]
  | split t l A B n ht hr hs' hpos hrk =>
    have hs := hi.lits; rw [ht] at hs
    have hrk' : rk (splitNode g n l).literal = rk n.literal := by
      rw [hr]; simp only [splitNode]; exact rk_take hpos
    obtain ⟨h1, h2⟩ := (hit_replace hs hrk' l).1 hr.symm
    rw [← ht] at h1
    refine ⟨freshLit (l.drop (commonPrefixLen n.literal l)), ?_, ?_⟩
    · rw [walk_down h2 rfl (List.take_prefix _ _) (by simp [splitNode])]
      simp only [splitNode]
      have hle := cpl_le n.literal l
      have hlen : (l.take (commonPrefixLen n.literal l)).length = commonPrefixLen n.literal l := by simp; omega
      rw [hlen]
      have e1 : (g (freshLit (l.drop (commonPrefixLen n.literal l)))).literal = l.drop (commonPrefixLen n.literal l) := hg.literal _
      have e2 : (g (freshLit (l.drop (commonPrefixLen n.literal l)))).hasValue = true := hg.hasValue _
      have hh : hit? (splitChildren g n l) (l.drop (commonPrefixLen n.literal l)) =
          some (g (freshLit (l.drop (commonPrefixLen n.literal l)))) := by
        unfold splitChildren
        simp only
        split
        · rw [hit_cons, if_pos (by rw [e1])]
        · rw [hit_cons, if_neg (by simpa using hrk), hit_cons, if_pos (by rw [e1])]
      rw [walk_some (t := ⟨splitChildren g n l, []⟩) hh]
      cases (g (freshLit (l.drop (commonPrefixLen n.literal l)))).node with
      | none => simp [e1]
      | some c => simp [e1, e2]
    · rw [val_some h1]
      rcases hs' with h3 | ⟨h3, h4⟩
      · cases n.node with
        | none => simp only; rw [if_neg (by rintro rfl; exact h3 (List.prefix_refl _))]; rfl
        | some c => simp [h3, freshLit]
      · rw [h3]; simp [h4, freshLit]
  | down t l A B n c c' ht hr hp hc hne _ ih =>
    have hs := hi.lits; rw [ht] at hs
    obtain ⟨h1, h2⟩ := (hit_replace hs (n' := { n with node := some c' }) rfl l).1 hr.symm
    rw [← ht] at h1
    obtain ⟨m, h3, h4⟩ := ih (hi.child n (by rw [ht]; simp) c hc)
    refine ⟨m, ?_, ?_⟩
    · rw [walk_some h2]
      simp only
      rw [if_neg (not_not_intro hp), if_neg (by simpa using hne), h3]
    · rw [val_some h1, hc]
      simp only
      rw [if_neg (not_not_intro hp), if_neg (by simpa using hne), h4]

/-- Other texts keep their literal pattern, unless they extend a literal whose child is replaced. -/
theorem ins_val_other {g : LiteralNode → LiteralNode} (hg : GoodUpd g) {t t' : SuffixTree} {l x : Bytes} (h : Ins g t l t')
    (hi : Inv P t) (hxl : x ≠ l) (hx : (∀ n, (g n).node = n.node) ∨ ¬ l <+: x) : val t' x = val t x := by
  induction h generalizing x with
  | miss t l A B ht hA hB =>
    have e1 : (g (freshLit l)).literal = l := hg.literal _
    have e2 : (g (freshLit l)).hasValue = true := hg.hasValue _
    by_cases hr : rk l = rk x
    · have h0 : hit? t.literalChildren x = none := by
        apply hit_none
        intro m hm
        rw [ht, List.mem_append] at hm
        rcases hm with hm | hm
        · have := hA m hm; omega
        · have := hB m hm; omega
      have hAn : hit? A x = none := hit_none fun m hm => by have := hA m hm; omega
      have hh : hit? (A ++ g (freshLit l) :: B) x = some (g (freshLit l)) := by
        rw [hit_append, hAn, hit_cons, if_pos (by rw [e1]; exact hr)]; rfl
      rw [val_none h0, val_some hh]
      rcases hx with hx | hx
      · rw [hx]
        simp only [freshLit]
        exact if_neg (by rw [show (g _).literal = l from hg.literal _]; exact fun h => hxl h.symm)
      · cases (g (freshLit l)).node with
        | none => exact if_neg (by rw [e1]; exact fun h => hxl h.symm)
        | some c => exact if_pos (by rw [e1]; exact hx)
    · have hh : hit? (A ++ g (freshLit l) :: B) x = hit? t.literalChildren x := by
        rw [ht, hit_append, hit_append, hit_cons, if_neg (by rw [e1]; exact hr)]
      cases h1 : hit? t.literalChildren x with
      | none => rw [val_none h1, val_none (by rw [hh, h1])]
      | some n => rw [val_some h1, val_some (by rw [hh, h1])]
  | exact t l A B n ht hl hv =>
    have hs := hi.lits; rw [ht] at hs
    by_cases hr : rk x = rk n.literal
    · obtain ⟨h1, h2⟩ := (hit_replace hs (n' := g n) (by rw [hg.literal]) x).1 hr
      rw [← ht] at h1
      rw [val_some h1, val_some h2, hg.literal, hg.hasValue, hl]
      rcases hx with hx | hx
      · rw [hx]
        cases n.node with
        | none => simp [hxl.symm]
        | some c => simp [hxl.symm]
      · cases (g n).node <;> cases n.node <;> simp [hxl.symm, hx]
    · have hh := (hit_replace hs (n' := g n) (by rw [hg.literal]) x).2 hr
      rw [← ht] at hh
      cases h1 : hit? t.literalChildren x with
      | none => rw [val_none h1, val_none (by rw [hh, h1])]
      | some n => rw [val_some h1, val_some (by rw [hh, h1])]
  | split t l A B n ht hr hs' hpos hrk =>
    have hs := hi.lits; rw [ht] at hs
    have hrk' : rk (splitNode g n l).literal = rk n.literal := by
      rw [hr]; simp only [splitNode]; exact rk_take hpos
    by_cases hrx : rk x = rk n.literal
    · obtain ⟨h1, h2⟩ := (hit_replace hs hrk' x).1 hrx
      rw [← ht] at h1
      have hle := cpl_le n.literal l
      have htk := cpl_take n.literal l
      have hlen : (l.take (commonPrefixLen n.literal l)).length = commonPrefixLen n.literal l := by simp; omega
      -- labels
      obtain ⟨pre, hpre⟩ : ∃ pre, l.take (commonPrefixLen n.literal l) = pre := ⟨_, rfl⟩
      obtain ⟨ld, hld⟩ : ∃ ld, l.drop (commonPrefixLen n.literal l) = ld := ⟨_, rfl⟩
      obtain ⟨nd, hnd⟩ : ∃ nd, n.literal.drop (commonPrefixLen n.literal l) = nd := ⟨_, rfl⟩
      have el : l = pre ++ ld := by rw [← hpre, ← hld]; simp
      have en : n.literal = pre ++ nd := by rw [← hpre, ← hnd, ← htk]; simp
      rw [hnd, hld] at hrk
      rw [val_some h1, val_some h2]
      simp only [splitNode, hpre]
      by_cases hpx : pre <+: x
      · rw [if_neg (not_not_intro hpx), if_neg (by simp)]
        obtain ⟨y, rfl⟩ := hpx
        simp only [List.drop_left]
        have hyl : y ≠ ld := by rintro rfl; exact hxl el.symm
        have e1 : (g (freshLit ld)).literal = ld := hg.literal _
        have e2 : (g (freshLit ld)).hasValue = true := hg.hasValue _
        have hx' : (∀ n, (g n).node = n.node) ∨ ¬ ld <+: y := by
          rcases hx with hx | hx
          · exact .inl hx
          · right; intro h; apply hx; rw [el]; exact List.prefix_append_right_inj pre |>.mpr h
        have hhit : hit? (splitChildren g n l) y = if rk ld = rk y then some (g (freshLit ld)) else
            if rk nd = rk y then some { n with literal := nd } else none := by
          unfold splitChildren
          simp only [hld, hnd]
          split
          · rw [hit_cons, hit_cons, e1]; rfl
          · rw [hit_cons, hit_cons, e1]
            simp only
            by_cases h3 : rk nd = rk y
            · rw [if_pos h3, if_neg (by omega), if_pos h3]
            · rw [if_neg h3, if_neg h3]; rfl
        -- the old node
        have hold : val t (pre ++ y) = if rk nd = rk y then val ⟨splitChildren g n l, []⟩ y else none := by
          rw [val_some h1]
          by_cases h3 : rk nd = rk y
          · rw [if_pos h3, val_some (t := ⟨splitChildren g n l, []⟩) (by rw [hhit, if_neg (by omega), if_pos h3])]
            simp only [en, List.append_cancel_left_eq, List.prefix_append_right_inj, List.length_append, List.drop_append]
            have e0 : List.drop (pre.length + nd.length) pre = [] := List.drop_eq_nil_of_le (by omega)
            simp [e0]
          · rw [if_neg h3]
            have hne : nd ≠ y := by rintro rfl; exact h3 rfl
            cases hn : n.node with
            | none => simp only; rw [if_neg (by rw [en]; simpa using hne)]
            | some c =>
              simp only
              rw [if_pos]
              rw [en, List.prefix_append_right_inj]
              intro hp
              by_cases hnil : nd = []
              · rcases hs' with h4 | ⟨h4, _⟩
                · apply h4; rw [en, el, hnil]; simp
                · rw [hn] at h4; simp at h4
              · exact h3 (prefix_rk hp hnil)
        rw [← val_some h1, hold]
        by_cases h3 : rk nd = rk y
        · rw [if_pos h3]
        · rw [if_neg h3]
          by_cases h4 : rk ld = rk y
          · rw [val_some (t := ⟨splitChildren g n l, []⟩) (by rw [hhit, if_pos h4])]
            rcases hx' with hx | hx
            · rw [hx]
              simp only [freshLit]
              exact if_neg (by rw [show (g _).literal = ld from hg.literal _]; exact fun h => hyl h.symm)
            · cases (g (freshLit ld)).node with
              | none => exact if_neg (by rw [e1]; exact fun h => hyl h.symm)
              | some c => exact if_pos (by rw [e1]; exact hx)
          · rw [val_none (t := ⟨splitChildren g n l, []⟩) (by rw [hhit, if_neg h4, if_neg h3])]
      · rw [if_pos hpx]
        have hnp : ¬ n.literal <+: x := by
          intro h; apply hpx; rw [en] at h; exact (List.prefix_append pre nd).trans h
        cases n.node with
        | none => simp only; rw [if_neg (by rintro rfl; exact hnp (List.prefix_refl _))]
        | some c => simp only; rw [if_pos hnp]
    · have hh := (hit_replace hs hrk' x).2 hrx
      rw [← ht] at hh
      cases h1 : hit? t.literalChildren x with
      | none => rw [val_none h1, val_none (by rw [hh, h1])]
      | some n => rw [val_some h1, val_some (by rw [hh, h1])]
  | down t l A B n c c' ht hr hp hc hne _ ih =>
    have hs := hi.lits; rw [ht] at hs
    by_cases hrx : rk x = rk n.literal
    · obtain ⟨h1, h2⟩ := (hit_replace hs (n' := { n with node := some c' }) rfl x).1 hrx
      rw [← ht] at h1
      rw [val_some h1, val_some h2, hc]
      simp only
      by_cases hpx : n.literal <+: x
      · rw [if_neg (not_not_intro hpx), if_neg (not_not_intro hpx)]
        split
        · rfl
        · obtain ⟨y, rfl⟩ := hpx
          obtain ⟨ly, rfl⟩ := hp
          simp only [List.drop_left] at ih ⊢
          apply ih (hi.child n (by rw [ht]; simp) c hc)
          · rintro rfl; exact hxl rfl
          · rcases hx with hx | hx
            · exact .inl hx
            · right; intro h; apply hx; exact List.prefix_append_right_inj _ |>.mpr h
      · rw [if_pos hpx, if_pos hpx]
    · have hh := (hit_replace hs (n' := { n with node := some c' }) rfl x).2 hrx
      rw [← ht] at hh
      cases h1 : hit? t.literalChildren x with
      | none => rw [val_none h1, val_none (by rw [hh, h1])]
      | some n => rw [val_some h1, val_some (by rw [hh, h1])]

theorem val_parsers (t : SuffixTree) (ps : List ParserNode) (x : Bytes) :
    val { t with parserChildren := ps } x = val t x := by
  cases h : hit? t.literalChildren x with
  | none => rw [val_none h, val_none (t := { t with parserChildren := ps }) h]
  | some n => rw [val_some h, val_some (t := { t with parserChildren := ps }) h]

/-- A literal pattern answers `parse`, whatever parsers there are. -/
theorem parse_of_val {t : SuffixTree} (hi : Inv Utf8 t) {x : Bytes} (hx : Utf8 x) {q : Pattern} (hv : val t x = some q)
    {r : Option MatchResult} (h : t.parse x = .ok r) : r = some (MatchResult.new q) := by
  have := parse_partial hi hx h
  unfold val at hv
  cases hw : walk t x with
  | found n => rw [hw] at this hv; simp only at hv this; rw [this, hv]; rfl
  | stuck c rest => rw [hw] at hv; simp at hv

/-! ### tries without parsers -/

inductive NoParsers : SuffixTree → Prop
  | mk (t : SuffixTree) (hp : t.parserChildren = []) (child : ∀ n ∈ t.literalChildren, ∀ c, n.node = some c → NoParsers c) : NoParsers t

theorem NoParsers.parsers {t : SuffixTree} (h : NoParsers t) : t.parserChildren = [] := by cases h; assumption
theorem NoParsers.child {t : SuffixTree} (h : NoParsers t) : ∀ n ∈ t.literalChildren, ∀ c, n.node = some c → NoParsers c := by
  cases h; assumption

theorem noParsers_replace {t : SuffixTree} {A B : List LiteralNode} {n' : LiteralNode} (h : NoParsers t)
    (hsub : ∀ m, m ∈ A ∨ m ∈ B → m ∈ t.literalChildren) (hn : ∀ c, n'.node = some c → NoParsers c) :
    NoParsers { t with literalChildren := A ++ n' :: B } := by
  refine .mk _ h.parsers ?_
  intro m hm c hc
  simp at hm
  rcases hm with hm | rfl | hm
  · exact h.child m (hsub m (.inl hm)) c hc
  · exact hn c hc
  · exact h.child m (hsub m (.inr hm)) c hc

theorem ins_noParsers {q : Pattern} {t t' : SuffixTree} {l : Bytes} (h : Ins (setPat q) t l t') (hn : NoParsers t) :
    NoParsers t' := by
  induction h with
  | miss t l A B ht hA hB =>
    exact noParsers_replace hn (by intro m hm; rw [ht]; simpa using hm) (by simp [setPat, freshLit])
  | exact t l A B n ht hl hv =>
    exact noParsers_replace hn (by intro m hm; rw [ht]; rcases hm with hm | hm <;> simp [hm]) (fun c hc => hn.child n (by rw [ht]; simp) c hc)
  | split t l A B n ht hr hs hpos hrk =>
    refine noParsers_replace hn (by intro m hm; rw [ht]; rcases hm with hm | hm <;> simp [hm]) ?_
    intro c hc
    simp [splitNode] at hc; subst hc
    refine .mk _ rfl ?_
    intro m hm c hc
    rcases (splitChildren_mem _ _ _ _).mp hm with rfl | rfl
    · simp [setPat, freshLit] at hc
    · exact hn.child n (by rw [ht]; simp) c hc
  | down t l A B n c c' ht hr hp hc hne _ ih =>
    refine noParsers_replace hn (by intro m hm; rw [ht]; rcases hm with hm | hm <;> simp [hm]) ?_
    intro d hd
    simp at hd; subst hd
    exact ih (hn.child n (by rw [ht]; simp) c hc)

theorem noParsers_stuck {t : SuffixTree} (h : NoParsers t) {x : Bytes} {c : SuffixTree} {rest : Bytes}
    (hw : walk t x = .stuck c rest) : c.parserChildren = [] := by
  fun_induction walk t x with
  | case1 => simp at hw; rw [← hw.1]; exact h.parsers
  | case2 => simp at hw
  | case3 => simp at hw; rw [← hw.1]; exact h.parsers
  | case4 => simp at hw; rw [← hw.1]; exact h.parsers
  | case5 => simp at hw
  | case6 t x n hh d hc hp hv ih => exact ih (h.child n (hit_mem hh) d hc) hw

theorem parse_noParsers {t : SuffixTree} (hn : NoParsers t) (hi : Inv Utf8 t) {x : Bytes} (hx : Utf8 x)
    {r : Option MatchResult} (h : t.parse x = .ok r) : r = (val t x).map MatchResult.new := by
  have := parse_partial hi hx h
  unfold val
  cases hw : walk t x with
  | found n => rw [hw] at this; exact this
  | stuck c rest =>
    rw [hw] at this
    simp only at this
    rw [noParsers_stuck hn hw, parseWithParsers] at this
    simp at this; simp [← this]

end Verif
