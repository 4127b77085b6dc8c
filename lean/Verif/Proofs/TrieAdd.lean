import Verif.Proofs.TriePanic
import Verif.Proofs.TableChange
/-! Exactly when adding a pattern to the trie panics. -/
namespace Verif
open Spec

theorem treeAt_utf8 {t : SuffixTree} {pre : Bytes} {c : SuffixTree} (h : TreeAt t pre c) (hi : Inv Utf8 t) : Utf8 pre := by
  induction h with
  | here => exact utf8_nil
  | down t n c pre d hn h0 hc h ih => exact utf8_append (hi.lits.label n hn) (ih (hi.child n hn c hc))

theorem treeAt_child {t : SuffixTree} {pre : Bytes} {c : SuffixTree} (h : TreeAt t pre c) {n : LiteralNode} (hn : n ∈ c.literalChildren)
    (h0 : n.literal ≠ []) {d : SuffixTree} (hd : n.node = some d) : TreeAt t (pre ++ n.literal) d := by
  induction h with
  | here =>
    have := TreeAt.down _ n d [] d hn h0 hd (.here d)
    simpa using this
  | down t m c pre e hm h1 hc h ih =>
    rw [List.append_assoc]
    exact .down _ _ _ _ _ hm h1 hc (ih hn)

theorem nentry_prefix {n : LiteralNode} {x : Bytes} {w : Option Pattern} {ps : List ParserNode} (h : NEntry n x w ps) :
    n.literal <+: x ∧ (x ≠ n.literal → ∃ d, n.node = some d) := by
  rcases h with ⟨_, rfl, _⟩ | ⟨_, c, x', hc, rfl, _⟩
  · exact ⟨List.prefix_refl _, fun h => absurd rfl h⟩
  · exact ⟨List.prefix_append _ _, fun _ => ⟨c, hc⟩⟩

/-- Equal first bytes that are ASCII are a common character. -/
theorem cpl_pos_first {a b : Bytes} (ha : FirstAscii a) (h0 : a ≠ []) (hr : rk a = rk b) : 0 < commonPrefixLen a b := by
  have hbd := firstAscii_boundary ha h0
  cases a with
  | nil => exact absurd rfl h0
  | cons x a =>
    cases b with
    | nil => simp [rk] at hr
    | cons y b =>
      have hxy : x = y := by simpa [rk, UInt8.toNat_inj] using hr
      have : 1 ≤ commonPrefixLen (x :: a) (y :: b) := cpl_max hbd (by simp) (by simp [hxy])
      omega

theorem cpl_ge {a b w : Bytes} (ha : Utf8 a) (hw : Utf8 w) (h1 : w <+: a) (h2 : w <+: b) : w.length ≤ commonPrefixLen a b := by
  obtain ⟨a', rfl⟩ := h1
  obtain ⟨b', rfl⟩ := h2
  exact cpl_max (isCharBoundary_append_right (utf8_cancel hw ha)) (by simp) (by simp)

theorem commonStart_exists (a b : Bytes) : ∃ c, CommonStart a b c := by
  induction a generalizing b with
  | nil => exact ⟨[], List.nil_prefix, List.nil_prefix, fun c h _ => h.length_le⟩
  | cons x a ih =>
    cases b with
    | nil => exact ⟨[], List.nil_prefix, List.nil_prefix, fun c _ h => h.length_le⟩
    | cons y b =>
      by_cases hxy : x = y
      · subst hxy
        obtain ⟨c, hc⟩ := ih b
        exact ⟨x :: c, commonStart_append (l := [x]) hc⟩
      · exact ⟨[], commonStart_rk (by simpa [rk, UInt8.toNat_inj] using hxy)⟩

section
variable {rows : List Row} {t : SuffixTree}

/-- Where two rows part there is a stop point, and it is made of whole characters. -/
theorem rows_part (hi : Inv Utf8 t) (h : LitRel rows t) {r s : Row} (hr : r ∈ rows) (hs : s ∈ rows) (hne : r.text ≠ s.text) :
    ∃ c, CommonStart r.text s.text c ∧ StopPoint rows c ∧ Utf8 c := by
  obtain ⟨c, hc⟩ := commonStart_exists r.text s.text
  have hst : StopPoint rows c := .inr (.inr ⟨r, hr, s, hs, hne, hc⟩)
  obtain ⟨d, hd⟩ := (treeAt_iff hi h).mpr hst
  exact ⟨c, hc, hst, treeAt_utf8 hd hi⟩

theorem split_table (hi : Inv Utf8 t) (h : LitRel rows t) {l : Bytes} (hl : Utf8 l) (hnt : ¬Troubled t l) :
    (∃ c y, walk t l = .stuck c y ∧ ∃ n ∈ c.literalChildren, rk n.literal = rk y ∧ SplitClash n.literal y) ↔ SplitPanics rows l := by
  constructor
  · rintro ⟨c, y, hwx, n, hn, hr, hy0, hsp⟩
    have hw := walk_spec hi l
    rw [hwx] at hw
    obtain ⟨pre, rfl, htree, hmax⟩ := hw
    obtain ⟨hic, hsc⟩ := treeAt_shape htree hi h.shape
    have hpu := treeAt_utf8 htree hi
    have hyu : Utf8 y := utf8_cancel hpu hl
    have hnu := hic.lits.label n hn
    have hle := cpl_le n.literal y
    have hte := cpl_take n.literal y
    have hbu := (boundary_split hyu (cpl_boundary_right hnu hyu)).1
    have hmx : ∀ w, Utf8 w → w <+: n.literal → w <+: y → w.length ≤ commonPrefixLen n.literal y := fun w h1 h2 h3 => cpl_ge hnu h1 h2 h3
    have hpos : y ≠ [] → n.literal ≠ [] → FirstAscii n.literal → 0 < commonPrefixLen n.literal y := fun _ h1 h2 => cpl_pos_first h2 h1 hr
    generalize commonPrefixLen n.literal y = k at hle hte hbu hmx hpos hsp hy0
    have hyne : y ≠ [] := by rintro rfl; simp at hy0
    have hn0 : n.literal ≠ [] := by
      intro h0; rw [h0] at hr; exact hyne (rk_eq_nil.mp hr.symm)
    have hnc : ¬Clash c y := fun hc => hnt ⟨pre, c, y, rfl, htree, hc⟩
    have hk : 0 < k := hpos hyne hn0 ((firstAscii_or hnu).resolve_right fun h1 => hnc ⟨hyne, ⟨n, hn, hn0⟩, .inr ⟨n, hn, h1⟩⟩)
    obtain ⟨x', w, ps, he⟩ := nentry_exists hsc hic hn
    obtain ⟨r, hr', z, _, hz, rfl⟩ := (below_iff hi h htree (· = x')).mp ⟨n, hn, hn0, x', w, ps, he, rfl⟩
    obtain ⟨⟨x'', hx''⟩, hnode⟩ := nentry_prefix he
    have hzk : z = y.take k ++ (n.literal.drop k ++ x'') := by
      rw [← hx'', ← hte, ← List.append_assoc, List.take_append_drop]
    refine ⟨r, hr', pre ++ y.take k, y.drop k, by simp, hy0, ⟨utf8_append hpu hbu, ?_, ?_, ?_⟩, ?_, ?_⟩
    · rw [hz, hzk, ← List.append_assoc]; exact List.prefix_append _ _
    · exact (List.prefix_append_right_inj pre).mpr (List.take_prefix _ _)
    · intro c' hcu h1 h2
      by_cases hlen : c'.length ≤ pre.length
      · simp; omega
      obtain ⟨v, rfl⟩ : pre <+: c' := List.prefix_of_prefix_length_le (List.prefix_append _ _) h2 (by omega)
      rw [hz] at h1
      have h1 := (List.prefix_append_right_inj pre).mp h1
      have h2 := (List.prefix_append_right_inj pre).mp h2
      have hv : Utf8 v := utf8_cancel hpu hcu
      have hnp : n.literal <+: z := ⟨x'', hx''⟩
      by_cases hvn : v.length ≤ n.literal.length
      · have := hmx v hv (List.prefix_of_prefix_length_le h1 hnp hvn) h2
        simp; omega
      · exfalso
        have hnv : n.literal <+: v := List.prefix_of_prefix_length_le hnp h1 (by omega)
        obtain ⟨d, hd⟩ := hnode (by
          intro e
          have := h1.length_le
          rw [e] at this; omega)
        have := hmax _ d (treeAt_child htree hn hn0 hd) ((List.prefix_append_right_inj pre).mpr (hnv.trans h2))
        simp only [List.length_append] at this
        exact hn0 (List.length_eq_zero_iff.mp (by omega))
    · intro hst
      obtain ⟨d, hd⟩ := (treeAt_iff hi h).mpr hst
      have := hmax _ d hd ((List.prefix_append_right_inj pre).mpr (List.take_prefix _ _))
      have hyl := List.length_pos_iff.mpr hyne
      simp only [List.length_append, List.length_take] at this
      omega
    · rcases hsp with h1 | h1
      · exact .inl h1
      · exact .inr ⟨n.literal.drop k ++ x'', by rw [hz, hzk]; simp, nonAsciiFirst_append h1⟩
  · rintro ⟨r, hr, b, y', rfl, hy0, ⟨hbu, hb1, hb2, hb3⟩, hnst, hsp⟩
    have hw := walk_spec hi (b ++ y')
    cases hwx : walk t (b ++ y') with
    | found n =>
      exfalso
      rw [hwx] at hw
      obtain ⟨s, hs, hse, _⟩ := (h.rows.entries _ _ _).mp hw
      have hy : 0 < y'.length := List.length_pos_iff.mpr hy0
      have hne : r.text ≠ s.text := by
        intro e
        have := hb3 (b ++ y') hl (by rw [e, hse]; exact List.prefix_refl _) (List.prefix_refl _)
        simp only [List.length_append] at this; omega
      obtain ⟨c, hcs, hst, hcu⟩ := rows_part hi h hr hs hne
      rw [hse] at hcs
      have h1 := hb3 c hcu hcs.1 hcs.2.1
      have h2 := hcs.2.2 b hb1 hb2
      have : c = b := (List.prefix_of_prefix_length_le hcs.1 hb1 h1).eq_of_length (by omega)
      rw [this] at hst
      exact hnst hst
    | stuck c y =>
      rw [hwx] at hw
      obtain ⟨pre, he, htree, hmax⟩ := hw
      obtain ⟨hic, hsc⟩ := treeAt_shape htree hi h.shape
      have hpu := treeAt_utf8 htree hi
      have hyu : Utf8 y := by rw [he] at hl; exact utf8_cancel hpu hl
      have hpstop : StopPoint rows pre := (treeAt_iff hi h).mp ⟨c, htree⟩
      have hprel : pre <+: b ++ y' := ⟨y, he.symm⟩
      by_cases hlt : b.length < pre.length
      · exfalso
        have hpre : pre ≠ [] := by rintro rfl; simp at hlt
        obtain ⟨s, hs, hps⟩ : ∃ s ∈ rows, pre <+: s.text := by
          rcases hpstop with h1 | ⟨s, hs, h1, _⟩ | ⟨s, hs, _, _, _, h1⟩
          · exact absurd h1 hpre
          · exact ⟨s, hs, by rw [h1]; exact List.prefix_refl _⟩
          · exact ⟨s, hs, h1.1⟩
        have hnp : ¬pre <+: r.text := fun h1 => by
          have := hb3 pre hpu h1 hprel
          omega
        have hne : r.text ≠ s.text := fun e => hnp (by rw [e]; exact hps)
        obtain ⟨c0, hcs, hst, hcu⟩ := rows_part hi h hr hs hne
        have hlen : c0.length < pre.length := by
          rcases Nat.lt_or_ge c0.length pre.length with h1 | h1
          · exact h1
          · exact absurd ((List.prefix_of_prefix_length_le hps hcs.2.1 h1).trans hcs.1) hnp
        have hcp : c0 <+: pre := List.prefix_of_prefix_length_le hcs.2.1 hps (by omega)
        have h1 := hb3 c0 hcu hcs.1 (hcp.trans hprel)
        have hbp : b <+: pre := List.prefix_of_prefix_length_le hb2 hprel (by omega)
        have h2 := hcs.2.2 b hb1 (hbp.trans hps)
        have : c0 = b := (List.prefix_of_prefix_length_le hcs.1 hb1 h1).eq_of_length (by omega)
        rw [this] at hst
        exact hnst hst
      · obtain ⟨w, rfl⟩ : pre <+: b := List.prefix_of_prefix_length_le hprel hb2 (by omega)
        have hw0 : w ≠ [] := by rintro rfl; exact hnst (by simpa using hpstop)
        rw [List.append_assoc] at he
        have he : w ++ y' = y := List.append_cancel_left he
        subst he
        have hwu : Utf8 w := utf8_cancel hpu hbu
        obtain ⟨z, hz⟩ := hb1
        obtain ⟨n, hn, hn0, x, wh, ps, hne, rfl⟩ := (below_iff hi h htree (· = w ++ z)).mpr
          ⟨r, hr, w ++ z, by simp [hw0], by rw [← hz]; simp, rfl⟩
        obtain ⟨hnp, hnode⟩ := nentry_prefix hne
        have hnu := hic.lits.label n hn
        have hdown : n.literal <+: w → w ++ z = n.literal := by
          intro h1
          apply Classical.byContradiction
          intro h2
          obtain ⟨d, hd⟩ := hnode h2
          have := hmax _ d (treeAt_child htree hn hn0 hd) (by
            rw [List.append_assoc]; exact (List.prefix_append_right_inj pre).mpr (h1.trans (List.prefix_append _ _)))
          simp only [List.length_append] at this
          exact hn0 (List.length_eq_zero_iff.mp (by omega))
        have hwn : w <+: n.literal := by
          rcases Nat.lt_or_ge n.literal.length w.length with h1 | h1
          · have h2 := hdown (List.prefix_of_prefix_length_le hnp (List.prefix_append _ _) (by omega))
            have := congrArg List.length h2
            simp at this; omega
          · exact List.prefix_of_prefix_length_le (List.prefix_append _ _) hnp h1
        have hk : commonPrefixLen n.literal (w ++ y') = w.length := by
          apply Nat.le_antisymm
          · have hle := cpl_le n.literal (w ++ y')
            have hte := cpl_take n.literal (w ++ y')
            have hku := (boundary_split hyu (cpl_boundary_right hnu hyu)).1
            generalize commonPrefixLen n.literal (w ++ y') = k at hle hte hku
            have h1 : (w ++ y').take k <+: w ++ z := by rw [← hte]; exact (List.take_prefix _ _).trans hnp
            have := hb3 (pre ++ (w ++ y').take k) (utf8_append hpu hku)
              (by rw [← hz, List.append_assoc]; exact (List.prefix_append_right_inj pre).mpr h1)
              (by rw [List.append_assoc]; exact (List.prefix_append_right_inj pre).mpr (List.take_prefix _ _))
            simp at this hle
            omega
          · exact cpl_ge hnu hwu hwn (List.prefix_append _ _)
        refine ⟨c, w ++ y', rfl, n, hn, ?_, ?_⟩
        · rw [← nentry_rk hne, ← prefix_rk (List.prefix_append w z) hw0, prefix_rk (List.prefix_append w y') hw0]
        · unfold SplitClash
          rw [hk]
          refine ⟨by simpa using hy0, ?_⟩
          rcases hsp with h1 | ⟨z', hz', h1⟩
          · exact .inl (by simpa using h1)
          · right
            rw [← hz] at hz'
            have := List.append_cancel_left hz'
            subst this
            obtain ⟨m, hm⟩ := hwn
            rw [← hm, List.drop_left]
            rw [← hm] at hnp
            refine nonAsciiFirst_prefix h1 ((List.prefix_append_right_inj w).mp hnp) ?_
            rintro rfl
            simp at hm
            have := hdown (by rw [← hm]; exact List.prefix_refl _)
            rw [← hm] at this
            simp at this
            exact nonAsciiFirst_ne h1 this

theorem addClash_iff {T : Table} (hi : Inv Utf8 t) (h : LitRel T.rows t) {p : Pattern} (hp : Utf8Lits p) : AddClash t p ↔ T.AddPanics p := by
  have key : ∀ l rest, p.pattern = .literal l :: rest → (InsClash t l ↔ LookupPanics T.rows l ∨ SplitPanics T.rows l) := by
    intro l rest he
    have hl : Utf8 l := hp l (by rw [he]; simp)
    unfold InsClash
    rw [← troubled_table hi h]
    by_cases ht : Troubled t l
    · simp [ht]
    · rw [split_table hi h hl ht]
  constructor
  · rintro ⟨l, rest, he, h1⟩; exact ⟨l, rest, he, (key l rest he).mp h1⟩
  · rintro ⟨l, rest, he, h1⟩; exact ⟨l, rest, he, (key l rest he).mpr h1⟩

end

theorem litRel_step {sip : Bytes → UInt64} {T : Table} {t t' : SuffixTree} {p : Pattern} (hs : Step sip t p t') (hi : Inv Utf8 t)
    (hu : Utf8Lits p) (hne : NonemptyLits p) (hsl : SplitLiterals p) (h : LitRel T.rows t) : LitRel (T.add p).rows t' := by
  cases hs with
  | empty he =>
    have : T.add p = T := by unfold Table.add; rw [he]
    rw [this]; exact h
  | lit l rest he t' h1 =>
    have hadd : T.add p = { T with rows := addLiteralLed T.rows l rest.isEmpty p } := by unfold Table.add; rw [he]
    rw [hadd]
    have hpn := parserNext_of hsl he
    have hl0 : l ≠ [] := hne l (by rw [he]; simp)
    exact ⟨(ins_shape hpn h1 hi h.shape).1, rowsRel_add h.rows he hu hne hpn (ins_effect hpn h1 hi h.shape (fun h0 => absurd h0 hl0))⟩
  | par a rest he =>
    have hadd : T.add p = { T with parserLed := addParserLed a p T.parserLed } := by unfold Table.add; rw [he]
    rw [hadd]
    refine ⟨.mk _ h.shape.inner h.shape.entry h.shape.child, ⟨?_, h.rows.uniq, h.rows.ok⟩⟩
    intro x w ps
    rw [entryAt_parsers]
    exact h.rows.entries x w ps

/-- Building panics exactly if one of the additions does, and otherwise gives a trie in which comparisons stay predictable. -/
theorem build_outcome (sip : Bytes → UInt64) (ps : List Pattern) (hu : ∀ p ∈ ps, Utf8Lits p) (hne : ∀ p ∈ ps, NonemptyLits p)
    (hsl : ∀ p ∈ ps, SplitLiterals p) :
    Outcome (∃ A p B, ps = A ++ p :: B ∧ (Table.of A).AddPanics p) (SuffixTree.build sip ps) ∧
    ∀ t, SuffixTree.build sip ps = .ok t → SepTree t := by
  have key : ∀ (B : List Pattern) (T : Table) (t : SuffixTree), Inv Utf8 t → SepTree t → LitRel T.rows t → (∀ p ∈ B, Utf8Lits p) →
      (∀ p ∈ B, NonemptyLits p) → (∀ p ∈ B, SplitLiterals p) →
      Outcome (∃ A p C, B = A ++ p :: C ∧ (A.foldl Table.add T).AddPanics p) (B.foldlM (fun t p => SuffixTree.addPattern sip t p) t) ∧
      ∀ t', B.foldlM (fun t p => SuffixTree.addPattern sip t p) t = .ok t' → SepTree t' := by
    intro B
    induction B with
    | nil =>
      intro T t hi hs h _ _ _
      refine ⟨outcome_ok ?_ rfl, ?_⟩
      · rintro ⟨A, p, C, e, _⟩; simp at e
      · intro t' e
        simp [pure, Except.pure] at e
        rw [← e]; exact hs
    | cons p B ih =>
      intro T t hi hs h hu hne hsl
      have ho := insert_outcome sip hi hs (hu p (by simp))
      rw [addClash_iff hi h (hu p (by simp))] at ho
      by_cases hp : T.AddPanics p
      · have e : (p :: B).foldlM (fun t p => SuffixTree.addPattern sip t p) t = .error .slice := by
          simp only [List.foldlM_cons, bind, Except.bind, SuffixTree.addPattern, ho.1 hp]
        refine ⟨outcome_error ⟨[], p, B, rfl, hp⟩ e, fun t' e' => ?_⟩
        rw [e] at e'; simp at e'
      · obtain ⟨t1, h1⟩ := ho.2 hp
        have e : (p :: B).foldlM (fun t p => SuffixTree.addPattern sip t p) t = B.foldlM (fun t p => SuffixTree.addPattern sip t p) t1 := by
          simp only [List.foldlM_cons, bind, Except.bind, SuffixTree.addPattern, h1]
        obtain ⟨hst, hi1⟩ := step_of_insert hi (hu p (by simp)) h1
        have hs1 := step_sep hst hi hs (fun hc => hp ((addClash_iff hi h (hu p (by simp))).mp hc))
        have h2 := litRel_step hst hi (hu p (by simp)) (hne p (by simp)) (hsl p (by simp)) h
        rw [e]
        obtain ⟨i1, i2⟩ := ih (T.add p) t1 hi1 hs1 h2 (fun q hq => hu q (by simp [hq])) (fun q hq => hne q (by simp [hq]))
          (fun q hq => hsl q (by simp [hq]))
        refine ⟨outcome_congr ?_ i1, i2⟩
        constructor
        · rintro ⟨A, q, C, rfl, hq⟩; exact ⟨p :: A, q, C, rfl, hq⟩
        · rintro ⟨A, q, C, hA, hq⟩
          cases A with
          | nil => simp at hA; obtain ⟨rfl, rfl⟩ := hA; exact absurd hq hp
          | cons a A => simp at hA; obtain ⟨rfl, rfl⟩ := hA; exact ⟨A, q, C, rfl, hq⟩
  refine key ps ⟨[], []⟩ SuffixTree.new inv_new sepTree_new ⟨tshape_new, ⟨?_, by simp, by simp⟩⟩ hu hne hsl
  intro x w ps
  rw [entryAt_iff]
  simp [SuffixTree.new]

end Verif
