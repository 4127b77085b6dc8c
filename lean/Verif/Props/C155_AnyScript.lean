import Verif.Props.C154_SmallPanics
/-! C155: a pattern source in any script can be tested three patterns at a time. -/
namespace Verif
open Spec Fewer

namespace AnyScript
open SmallPanics

theorem more_none {X : List Pattern} {l : Bytes} (h : ∀ q ∈ X, ∀ rest, q.pattern ≠ .literal l :: rest) : (rowOf (Table.of X).rows l).more = none := by
  cases hm : (rowOf (Table.of X).rows l).more with
  | none => rfl
  | some q =>
    rw [rowOf_rowAt] at hm
    cases hr : rowAt (Table.of X).rows l with
    | none => rw [hr] at hm; simp at hm
    | some row =>
      rw [hr] at hm
      obtain ⟨h1, h2⟩ := rowAt_text hr
      obtain ⟨k1, rest, k2, k3⟩ := rowAt_source X row h1 q hm
      rw [h2] at k3
      exact absurd k3 (h q k1 rest)

/-- Rows stay when a pattern is added whose literal no other pattern goes on from. -/
theorem has_add {T : Table} {p : Pattern} {l w : Bytes} {rest : List Token} (e : p.pattern = .literal l :: rest) (hm : (rowOf T.rows l).more = none) (hw : w ≠ l)
    (h : Has T.rows w) : Has (T.add p).rows w := by
  refine has_of ?_
  rw [Three.add_lead _ e]
  simp only [rowAt_add]
  rw [if_neg hw]
  obtain ⟨row, h1, h2⟩ := h
  have h3 : rowAt T.rows w ≠ none := fun k => rowAt_none.mp k row h1 h2
  split
  · rename_i hc
    exact absurd ⟨hm, row, h1, h2 ▸ hc.2.2, h2 ▸ hw⟩ hc.2.1
  · exact h3

theorem pair_from {A : List Pattern} {w1 w2 : Bytes} {q1 q2 : Pattern} {r1 r2 : List Token} (k1 : q1 ∈ A) (e1 : q1.pattern = .literal w1 :: r1) (k2 : q2 ∈ A)
    (e2 : q2.pattern = .literal w2 :: r2) :
    ∃ X : List Pattern, X.Sublist A ∧ X.length ≤ 2 ∧ Has (Table.of X).rows w1 ∧ Has (Table.of X).rows w2 ∧ ∀ q ∈ X, q = q1 ∨ q = q2 := by
  by_cases hw : w1 = w2
  · subst hw
    have : Has (Table.of [q1]).rows w1 := has_of (Three.rowAt_lead ⟨[], []⟩ e1)
    exact ⟨[q1], List.singleton_sublist.mpr k1, by simp, this, this, by simp⟩
  · have hq : q1 ≠ q2 := by
      rintro rfl
      rw [e1] at e2
      simp at e2
      exact hw e2.1
    rcases Three.pair_sublist k1 k2 hq with k | k
    · have := Three.two_rows ⟨[], []⟩ e1 e2 hw (rowAt_none.mpr (by simp))
      exact ⟨[q1, q2], k, by simp, has_of this.1, has_of this.2, by simp⟩
    · have := Three.two_rows ⟨[], []⟩ e2 e1 (Ne.symm hw) (rowAt_none.mpr (by simp))
      exact ⟨[q2, q1], k, by simp, has_of this.2, has_of this.1, by simp⟩

/-- Two rows in front of the last pattern. -/
theorem pair_last {A : List Pattern} {p : Pattern} {w1 w2 : Bytes} (h1 : Has (Table.of (A ++ [p])).rows w1) (h2 : Has (Table.of (A ++ [p])).rows w2) :
    ∃ X : List Pattern, X.Sublist A ∧ X.length ≤ 2 ∧ Has (Table.of (X ++ [p])).rows w1 ∧ Has (Table.of (X ++ [p])).rows w2 := by
  by_cases hp : ∃ l rest, p.pattern = .literal l :: rest
  · obtain ⟨l, rest, e⟩ := hp
    have src : ∀ w, w ≠ l → Has (Table.of (A ++ [p])).rows w → ∃ q ∈ A, ∃ rest, q.pattern = .literal w :: rest := by
      intro w hw h
      obtain ⟨q, k1, r, k2⟩ := has_source h
      rcases List.mem_append.mp k1 with k1 | k1
      · exact ⟨q, k1, r, k2⟩
      · simp at k1
        subst k1
        rw [e] at k2
        simp at k2
        exact absurd k2.1.symm hw
    have own : ∀ X : List Pattern, Has (Table.of (X ++ [p])).rows l := fun X => by
      rw [table_snoc]
      exact has_of (Three.rowAt_lead _ e)
    have one : ∀ w, w ≠ l → Has (Table.of (A ++ [p])).rows w → ∃ q ∈ A, Has (Table.of ([q] ++ [p])).rows w := by
      intro w hw h
      obtain ⟨q, k1, r, k2⟩ := src w hw h
      exact ⟨q, k1, has_of (Three.two_rows ⟨[], []⟩ k2 e hw (rowAt_none.mpr (by simp))).1⟩
    by_cases c1 : w1 = l
    · by_cases c2 : w2 = l
      · subst c1 c2
        exact ⟨[], List.nil_sublist _, by simp, own _, own _⟩
      · obtain ⟨q, k1, k2⟩ := one w2 c2 h2
        exact ⟨[q], List.singleton_sublist.mpr k1, by simp, c1 ▸ own _, k2⟩
    · by_cases c2 : w2 = l
      · obtain ⟨q, k1, k2⟩ := one w1 c1 h1
        exact ⟨[q], List.singleton_sublist.mpr k1, by simp, k2, c2 ▸ own _⟩
      · obtain ⟨q1, k1, r1, e1⟩ := src w1 c1 h1
        obtain ⟨q2, k2, r2, e2⟩ := src w2 c2 h2
        obtain ⟨X, g1, g2, g3, g4, g5⟩ := pair_from k1 e1 k2 e2
        have hm : (rowOf (Table.of X).rows l).more = none := more_none fun q hq rest k => by
          rcases g5 q hq with rfl | rfl
          · rw [e1] at k; simp at k; exact c1 k.1
          · rw [e2] at k; simp at k; exact c2 k.1
        refine ⟨X, g1, g2, ?_, ?_⟩
        · rw [table_snoc]; exact has_add e hm c1 g3
        · rw [table_snoc]; exact has_add e hm c2 g4
  · have same : ∀ X : List Pattern, (Table.of (X ++ [p])).rows = (Table.of X).rows := by
      intro X
      rw [table_snoc]
      unfold Table.add
      split
      · rfl
      · rename_i l rest e
        exact absurd ⟨l, rest, e⟩ hp
      · rfl
    rw [same] at h1 h2
    obtain ⟨X, g1, g2, g3, g4⟩ := pair_has h1 h2
    exact ⟨X, g1, g2, by rw [same]; exact g3, by rw [same]; exact g4⟩

/-- The end of the literal of the last pattern is a stop. -/
theorem stop_last {T : Table} {p : Pattern} {l : Bytes} (h : GoesOn p l) : StopPoint (T.add p).rows l := by
  obtain ⟨rest, h0, e⟩ := h
  have hre : rest.isEmpty = false := by cases rest <;> simp_all
  have ht := rowOf_text T.rows l
  rw [Three.add_lead _ e]
  simp only [hre, addLiteralLed]
  split
  · simp_all
  · split
    · rename_i hc
      obtain ⟨s, hs, k1, k2⟩ := hc.2
      exact .inr (.inr ⟨_, List.mem_cons_self .., s, by simp [hs, k2], by rw [ht]; exact Ne.symm k2, by
        rw [ht]; exact ⟨List.prefix_refl _, k1, fun c k _ => k.length_le⟩⟩)
    · exact .inr (.inl ⟨_, List.mem_cons_self .., ht, by simp⟩)

theorem more_last {T : Table} {p : Pattern} {l : Bytes} (h : GoesOn p l) {row : Row} (hr : row ∈ (T.add p).rows) (ht : row.text = l) :
    row.more = some p ∨ row.more = none := by
  obtain ⟨rest, h0, e⟩ := h
  have hre : rest.isEmpty = false := by cases rest <;> simp_all
  rw [Three.add_lead _ e] at hr
  simp only [hre, addLiteralLed] at hr
  split at hr
  · simp_all
  · split at hr
    · rename_i hc
      rcases List.mem_cons.mp hr with rfl | hr
      · exact .inr hc.1
      · simp [ht] at hr
    · rcases List.mem_cons.mp hr with rfl | hr
      · exact .inl rfl
      · simp [ht] at hr

/-- The only row holds a pattern that runs into trouble. -/
theorem panics_more {T : Table} {b x : Bytes} {c : Pattern} (e0 : T.rows = [⟨b, none, some c⟩]) (hb : b ≠ []) (hx : b ≠ x) (hp : b <+: x) (h : RunsInto c.pattern x) :
    T.Panics x := by
  refine .inr ⟨?_, b, ⟨?_, hp, ?_⟩, .inr ⟨hb, ?_⟩⟩
  · rw [e0]
    simp only [List.mem_singleton]
    rintro _ rfl
    exact hx
  · rw [e0]
    exact .inr (.inl ⟨_, List.mem_singleton.mpr rfl, rfl, by simp⟩)
  · rw [e0]
    rintro b' (rfl | ⟨s, hs, k, _⟩ | ⟨s, hs, s', hs', k, _⟩) _
    · simp
    · simp only [List.mem_singleton] at hs
      subst hs
      rw [← k]
      exact Nat.le_refl _
    · simp only [List.mem_singleton] at hs hs'
      exact absurd (by rw [hs, hs']) k
  · rw [e0]
    exact ⟨_, List.mem_singleton.mpr rfl, rfl, c, rfl, h⟩

/-- The first of the patterns that begin with parsers runs into trouble. -/
theorem panics_first {T : Table} {x : Bytes} {c : Pattern} {D : List Pattern} (e0 : T = ⟨[], c :: D⟩) (h : RunsInto c.pattern x) : T.Panics x := by
  subst e0
  refine .inr ⟨by simp, [], ⟨.inl rfl, List.nil_prefix, ?_⟩, .inl ⟨rfl, [], c, D, rfl, by simp, h⟩⟩
  rintro b' (rfl | ⟨s, hs, _⟩ | ⟨s, hs, _⟩) _
  · simp
  · simp at hs
  · simp at hs

theorem more_rows {c : Pattern} {b : Bytes} (h : GoesOn c b) : (Table.of [c]).rows = [⟨b, none, some c⟩] := by
  obtain ⟨rest, h0, e⟩ := h
  have hre : rest.isEmpty = false := by cases rest <;> simp_all
  rw [single_rows e, hre]
  rfl

theorem ledBy_own {L : List Pattern} {c : Pattern} {d : Parser} (ho : OwnHeads L) (hc : c ∈ L) (hd : c.pattern.head? = some (.parser d)) : ledBy L d = some c := by
  replace ho := ho.2
  unfold ledBy
  induction L with
  | nil => simp at hc
  | cons q L ih =>
    obtain ⟨h1, h2⟩ := List.pairwise_cons.mp ho
    rcases List.mem_cons.mp hc with rfl | hc
    · simp [hd]
    · have : q.pattern.head? ≠ some (.parser d) := fun k => h1 c hc (k.trans hd.symm)
      rw [List.find?_cons_of_neg (by simpa using this)]
      exact ih hc h2

open Three in
/-- If the last pattern answers in every part in which it comes after at most two others, without a panic, then the whole table does not panic. -/
theorem no_panic_last {A : List Pattern} {p : Pattern} {x : Bytes} (hu : Apart (A ++ [p])) (hl : ∀ l, .literal l ∈ p.pattern → l ≠ [])
    (h : ∀ X : List Pattern, X.Sublist A → X.length ≤ 2 → ¬(Table.of (X ++ [p])).Panics x ∧ Gives (X ++ [p]) p x) : ¬(Table.of (A ++ [p])).Panics x := by
  have hap : ∀ c ∈ A, Apart ([c] ++ [p]) := fun c hc q hq s hs => hu q (by
    simp at hq ⊢; rcases hq with rfl | rfl <;> simp [hc]) s (by simp at hs ⊢; rcases hs with rfl | rfl <;> simp [hc])
  have hap0 : Apart ([] ++ [p]) := fun q hq s hs => hu q (by simp at hq ⊢; simp [hq]) s (by simp at hs ⊢; simp [hs])
  have h0 := h [] (List.nil_sublist _) (by simp)
  have h1 : ∀ c ∈ A, ¬(Table.of ([c] ++ [p])).Panics x ∧ Gives ([c] ++ [p]) p x := fun c hc => h [c] (List.singleton_sublist.mpr hc) (by simp)
  have whole : ∀ l, p.pattern = [.literal l] → ∃ row ∈ (Table.of (A ++ [p])).rows, row.text = x := by
    intro l e
    obtain ⟨rfl, _⟩ := gives_whole hap0 (by simp) e h0.2
    rw [table_snoc]
    exact row_of_at (rowAt_lead _ e)
  have deep : ∀ l, GoesOn p l → l <+: x ∧ l ≠ [] ∧ StopPoint (Table.of (A ++ [p])).rows l := by
    intro l hg
    obtain ⟨_, hd, _⟩ := gives_more hap0 (by simp) hg h0.2
    obtain ⟨rest, _, e⟩ := id hg
    refine ⟨hd.2.1, hl l (by rw [e]; simp), ?_⟩
    rw [table_snoc]
    exact stop_last hg
  rintro (hp | ⟨hno, b, hd, ⟨rfl, C, c, D, ec, _, hc⟩ | ⟨hb, row, hr, e, c, hm, hc⟩⟩)
  · obtain ⟨w1, w2, k1, k2, k3⟩ := lookup_two hp
    obtain ⟨X, g1, g2, g3, g4⟩ := pair_last k1 k2
    exact (h X g1 g2).1 (.inl (k3 _ g3 g4))
  · have hcL : c ∈ (Table.of (A ++ [p])).parserLed := by rw [ec]; simp
    have hown : OwnHeads (Table.of (A ++ [p])).parserLed := ownHeads_fold (A ++ [p]) ⟨[], []⟩ ⟨by simp, .nil⟩
    obtain ⟨d, hdc⟩ := hown.1 c hcL
    obtain ⟨crest, ecp⟩ : ∃ rest, c.pattern = .parser d :: rest := by
      cases hq : c.pattern with
      | nil => rw [hq] at hdc; simp at hdc
      | cons t u => rw [hq] at hdc; simp at hdc; exact ⟨u, by rw [hdc]⟩
    have ec0 : Table.of [c] = ⟨[], [c]⟩ := by
      have : Table.of [c] = (⟨[], []⟩ : Table).add c := rfl
      rw [this, add_par _ ecp]
      rfl
    rcases List.mem_append.mp (table_parserLed _ c hcL) with hcA | hcp
    · cases ep : p.pattern with
      | nil =>
        refine (h1 c hcA).1 ?_
        rw [table_snoc, ec0]
        exact panics_first (D := []) (by unfold Table.add; rw [ep]) hc
      | cons t rest =>
        cases t with
        | literal l =>
          cases rest with
          | nil =>
            obtain ⟨row, k1, k2⟩ := whole l ep
            exact hno row k1 k2
          | cons t rest =>
            obtain ⟨k1, k2, k3⟩ := deep l ⟨t :: rest, by simp, ep⟩
            have := hd.2.2 l k3 k1
            simp at this
            exact k2 this
        | parser a =>
          have hph : p.pattern.head? = some (.parser a) := by rw [ep]; rfl
          have e2 : Table.of ([c] ++ [p]) = ⟨[], addParserLed a p [c]⟩ := by rw [table_snoc, ec0, add_par _ ep]
          by_cases had : d = a
          · subst had
            have hled : ledBy (Table.of (A ++ [p])).parserLed d = some c := ledBy_own hown hcL hdc
            rw [table_snoc, add_par _ ep] at hled
            simp only [ledBy_add d d p hph, if_true] at hled
            obtain ⟨_, _, C', D', _, k, _⟩ := gives_parser (hap c hcA) (by simp) ep (h1 c hcA).2
            have hpin : p ∈ addParserLed d p [c] := by rw [e2] at k; simp only at k; rw [k]; simp
            by_cases hcp : c = p
            · exact h0.1 (by rw [← hcp]; exact panics_first ec0 hc)
            · split at hled
              · rename_i q hq
                split at hled
                · rename_i hcond
                  simp at hled
                  subst hled
                  simp [addParserLed, hdc, hcond.1, hcond.2] at hpin
                  exact hcp hpin.symm
                · simp at hled
                  exact hcp hled.symm
              · simp at hled
                exact hcp hled.symm
          · refine (h1 c hcA).1 (panics_first (c := c) (D := [p]) ?_ hc)
            rw [e2]
            simp [addParserLed, hdc, had]
    · simp at hcp
      subst hcp
      exact h0.1 (panics_first ec0 hc)
  · have hbx : b ≠ x := e ▸ hno row hr
    obtain ⟨kc, hg⟩ := rowAt_source _ row hr c hm
    rw [e] at hg
    rcases List.mem_append.mp kc with hcA | hcp
    · by_cases hcp : c = p
      · exact h0.1 (by rw [← hcp]; exact panics_more (more_rows hg) hb hbx hd.2.1 hc)
      cases ep : p.pattern with
      | nil =>
        refine (h1 c hcA).1 (panics_more ?_ hb hbx hd.2.1 hc)
        rw [table_snoc]
        unfold Table.add
        rw [ep]
        exact more_rows hg
      | cons t rest =>
        cases t with
        | parser a =>
          refine (h1 c hcA).1 (panics_more ?_ hb hbx hd.2.1 hc)
          rw [table_snoc, add_par _ ep]
          exact more_rows hg
        | literal l =>
          cases rest with
          | nil =>
            obtain ⟨row, k1, k2⟩ := whole l ep
            exact hno row k1 k2
          | cons t rest =>
            have hgp : GoesOn p l := ⟨t :: rest, by simp, ep⟩
            obtain ⟨k1, k2, k3⟩ := deep l hgp
            have hlb : l <+: b := List.prefix_of_prefix_length_le k1 hd.2.1 (hd.2.2 l k3 k1)
            by_cases hlb' : l = b
            · subst hlb'
              rw [table_snoc] at hr
              rcases more_last hgp hr e with k | k
              · rw [hm] at k; simp at k; exact hcp k
              · rw [hm] at k; simp at k
            · obtain ⟨_, _, k, _⟩ := gives_more (hap c hcA) (by simp) hgp (h1 c hcA).2
              have hn : (rowOf (Table.of [c]).rows l).more = none := more_none fun q hq rest g => by
                simp at hq
                subst hq
                obtain ⟨_, _, g'⟩ := hg
                rw [g'] at g
                simp at g
                exact hlb' g.1.symm
              have hx : Extended (Table.of [c]).rows l := by
                rw [more_rows hg]
                exact ⟨_, List.mem_singleton.mpr rfl, hlb, Ne.symm hlb'⟩
              rw [table_snoc, add_lead _ ep] at k
              simp only [rowOf_rowAt] at k
              rw [rowAt_add] at k
              simp [hn, hx] at k
    · simp at hcp
      subst hcp
      exact h0.1 (panics_more (more_rows hg) hb hbx hd.2.1 hc)

theorem loaded_proper {sip : Bytes → UInt64} {ps : List Pattern} (h : Proper sip ps) : Proper sip (ps.map loaded) := by
  refine ⟨?_, ?_, ?_, noCollision_loaded h.hashes⟩
  · intro p hp; obtain ⟨q, hq, rfl⟩ := List.mem_map.mp hp; exact h.utf8 q hq
  · intro p hp; obtain ⟨q, hq, rfl⟩ := List.mem_map.mp hp; exact h.nonempty q hq
  · intro p hp; obtain ⟨q, hq, rfl⟩ := List.mem_map.mp hp; exact h.split q hq

theorem apart_of {ps : List Pattern} (hd : ps.Pairwise fun p q => p.uuid ≠ q.uuid) : Three.Apart ps := fun _ hp _ hq h => Triples.apart_eq hd hp hq h

theorem snoc_split {A B D : List Pattern} {p q : Pattern} (e : A ++ [p] = B ++ q :: D) : (B = A ∧ q = p) ∨ ∃ W, A = B ++ q :: W := by
  rcases List.append_eq_append_iff.mp e with ⟨W, w1, w2⟩ | ⟨W, w1, w2⟩
  · cases W with
    | nil => simp at w1 w2; exact .inl ⟨w1, w2.1.symm⟩
    | cons w W => simp at w2
  · cases W with
    | nil => simp at w1 w2; exact .inl ⟨w1.symm, w2.1⟩
    | cons w W => simp at w2; obtain ⟨rfl, _⟩ := w2; exact .inr ⟨W, w1⟩

/-- Adding a pattern does not panic if it does not after any two of the others. -/
theorem built_last {sip : Bytes → UInt64} {A : List Pattern} {p : Pattern} (hps : Proper sip (A ++ [p])) {t : SuffixTree} (hA : SuffixTree.build sip A = .ok t)
    (h : ∀ X : List Pattern, X.Sublist A → X.length ≤ 2 → ∃ t, SuffixTree.build sip (X ++ [p]) = .ok t) : ∃ t, SuffixTree.build sip (A ++ [p]) = .ok t := by
  refine (C96_build_panics_iff sip (A ++ [p]) hps.utf8 hps.nonempty hps.split).2 fun B q D e hq => ?_
  rcases snoc_split e with ⟨rfl, rfl⟩ | ⟨W, w⟩
  · obtain ⟨X, h1, h2, h3⟩ := add_two hq
    have hX := proper_sub hps (qs := X ++ [q]) fun s hs => (h1.append (List.Sublist.refl [q])).subset hs
    have := (C96_build_panics_iff sip (X ++ [q]) hX.utf8 hX.nonempty hX.split).1 ⟨X, q, [], rfl, h3⟩
    obtain ⟨t, ht⟩ := h X h1 h2
    rw [ht] at this
    simp at this
  · have hA' := proper_sub hps (qs := A) (by intro s hs; simp [hs])
    have := (C96_build_panics_iff sip A hA'.utf8 hA'.nonempty hA'.split).1 ⟨B, q, W, w, hq⟩
    rw [hA] at this
    simp at this

end AnyScript
open AnyScript

/-- C155: if a pattern is the answer for a text in every trie in which it comes after at most two of the patterns, then it is in the trie in which it comes after
all of them. -/
theorem C155_last (sip : Bytes → UInt64) (A : List Pattern) (p : Pattern) (hps : Proper sip (A ++ [p])) (hd : (A ++ [p]).Pairwise fun p q => p.uuid ≠ q.uuid)
    (t : SuffixTree) (hA : SuffixTree.build sip A = .ok t) (text : Bytes) (hx : Utf8 text)
    (h : ∀ X : List Pattern, X.Sublist A → X.length ≤ 2 →
      ∃ res, (SuffixTree.build sip (X ++ [p]) >>= fun t => t.parse text) = .ok (some res) ∧ res.pattern.uuid = p.uuid) :
    ∃ res, (SuffixTree.build sip (A ++ [p]) >>= fun t => t.parse text) = .ok (some res) ∧ res.pattern.uuid = p.uuid := by
  have hpA : p ∉ A := fun k => (List.pairwise_append.mp hd).2.2 p k p (by simp) rfl
  have made : ∀ X : List Pattern, X.Sublist A → X.length ≤ 2 → ∃ t, SuffixTree.build sip (X ++ [p]) = .ok t := by
    intro X h1 h2
    obtain ⟨res, hr, _⟩ := h X h1 h2
    cases hb : SuffixTree.build sip (X ++ [p]) with
    | error e => rw [hb] at hr; simp [bind, Except.bind] at hr
    | ok t => exact ⟨t, rfl⟩
  obtain ⟨t', hb⟩ := built_last hps hA made
  have hn : ¬(Table.of (A ++ [p])).Panics text := by
    refine no_panic_last (apart_of hd) (fun l hl => hps.nonempty p (by simp) l hl) fun X h1 h2 => ?_
    have hX := proper_sub hps (qs := X ++ [p]) fun s hs => (h1.append (List.Sublist.refl [p])).subset hs
    obtain ⟨res, hr, hres⟩ := h X h1 h2
    obtain ⟨t1, hb1⟩ := made X h1 h2
    refine ⟨fun k => ?_, res, proper_answer hX hx hr, hres⟩
    have := (C66_panics_iff sip (X ++ [p]) hX.utf8 hX.nonempty hX.split hX.hashes t1 hb1 text hx).1 k
    rw [hb1] at hr
    have hr' : t1.parse text = .ok (some res) := hr
    rw [this] at hr'
    simp at hr'
  obtain ⟨r, hr, _⟩ := (C66_panics_iff sip (A ++ [p]) hps.utf8 hps.nonempty hps.split hps.hashes t' hb text hx).2 hn
  have hrun : (SuffixTree.build sip (A ++ [p]) >>= fun t => t.parse text) = .ok r := by rw [hb]; exact hr
  obtain ⟨res, rfl, hres⟩ := C149_three sip (A ++ [p]) hps hd p (by simp) text hx (by
    intro qs h1 h2 h3
    obtain ⟨X, hX, rfl⟩ := OneMore.parts_snoc hpA h1 h3
    exact h X hX (by simpa using h2)) r hrun
  exact ⟨res, hrun, hres⟩

/-- C155: a pattern can be appended to a source that loads if its test messages pass after every two of the patterns. -/
theorem C155_append (sip : Bytes → UInt64) (A : List Pattern) (p : Pattern) (hps : Proper sip (A ++ [p])) (hd : (A ++ [p]).Pairwise fun p q => p.uuid ≠ q.uuid)
    (hmsg : ∀ msg ∈ testsOf p, Utf8 msg.message) (hA : ∃ m, fromSource (trieMatcher sip) (A.map .ok) = .ok (.ok m, []))
    (h : ∀ X : List Pattern, X.Sublist A → X.length ≤ 2 →
      ∃ m, built (trieMatcher sip) (X ++ [p]) = .ok m ∧ ∀ msg ∈ testsOf p, PassesIn (trieMatcher sip) m p.uuid msg) :
    ∃ m, fromSource (trieMatcher sip) ((A ++ [p]).map .ok) = .ok (.ok m, []) := by
  have hpl := loaded_proper hps
  have hdl := loaded_apart hd
  have hbA : ∃ t, SuffixTree.build sip (A.map loaded) = .ok t := by
    obtain ⟨m, hm⟩ := hA
    rw [C40_from_source_ok] at hm
    obtain ⟨_, ps', e', hv, _⟩ := hm
    have e' : A = ps' := by
      have := congrArg delivered e'
      rwa [delivered_map_ok, delivered_map_ok] at this
    subst e'
    exact ⟨m, hv⟩
  obtain ⟨tA, hbA⟩ := hbA
  simp only [List.map_append, List.map_cons, List.map_nil] at hpl hdl
  have sub : ∀ X : List Pattern, X.Sublist (A.map loaded) → X.length ≤ 2 → ∃ Y : List Pattern, Y.Sublist A ∧ Y.length ≤ 2 ∧ X ++ [loaded p] = (Y ++ [p]).map loaded := by
    intro X h1 h2
    obtain ⟨Y, k1, rfl⟩ := List.sublist_map_iff.mp h1
    exact ⟨Y, k1, by simpa using h2, by simp⟩
  obtain ⟨t, hb⟩ := built_last hpl hbA fun X h1 h2 => by
    obtain ⟨Y, k1, k2, k3⟩ := sub X h1 h2
    obtain ⟨m, hm, _⟩ := h Y k1 k2
    rw [k3]
    exact ⟨m, hm⟩
  have hb' : built (trieMatcher sip) (A ++ [p]) = .ok t := by
    have : SuffixTree.build sip ((A ++ [p]).map loaded) = .ok t := by simpa using hb
    exact this
  refine OneMore.loads_snoc _ hA ⟨t, hb', fun msg hin => ?_⟩
  have run : ∀ Y : List Pattern, Y.Sublist A → Y.length ≤ 2 → ∃ res, (SuffixTree.build sip ((Y ++ [p]).map loaded) >>= fun t => t.parse msg.message) = .ok (some res) ∧
      res.pattern.uuid = p.uuid ∧ Passes p.uuid msg (some res) := by
    intro Y h1 h2
    obtain ⟨m, k1, k2⟩ := h Y h1 h2
    obtain ⟨b, k2, k3⟩ := k2 msg hin
    obtain ⟨r, rfl, hr, _⟩ := id k3
    have k1' : SuffixTree.build sip ((Y ++ [p]).map loaded) = .ok m := k1
    exact ⟨r, by rw [k1']; exact k2, hr, k3⟩
  obtain ⟨res, hrun, hres⟩ := C155_last sip (A.map loaded) (loaded p) hpl hdl tA hbA msg.message (hmsg msg hin) fun X h1 h2 => by
    obtain ⟨Y, k1, k2, k3⟩ := sub X h1 h2
    obtain ⟨res, g1, g2, _⟩ := run Y k1 k2
    rw [k3]
    exact ⟨res, g1, g2⟩
  obtain ⟨res', g1, g2, g3⟩ := run [] (List.nil_sublist _) (by simp)
  have := Triples.same_answer hpl hdl (qs := ([] ++ [p]).map loaded) (by intro q hq; simp at hq; simp [hq]) (hmsg msg hin) hrun g1 (by rw [g2]; exact hres)
  rw [hb] at hrun
  exact ⟨some res, hrun, this ▸ g3⟩

/-- C155: a source loads if every part of it with at most three patterns loads. -/
theorem C155_load (sip : Bytes → UInt64) (ps : List Pattern) (hps : Proper sip ps) (hd : ps.Pairwise fun p q => p.uuid ≠ q.uuid)
    (hmsg : ∀ p ∈ ps, ∀ msg ∈ testsOf p, Utf8 msg.message)
    (h : ∀ qs : List Pattern, qs.Sublist ps → qs.length ≤ 3 → ∃ m, fromSource (trieMatcher sip) (qs.map .ok) = .ok (.ok m, [])) :
    ∃ m, fromSource (trieMatcher sip) (ps.map .ok) = .ok (.ok m, []) := by
  refine snoc_induction (P := fun ps => Proper sip ps → (ps.Pairwise fun p q => p.uuid ≠ q.uuid) → (∀ p ∈ ps, ∀ msg ∈ testsOf p, Utf8 msg.message) →
    (∀ qs : List Pattern, qs.Sublist ps → qs.length ≤ 3 → ∃ m, fromSource (trieMatcher sip) (qs.map .ok) = .ok (.ok m, [])) →
    ∃ m, fromSource (trieMatcher sip) (ps.map .ok) = .ok (.ok m, [])) ?_ ?_ ps hps hd hmsg h
  · intro _ _ _ h
    exact h [] (List.Sublist.refl _) (by simp)
  · intro A p ih hps hd hmsg h
    have hsub : A.Sublist (A ++ [p]) := List.sublist_append_left ..
    refine C155_append sip A p hps hd (hmsg p (by simp)) ?_ fun X h1 h2 => ?_
    · exact ih (proper_sub hps fun _ g => hsub.subset g) (hd.sublist hsub) (fun q hq => hmsg q (hsub.subset hq)) fun qs k1 k2 => h qs (k1.trans hsub) k2
    · exact OneMore.passes_of_loads (h (X ++ [p]) (h1.append (List.Sublist.refl _)) (by simp; omega))

/-- C155, the same for a pattern file. -/
theorem C155_file (sip : Bytes → UInt64) (F : List Pattern) (hps : Proper sip F) (hd : F.Pairwise fun p q => p.uuid ≠ q.uuid)
    (hmsg : ∀ p ∈ F, ∀ msg ∈ testsOf p, Utf8 msg.message)
    (h : ∀ G : List Pattern, G.Sublist F → G.length ≤ 3 → ∃ m, fromSource (trieMatcher sip) (fileItems G) = .ok (.ok m, [])) :
    ∃ m, fromSource (trieMatcher sip) (fileItems F) = .ok (.ok m, []) := by
  rw [C45_file_order]
  refine C155_load sip F.reverse (proper_sub hps fun q => List.mem_reverse.mp) ?_ (fun p hp => hmsg p (List.mem_reverse.mp hp)) ?_
  · rw [List.pairwise_reverse]
    exact hd.imp fun k => Ne.symm k
  · intro qs hq hl
    have := h qs.reverse (by simpa using hq.reverse) (by simpa using hl)
    rw [C45_file_order] at this
    simpa using this

namespace AnyScript

def seven : Pattern := tested (Samples.pat 1 [.literal b!"aé", .parser (Samples.int b!"x")]) b!"aé7" b!"7"
def nine : Pattern := tested (Samples.pat 2 [.literal b!"x", .parser (Samples.int b!"x")]) b!"x9" b!"9"
def rest : Pattern := tested (Samples.pat 3 [.parser (Samples.greedy b!"x" none)]) b!"bé" b!"bé"
def last : Pattern := Samples.pat 4 [.literal b!"aéb"]
def sources : List Pattern := [seven, nine, rest, last]

theorem sources_proper : Proper Samples.sip sources := by
  refine ⟨?_, ?_, ?_, ?_⟩
  · intro p hp l hl
    simp [sources, seven, nine, rest, last, tested] at hp
    rcases hp with rfl | rfl | rfl | rfl <;> simp [Samples.pat] at hl <;> subst hl
    · exact ⟨['a', 'é'], by decide +kernel⟩
    · exact ⟨['x'], by decide +kernel⟩
    · exact ⟨['a', 'é', 'b'], by decide +kernel⟩
  · intro p hp l hl
    simp [sources, seven, nine, rest, last, tested] at hp
    rcases hp with rfl | rfl | rfl | rfl <;> simp [Samples.pat] at hl <;> subst hl <;> decide
  · intro p hp l rest' e l'
    simp [sources, seven, nine, rest, last, tested] at hp
    rcases hp with rfl | rfl | rfl | rfl <;> simp [Samples.pat] at e <;> first | (rw [← e.2]; simp) | (rw [e.2]; simp)
  · have key : ∀ a, (∃ p ∈ sources, p.pattern.head? = some (.parser a)) → a = Samples.greedy b!"x" none := by
      rintro a ⟨p, hp, e⟩
      simp [sources, seven, nine, rest, last, tested] at hp
      rcases hp with rfl | rfl | rfl | rfl <;> simp [Samples.pat] at e
      exact e.symm
    intro a b ha hb _
    rw [key a ha, key b hb]

theorem sources_messages : ∀ p ∈ sources, ∀ msg ∈ testsOf p, Utf8 msg.message := by
  intro p hp msg hm
  simp [sources, seven, nine, rest, last, tested] at hp
  rcases hp with rfl | rfl | rfl | rfl <;> simp [testsOf, Samples.pat, Pattern.withUuid] at hm <;> subst hm
  · exact ⟨['a', 'é', '7'], by decide +kernel⟩
  · exact ⟨['x', '9'], by decide +kernel⟩
  · exact ⟨['b', 'é'], by decide +kernel⟩

end AnyScript

/-- C155: to load the patterns two at a time is not enough: three of them can panic although no two do. -/
theorem C155_pairs_do_not_count : ∃ ps : List Pattern, Proper Samples.sip ps ∧ (ps.Pairwise fun p q => p.uuid ≠ q.uuid) ∧
    (∀ p ∈ ps, ∀ msg ∈ testsOf p, Utf8 msg.message) ∧
    (∀ qs : List Pattern, qs.Sublist ps → qs.length ≤ 2 → ∃ m, fromSource (trieMatcher Samples.sip) (qs.map .ok) = .ok (.ok m, [])) ∧
    ¬∃ m, fromSource (trieMatcher Samples.sip) (ps.map .ok) = .ok (.ok m, []) := by
  refine ⟨[SmallPanics.more, SmallPanics.accent, SmallPanics.accentB],
    proper_sub SmallPanics.all_proper (by intro s hs; simp at hs ⊢; rcases hs with h | h | h <;> simp [h]), by decide +kernel, ?_, ?_, ?_⟩
  · intro p hp msg hm
    simp [SmallPanics.more, SmallPanics.accent, SmallPanics.accentB] at hp
    rcases hp with rfl | rfl | rfl <;> simp [testsOf, Samples.pat, Pattern.withUuid] at hm
  · have key : ∀ qs ∈ Three.subs [SmallPanics.more, SmallPanics.accent, SmallPanics.accentB], qs.length ≤ 2 →
        loads (fromSource (trieMatcher Samples.sip) (qs.map .ok)) = true := by decide +kernel
    exact fun qs hs hl => loads_iff.mp (key qs (Three.mem_subs hs) hl)
  · rw [← loads_iff]
    decide +kernel

example : ∃ m, fromSource (trieMatcher Samples.sip) (sources.map .ok) = .ok (.ok m, []) := by
  have key : ∀ qs ∈ Three.subs sources, qs.length ≤ 3 → loads (fromSource (trieMatcher Samples.sip) (qs.map .ok)) = true := by decide +kernel
  exact C155_load Samples.sip sources sources_proper (by decide +kernel) sources_messages fun qs hs hl => loads_iff.mp (key qs (Three.mem_subs hs) hl)

end Verif
