import Verif.Props.C153_OneMore
/-! C154: panics of the trie come from few patterns. -/
namespace Verif
open Spec Fewer

namespace SmallPanics

/-- There is a row with this text. -/
def Has (rows : List Row) (w : Bytes) : Prop := ∃ row ∈ rows, row.text = w

/-- Trouble with looking a text up comes from one or two of the texts of rows. -/
theorem lookup_two {rows : List Row} {x : Bytes} (h : LookupPanics rows x) :
    ∃ w1 w2, Has rows w1 ∧ Has rows w2 ∧ ∀ rows', Has rows' w1 → Has rows' w2 → LookupPanics rows' x := by
  obtain ⟨b, y, e, hy, hstop, hext, hna⟩ := h
  have pair : ∀ r s, Has rows r → Has rows s → r ≠ s → CommonStart r s b → (NonAsciiFirst y ∨ ∃ z, s = b ++ z ∧ NonAsciiFirst z) →
      ∃ w1 w2, Has rows w1 ∧ Has rows w2 ∧ ∀ rows', Has rows' w1 → Has rows' w2 → LookupPanics rows' x := by
    intro r s hr hs hne hc hna
    refine ⟨r, s, hr, hs, ?_⟩
    rintro rows' ⟨r', h1, rfl⟩ ⟨s', h2, rfl⟩
    refine ⟨b, y, e, hy, .inr (.inr ⟨r', h1, s', h2, hne, hc⟩), ?_, ?_⟩
    · by_cases hb : r'.text = b
      · exact ⟨s', h2, hc.2.1, fun k => hne (hb.trans k.symm)⟩
      · exact ⟨r', h1, hc.1, hb⟩
    · exact hna.imp id fun ⟨z, k1, k2⟩ => ⟨s', h2, z, k1, k2⟩
  have apart : ∀ r ∈ rows, ∀ s ∈ rows, r.text ≠ s.text → CommonStart r.text s.text b →
      ∃ w1 w2, Has rows w1 ∧ Has rows w2 ∧ ∀ rows', Has rows' w1 → Has rows' w2 → LookupPanics rows' x := by
    intro r hr s hs hne hc
    rcases hna with hn | ⟨u, hu, z, ez, hz⟩
    · exact pair r.text s.text ⟨r, hr, rfl⟩ ⟨s, hs, rfl⟩ hne hc (.inl hn)
    · have hz0 := nonAsciiFirst_ne hz
      have hbu : b <+: u.text := ⟨z, ez.symm⟩
      have hlen : b.length < u.text.length := by
        rw [ez, List.length_append]
        have := List.length_pos_iff.mpr hz0
        omega
      by_cases hr' : ∃ c', c' <+: r.text ∧ c' <+: u.text ∧ b.length < c'.length
      · obtain ⟨c', k1, k2, k3⟩ := hr'
        have key : ∀ c'', c'' <+: s.text → c'' <+: u.text → c''.length ≤ b.length := by
          intro c'' k4 k5
          refine Classical.byContradiction fun hl => ?_
          rcases Nat.le_total c'.length c''.length with hle | hle
          · have := hc.2.2 c' k1 ((List.prefix_of_prefix_length_le k2 k5 hle).trans k4)
            omega
          · have := hc.2.2 c'' ((List.prefix_of_prefix_length_le k5 k2 hle).trans k1) k4
            omega
        refine pair s.text u.text ⟨s, hs, rfl⟩ ⟨u, hu, rfl⟩ (fun k => ?_) ⟨hc.2.1, hbu, key⟩ (.inr ⟨z, ez, hz⟩)
        have := key u.text (k ▸ List.prefix_refl _) (List.prefix_refl _)
        omega
      · have key : ∀ c', c' <+: r.text → c' <+: u.text → c'.length ≤ b.length := fun c' k1 k2 =>
          Nat.not_lt.mp fun k3 => hr' ⟨c', k1, k2, k3⟩
        refine pair r.text u.text ⟨r, hr, rfl⟩ ⟨u, hu, rfl⟩ (fun k => ?_) ⟨hc.1, hbu, key⟩ (.inr ⟨z, ez, hz⟩)
        have := key u.text (k ▸ List.prefix_refl _) (List.prefix_refl _)
        omega
  rcases hstop with rfl | ⟨r, hr, rfl, hm⟩ | ⟨r, hr, s, hs, hne, hc⟩
  · rcases hna with hn | ⟨u, hu, z, ez, hz⟩
    · obtain ⟨u, hu, _, h0⟩ := hext
      refine ⟨u.text, u.text, ⟨u, hu, rfl⟩, ⟨u, hu, rfl⟩, ?_⟩
      rintro rows' ⟨u', h1, e'⟩ _
      exact ⟨[], y, e, hy, .inl rfl, ⟨u', h1, List.nil_prefix, by rw [e']; exact h0⟩, .inl hn⟩
    · refine ⟨u.text, u.text, ⟨u, hu, rfl⟩, ⟨u, hu, rfl⟩, ?_⟩
      rintro rows' ⟨u', h1, e'⟩ _
      refine ⟨[], y, e, hy, .inl rfl, ⟨u', h1, List.nil_prefix, ?_⟩, .inr ⟨u', h1, z, by rw [e', ez], hz⟩⟩
      rw [e', ez]
      simpa using nonAsciiFirst_ne hz
  · obtain ⟨s, hs, h1, h2⟩ := hext
    exact apart r hr s hs (Ne.symm h2) ⟨List.prefix_refl _, h1, fun c k _ => k.length_le⟩
  · exact apart r hr s hs hne hc

theorem has_of {rows : List Row} {w : Bytes} (h : rowAt rows w ≠ none) : Has rows w := Three.row_of_at h

theorem has_source {A : List Pattern} {w : Bytes} (h : Has (Table.of A).rows w) : ∃ q ∈ A, ∃ rest, q.pattern = .literal w :: rest := by
  obtain ⟨row, h1, rfl⟩ := h
  obtain ⟨q, hq, h⟩ := table_texts A row h1
  refine ⟨q, hq, ?_⟩
  cases hp : q.pattern with
  | nil => rw [hp] at h; simp at h
  | cons t u => rw [hp] at h; simp at h; exact ⟨u, by rw [h]⟩

/-- Two patterns are enough for two rows. -/
theorem pair_has {A : List Pattern} {w1 w2 : Bytes} (h1 : Has (Table.of A).rows w1) (h2 : Has (Table.of A).rows w2) :
    ∃ X : List Pattern, X.Sublist A ∧ X.length ≤ 2 ∧ Has (Table.of X).rows w1 ∧ Has (Table.of X).rows w2 := by
  obtain ⟨q1, k1, r1, e1⟩ := has_source h1
  obtain ⟨q2, k2, r2, e2⟩ := has_source h2
  by_cases hw : w1 = w2
  · subst hw
    have : Has (Table.of [q1]).rows w1 := has_of (Three.rowAt_lead ⟨[], []⟩ e1)
    exact ⟨[q1], List.singleton_sublist.mpr k1, by simp, this, this⟩
  · have hq : q1 ≠ q2 := by
      rintro rfl
      rw [e1] at e2
      simp at e2
      exact hw e2.1
    rcases Three.pair_sublist k1 k2 hq with k | k
    · have := Three.two_rows ⟨[], []⟩ e1 e2 hw (rowAt_none.mpr (by simp))
      exact ⟨[q1, q2], k, by simp, has_of this.1, has_of this.2⟩
    · have := Three.two_rows ⟨[], []⟩ e2 e1 (Ne.symm hw) (rowAt_none.mpr (by simp))
      exact ⟨[q2, q1], k, by simp, has_of this.2, has_of this.1⟩

/-- A row without patterns is there because of a longer one. -/
theorem bare_extended (A : List Pattern) : ∀ row ∈ (Table.of A).rows, row.whole = none → row.more = none → Extended (Table.of A).rows row.text := by
  refine snoc_induction (P := fun A => ∀ row ∈ (Table.of A).rows, row.whole = none → row.more = none → Extended (Table.of A).rows row.text) ?_ ?_ A
  · simp [Table.of]
  · intro A p ih
    rw [table_snoc]
    unfold Table.add
    split
    · exact ih
    · rename_i k rest e
      simp only []
      have ht := rowOf_text (Table.of A).rows k
      generalize (Table.of A).rows = rows at *
      unfold addLiteralLed
      have still : ∀ (new : Row), new.text = k → ∀ row ∈ rows.filter fun r => decide (r.text ≠ k), row.whole = none → row.more = none →
          Extended (new :: rows.filter fun r => decide (r.text ≠ k)) row.text := by
        intro new hn row hr h1 h2
        obtain ⟨s, hs, k1, k2⟩ := ih row (List.mem_filter.mp hr).1 h1 h2
        by_cases hk : s.text = k
        · exact ⟨new, by simp, by rw [hn, ← hk]; exact k1, by rw [hn, ← hk]; exact k2⟩
        · exact ⟨s, by simp [hs, hk], k1, k2⟩
      split
      · intro row hr h1 h2
        rcases List.mem_cons.mp hr with rfl | hr
        · simp at h1
        · exact still { rowOf rows k with whole := some p } ht row hr h1 h2
      · split
        · rename_i hc
          intro row hr h1 h2
          rcases List.mem_cons.mp hr with rfl | hr
          · obtain ⟨s, hs, k1, k2⟩ := hc.2
            rw [ht]
            exact ⟨s, by simp [hs, k2], k1, k2⟩
          · exact still _ ht row hr h1 h2
        · intro row hr h1 h2
          rcases List.mem_cons.mp hr with rfl | hr
          · simp at h2
          · obtain ⟨hr1, hr2⟩ := List.mem_filter.mp hr
            simp only [decide_eq_true_eq] at hr2
            obtain ⟨s, hs, k1, k2⟩ := ih row hr1 h1 h2
            by_cases hk : k <+: s.text
            · refine ⟨_, List.mem_cons_self .., ?_, ?_⟩
              · simp only [ht]
                rcases Nat.le_total row.text.length k.length with hle | hle
                · exact List.prefix_of_prefix_length_le k1 hk hle
                · exact absurd (List.prefix_of_prefix_length_le hk k1 hle) hr2
              · simp only [ht]
                intro hkr
                exact hr2 (hkr ▸ List.prefix_refl _)
            · exact ⟨s, by simp [hs, hk], k1, k2⟩
    · exact ih

theorem single_rows {q : Pattern} {w : Bytes} {rest : List Token} (e : q.pattern = .literal w :: rest) :
    (Table.of [q]).rows = [if rest.isEmpty then ⟨w, some q, none⟩ else ⟨w, none, some q⟩] := by
  have : Table.of [q] = (⟨[], []⟩ : Table).add q := rfl
  rw [this, Three.add_lead _ e]
  cases rest <;> simp [addLiteralLed, rowOf, Extended]

/-- Trouble with a new stop point comes from one pattern. -/
theorem split_one {A : List Pattern} {l : Bytes} (h : SplitPanics (Table.of A).rows l) : ∃ q ∈ A, SplitPanics (Table.of [q]).rows l := by
  obtain ⟨r, hr, b, y, e, hy, hc, hno, hna⟩ := h
  have hb0 : b ≠ [] := fun k => hno (.inl k)
  have build : ∀ q ∈ A, ∀ rest, q.pattern = .literal r.text :: rest → (r.text = b → rest = []) → ∃ q ∈ A, SplitPanics (Table.of [q]).rows l := by
    intro q hq rest eq hb
    refine ⟨q, hq, ?_⟩
    rw [single_rows eq]
    refine ⟨_, List.mem_singleton.mpr rfl, b, y, e, hy, ?_, ?_, hna.imp id fun ⟨z, k1, k2⟩ => ⟨z, ?_, k2⟩⟩
    · split <;> exact hc
    · rintro (k | ⟨s, hs, k1, k2⟩ | ⟨s, hs, s', hs', k, _⟩)
      · exact hb0 k
      · simp only [List.mem_singleton] at hs
        subst hs
        cases hrest : rest.isEmpty with
        | true => simp [hrest] at k2
        | false =>
          simp [hrest] at k1
          rw [hb k1] at hrest
          simp at hrest
      · simp only [List.mem_singleton] at hs hs'
        exact k (by rw [hs, hs'])
    · split <;> exact k1
  by_cases hb : r.text = b
  · cases hm : r.more with
    | some q => exact absurd (.inr (.inl ⟨r, hr, hb, by rw [hm]; simp⟩)) hno
    | none =>
      cases hw : r.whole with
      | none =>
        obtain ⟨s, hs, k1, k2⟩ := bare_extended A r hr hw hm
        exact absurd (.inr (.inr ⟨r, hr, s, hs, Ne.symm k2, hb ▸ ⟨List.prefix_refl _, k1, fun c k _ => k.length_le⟩⟩)) hno
      | some q =>
        obtain ⟨k1, k2⟩ := table_whole A r hr q hw
        exact build q k1 [] k2 fun _ => rfl
  · obtain ⟨q, hq, rest, eq⟩ := has_source ⟨r, hr, rfl⟩
    exact build q hq rest eq fun k => absurd k hb

/-- Trouble with an addition comes from at most two of the earlier patterns. -/
theorem add_two {A : List Pattern} {p : Pattern} (h : (Table.of A).AddPanics p) :
    ∃ X : List Pattern, X.Sublist A ∧ X.length ≤ 2 ∧ (Table.of X).AddPanics p := by
  obtain ⟨l, rest, e, h | h⟩ := h
  · obtain ⟨w1, w2, h1, h2, h3⟩ := lookup_two h
    obtain ⟨X, k1, k2, k3, k4⟩ := pair_has h1 h2
    exact ⟨X, k1, k2, l, rest, e, .inl (h3 _ k3 k4)⟩
  · obtain ⟨q, hq, h⟩ := split_one h
    exact ⟨[q], List.singleton_sublist.mpr hq, by simp, l, rest, e, .inr h⟩

/-- Trouble with a text comes from looking it up or from one of the patterns. -/
theorem parse_one {ps : List Pattern} {x : Bytes} (h : (Table.of ps).Panics x) : LookupPanics (Table.of ps).rows x ∨ ∃ p ∈ ps, (Table.of [p]).Panics x := by
  rcases h with h | ⟨hno, b, hd, ⟨rfl, A, p, B, e, _, hp⟩ | ⟨hb, row, hr, e, p, hm, hp⟩⟩
  · exact .inl h
  · have hpL : p ∈ (Table.of ps).parserLed := by rw [e]; simp
    have hown : OwnHeads (Table.of ps).parserLed := ownHeads_fold ps ⟨[], []⟩ ⟨by simp, .nil⟩
    obtain ⟨a, ha⟩ := hown.1 p hpL
    obtain ⟨rest, e1⟩ : ∃ rest, p.pattern = .parser a :: rest := by
      cases hq : p.pattern with
      | nil => rw [hq] at ha; simp at ha
      | cons t u => rw [hq] at ha; simp at ha; exact ⟨u, by rw [ha]⟩
    have e0 : Table.of [p] = ⟨[], [p]⟩ := by
      have : Table.of [p] = (⟨[], []⟩ : Table).add p := rfl
      rw [this, Three.add_par _ e1]
      rfl
    refine .inr ⟨p, table_parserLed ps p hpL, ?_⟩
    rw [e0]
    refine .inr ⟨by simp, [], ⟨.inl rfl, List.nil_prefix, ?_⟩, .inl ⟨rfl, [], p, [], rfl, by simp, hp⟩⟩
    rintro b' (rfl | ⟨s, hs, _⟩ | ⟨s, hs, _⟩) _
    · simp
    · simp at hs
    · simp at hs
  · obtain ⟨k1, rest, k2, k3⟩ := rowAt_source ps row hr p hm
    rw [e] at k3
    have hre : rest.isEmpty = false := by cases rest <;> simp_all
    have e0 := single_rows k3
    rw [hre] at e0
    refine .inr ⟨p, k1, .inr ⟨?_, b, ⟨?_, hd.2.1, ?_⟩, .inr ⟨hb, ?_⟩⟩⟩
    · rw [e0]
      simp only [List.mem_singleton]
      rintro _ rfl
      exact e ▸ hno row hr
    · rw [e0]
      exact .inr (.inl ⟨_, List.mem_singleton.mpr rfl, rfl, by simp⟩)
    · rw [e0]
      rintro b' (rfl | ⟨s, hs, k, _⟩ | ⟨s, hs, s', hs', k, _⟩) _
      · simp
      · simp only [List.mem_singleton] at hs
        subst hs
        rw [← k]
        exact Nat.le_refl _
      · simp only [List.mem_singleton] at hs hs'
        exact absurd (by rw [hs, hs']) k
    · rw [e0]
      exact ⟨_, List.mem_singleton.mpr rfl, rfl, p, rfl, hp⟩

/-- Trouble with a text comes from at most two of the patterns. -/
theorem parse_two {ps : List Pattern} {x : Bytes} (h : (Table.of ps).Panics x) : ∃ X : List Pattern, X.Sublist ps ∧ X.length ≤ 2 ∧ (Table.of X).Panics x := by
  rcases parse_one h with h | ⟨p, hp, h⟩
  · obtain ⟨w1, w2, h1, h2, h3⟩ := lookup_two h
    obtain ⟨X, k1, k2, k3, k4⟩ := pair_has h1 h2
    exact ⟨X, k1, k2, .inl (h3 _ k3 k4)⟩
  · exact ⟨[p], List.singleton_sublist.mpr hp, by simp, h⟩

end SmallPanics
open SmallPanics

/-- C154: patterns can all be added to a trie if every three of them can. -/
theorem C154_add (sip : Bytes → UInt64) (ps : List Pattern) (hps : Proper sip ps)
    (h : ∀ qs : List Pattern, qs.Sublist ps → qs.length ≤ 3 → ∃ t, SuffixTree.build sip qs = .ok t) : ∃ t, SuffixTree.build sip ps = .ok t := by
  refine (C96_build_panics_iff sip ps hps.utf8 hps.nonempty hps.split).2 fun A p B e hp => ?_
  obtain ⟨X, h1, h2, h3⟩ := add_two hp
  have hs : (X ++ [p]).Sublist ps := by
    rw [e]
    exact h1.append (List.singleton_sublist.mpr (by simp))
  have hX := proper_sub hps fun _ g => hs.subset g
  have := (C96_build_panics_iff sip (X ++ [p]) hX.utf8 hX.nonempty hX.split).1 ⟨X, p, [], rfl, h3⟩
  obtain ⟨t, ht⟩ := h _ hs (by simp; omega)
  rw [ht] at this
  simp at this

/-- C154: a trie does not panic for a text if no trie of two of its patterns does. -/
theorem C154_parse (sip : Bytes → UInt64) (ps : List Pattern) (hps : Proper sip ps) (t : SuffixTree) (hb : SuffixTree.build sip ps = .ok t) (text : Bytes)
    (hx : Utf8 text) (h : ∀ qs : List Pattern, qs.Sublist ps → qs.length ≤ 2 → ∃ r, (SuffixTree.build sip qs >>= fun t => t.parse text) = .ok r) :
    ∃ r, t.parse text = .ok r := by
  refine Classical.byContradiction fun hno => ?_
  have hp : (Table.of ps).Panics text := Classical.byContradiction fun hn => by
    obtain ⟨r, hr, _⟩ := (C66_panics_iff sip ps hps.utf8 hps.nonempty hps.split hps.hashes t hb text hx).2 hn
    exact hno ⟨r, hr⟩
  obtain ⟨X, h1, h2, h3⟩ := parse_two hp
  have hX := proper_sub hps fun _ g => h1.subset g
  obtain ⟨r, hr⟩ := h X h1 h2
  cases hb' : SuffixTree.build sip X with
  | error e => rw [hb'] at hr; simp [bind, Except.bind] at hr
  | ok t' =>
    rw [hb'] at hr
    have := (C66_panics_iff sip X hX.utf8 hX.nonempty hX.split hX.hashes t' hb' text hx).1 h3
    have hr' : t'.parse text = .ok r := hr
    rw [this] at hr'
    simp at hr'

/-- C154: with C149, for patterns and texts in any script: if no part of at most three patterns panics, and those with this pattern answer with it, so does
the trie of all patterns. -/
theorem C154_found (sip : Bytes → UInt64) (ps : List Pattern) (hps : Proper sip ps) (hd : ps.Pairwise fun p q => p.uuid ≠ q.uuid) (p : Pattern) (hp : p ∈ ps)
    (text : Bytes) (hx : Utf8 text)
    (h : ∀ qs : List Pattern, qs.Sublist ps → qs.length ≤ 3 → ∃ r, (SuffixTree.build sip qs >>= fun t => t.parse text) = .ok r ∧
      (p ∈ qs → ∃ res, r = some res ∧ res.pattern.uuid = p.uuid)) :
    ∃ res, (SuffixTree.build sip ps >>= fun t => t.parse text) = .ok (some res) ∧ res.pattern.uuid = p.uuid := by
  obtain ⟨t, hb⟩ := C154_add sip ps hps fun qs h1 h2 => by
    obtain ⟨r, hr, _⟩ := h qs h1 h2
    cases hb : SuffixTree.build sip qs with
    | error e => rw [hb] at hr; simp [bind, Except.bind] at hr
    | ok t => exact ⟨t, rfl⟩
  obtain ⟨r, hr⟩ := C154_parse sip ps hps t hb text hx fun qs h1 h2 => by
    obtain ⟨r, hr, _⟩ := h qs h1 (by omega)
    exact ⟨r, hr⟩
  have hrun : (SuffixTree.build sip ps >>= fun t => t.parse text) = .ok r := by rw [hb]; exact hr
  obtain ⟨res, rfl, hres⟩ := C149_three sip ps hps hd p hp text hx (fun qs h1 h2 h3 => by
    obtain ⟨r, hr, k⟩ := h qs h1 h2
    obtain ⟨res, rfl, k'⟩ := k h3
    exact ⟨res, hr, k'⟩) r hrun
  exact ⟨res, hrun, hres⟩

namespace SmallPanics

def more : Pattern := Samples.pat 1 [.literal b!"a", .parser (Samples.int b!"x")]
def accent : Pattern := Samples.pat 2 [.literal b!"aé"]
def accentB : Pattern := Samples.pat 3 [.literal b!"aéb"]
def other : Pattern := Samples.pat 4 [.literal b!"x", .parser (Samples.int b!"y")]
def fine : List Pattern := [accent, other, accentB]

theorem all_proper : Proper Samples.sip [more, accent, other, accentB] := by
  refine ⟨?_, ?_, ?_, ?_⟩
  · intro p hp l hl
    simp [more, accent, accentB, other] at hp
    rcases hp with rfl | rfl | rfl | rfl <;> simp [Samples.pat] at hl <;> subst hl
    · exact ⟨['a'], by decide +kernel⟩
    · exact ⟨['a', 'é'], by decide +kernel⟩
    · exact ⟨['x'], by decide +kernel⟩
    · exact ⟨['a', 'é', 'b'], by decide +kernel⟩
  · intro p hp l hl
    simp [more, accent, accentB, other] at hp
    rcases hp with rfl | rfl | rfl | rfl <;> simp [Samples.pat] at hl <;> subst hl <;> decide
  · intro p hp l rest e l'
    simp [more, accent, accentB, other] at hp
    rcases hp with rfl | rfl | rfl | rfl <;> simp [Samples.pat] at e <;> first | (rw [← e.2]; simp) | (rw [e.2]; simp)
  · rintro a b ⟨p, hp, e⟩
    simp [more, accent, accentB, other] at hp
    rcases hp with rfl | rfl | rfl | rfl <;> simp [Samples.pat] at e

/-- The trie of the patterns can be made. -/
def makes (ps : List Pattern) : Bool := match SuffixTree.build Samples.sip ps with | .ok _ => true | .error _ => false

theorem makes_iff {ps : List Pattern} : makes ps = true ↔ ∃ t, SuffixTree.build Samples.sip ps = .ok t := by
  unfold makes
  cases SuffixTree.build Samples.sip ps <;> simp

/-- The trie of the patterns answers. -/
def answers (ps : List Pattern) (x : Bytes) : Bool := match SuffixTree.build Samples.sip ps >>= fun t => t.parse x with | .ok _ => true | .error _ => false

theorem answers_iff {ps : List Pattern} {x : Bytes} : answers ps x = true ↔ ∃ r, (SuffixTree.build Samples.sip ps >>= fun t => t.parse x) = .ok r := by
  unfold answers
  cases (SuffixTree.build Samples.sip ps >>= fun t => t.parse x) <;> simp

end SmallPanics
open SmallPanics

/-- C154: two patterns at a time are not enough to see that patterns can be added, and one at a time is not enough to see that a text does not panic. -/
theorem C154_fewer_do_not_count : (∃ ps : List Pattern, Proper Samples.sip ps ∧
      (∀ qs : List Pattern, qs.Sublist ps → qs.length ≤ 2 → ∃ t, SuffixTree.build Samples.sip qs = .ok t) ∧ ¬∃ t, SuffixTree.build Samples.sip ps = .ok t) ∧
    ∃ (ps : List Pattern) (text : Bytes), Proper Samples.sip ps ∧ Utf8 text ∧ (∃ t, SuffixTree.build Samples.sip ps = .ok t) ∧
      (∀ qs : List Pattern, qs.Sublist ps → qs.length ≤ 1 → ∃ r, (SuffixTree.build Samples.sip qs >>= fun t => t.parse text) = .ok r) ∧
      ¬∃ r, (SuffixTree.build Samples.sip ps >>= fun t => t.parse text) = .ok r := by
  constructor
  · refine ⟨[more, accent, accentB], proper_sub all_proper (by intro s hs; simp at hs ⊢; rcases hs with h | h | h <;> simp [h]), ?_, ?_⟩
    · have key : ∀ qs ∈ Three.subs [more, accent, accentB], qs.length ≤ 2 → makes qs = true := by decide +kernel
      exact fun qs hs hl => makes_iff.mp (key qs (Three.mem_subs hs) hl)
    · rw [← makes_iff]
      decide +kernel
  · refine ⟨[more, accent], b!"aé", proper_sub all_proper (by intro s hs; simp at hs ⊢; rcases hs with h | h <;> simp [h]), ⟨['a', 'é'], by decide +kernel⟩,
      makes_iff.mp (by decide +kernel), ?_, ?_⟩
    · have key : ∀ qs ∈ Three.subs [more, accent], qs.length ≤ 1 → answers qs b!"aé" = true := by decide +kernel
      exact fun qs hs hl => answers_iff.mp (key qs (Three.mem_subs hs) hl)
    · rw [← answers_iff]
      decide +kernel

/-- C154: the converse does not hold: a list can be added although a part of it panics. -/
theorem C154_not_conversely : ∃ ps qs : List Pattern, qs.Sublist ps ∧ qs.length ≤ 2 ∧ (∃ t, SuffixTree.build Samples.sip ps = .ok t) ∧
    SuffixTree.build Samples.sip qs = .error .slice := by
  refine ⟨[more, Samples.pat 5 [.literal b!"a"], accent], [Samples.pat 5 [.literal b!"a"], accent], List.sublist_cons_self .., by simp,
    makes_iff.mp (by decide +kernel), ?_⟩
  have h : (match SuffixTree.build Samples.sip [Samples.pat 5 [.literal b!"a"], accent] with | .error .slice => true | _ => false) = true := by decide +kernel
  revert h
  cases SuffixTree.build Samples.sip [Samples.pat 5 [.literal b!"a"], accent] with
  | ok t => simp
  | error e => cases e <;> simp

example : ∃ res, (SuffixTree.build Samples.sip fine >>= fun t => t.parse b!"aéb") = .ok (some res) ∧ res.pattern.uuid = accentB.uuid := by
  have key : ∀ qs ∈ Three.subs fine, qs.length ≤ 3 → answers qs b!"aéb" = true ∧
      (accentB ∈ qs → (SuffixTree.build Samples.sip qs >>= fun t => t.parse b!"aéb") = .ok (some { pattern := Samples.pat 3 [], values := [] })) := by decide +kernel
  refine C154_found Samples.sip fine (proper_sub all_proper (by intro s hs; simp [fine] at hs ⊢; rcases hs with h | h | h <;> simp [h])) (by decide +kernel) accentB
    (by decide +kernel) b!"aéb" ⟨['a', 'é', 'b'], by decide +kernel⟩ fun qs hs hl => ?_
  obtain ⟨k1, k2⟩ := key qs (Three.mem_subs hs) hl
  obtain ⟨r, hr⟩ := answers_iff.mp k1
  refine ⟨r, hr, fun hp => ⟨{ pattern := Samples.pat 3 [], values := [] }, ?_, rfl⟩⟩
  have := k2 hp
  rw [hr] at this
  exact Except.ok.inj this

end Verif
