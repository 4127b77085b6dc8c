import Verif.Props.C20_Order
/-! C100: when the order of additions matters in the suffix-array matcher. -/
namespace Verif
open Spec

theorem parserLed_commute (p q : Pattern) (h : ¬ SuffixOrderMatters p q) (T : Table) : ((T.add p).add q).parserLed = ((T.add q).add p).parserLed := by
  by_cases g : OrderMatters p q
  · unfold SuffixOrderMatters at h
    unfold OrderMatters at g
    split at g
    · rename_i e1 e2
      have ep : ∀ T : Table, (T.add p).parserLed = T.parserLed := by intro T; unfold Table.add; rw [e1]
      have eq : ∀ T : Table, (T.add q).parserLed = T.parserLed := by intro T; unfold Table.add; rw [e2]
      rw [eq, ep, ep, eq]
    · rename_i e1 e2
      simp only [e1, e2] at h
      exact absurd g h
    · exact absurd g id
  · exact (sameTable_commute p q g T).2

theorem parserLed_same {ps qs : List Pattern} (h : SameOrder SuffixOrderMatters ps qs) : (Table.of ps).parserLed = (Table.of qs).parserLed :=
  reorder SuffixOrderMatters Table.add (fun T T' => T.parserLed = T'.parserLed) (fun _ => rfl) (fun _ _ _ => Eq.trans)
    (fun _ _ a h => by
      unfold Table.add
      split
      · exact h
      · exact h
      · simp only [h])
    parserLed_commute ps qs h _ _ rfl

theorem leads_same {ps qs : List Pattern} (h : ps.Perm qs) (l : Bytes) : Leads ps l ↔ Leads qs l := by
  unfold Leads
  constructor
  · rintro ⟨p, hp, e⟩; exact ⟨p, h.mem_iff.mp hp, e⟩
  · rintro ⟨p, hp, e⟩; exact ⟨p, h.mem_iff.mpr hp, e⟩

theorem chosen_same {ps qs : List Pattern} (h : ps.Perm qs) (x l : Bytes) : Chosen ps x l ↔ Chosen qs x l := by
  unfold Chosen
  simp only [leads_same h]

/-- The last occurrence of an element. -/
theorem last_occurrence {p : Pattern} : ∀ {ps : List Pattern}, p ∈ ps → ∃ A B, ps = A ++ p :: B ∧ p ∉ B := by
  intro ps
  induction ps with
  | nil => intro h; cases h
  | cons q ps ih =>
    intro h
    by_cases g : p ∈ ps
    · obtain ⟨A, B, e, hB⟩ := ih g
      exact ⟨q :: A, B, by simp [e], hB⟩
    · rcases List.mem_cons.mp h with rfl | h
      · exact ⟨[], ps, rfl, g⟩
      · exact absurd h g

theorem lastWith_same {D : Pattern → Pattern → Prop} {ps qs : List Pattern} (h : SameOrder D ps qs) {P : List Token → Prop}
    (hD : ∀ p q, P p.pattern → P q.pattern → D p q) {p : Pattern} (hl : LastWith ps P p) : LastWith qs P p := by
  obtain ⟨A, B, rfl, hP, hB⟩ := hl
  obtain ⟨A', B', rfl, hB'⟩ := last_occurrence (h.1.mem_iff.mp (show p ∈ A ++ p :: B by simp))
  refine ⟨A', B', rfl, hP, ?_⟩
  intro q hq hPq
  have e := h.2 p q (hD p q hP hPq)
  have hBf : B.filter (fun s => decide (s = p ∨ s = q)) = [] := by
    rw [List.filter_eq_nil_iff]
    intro s hs
    have := hB s hs
    simp only [decide_eq_true_eq]
    rintro (rfl | rfl)
    · exact this hP
    · exact this hPq
  simp only [List.filter_append, List.filter_cons, true_or, decide_true, if_true, hBf] at e
  have hne : B'.filter (fun s => decide (s = p ∨ s = q)) ≠ [] := by
    intro g
    have : q ∈ B'.filter (fun s => decide (s = p ∨ s = q)) := List.mem_filter.mpr ⟨hq, by simp⟩
    rw [g] at this
    cases this
  have e' := congrArg List.getLast? e
  rw [List.getLast?_append, List.getLast?_append, List.getLast?_cons, List.getLast?_cons] at e'
  cases hg : (B'.filter (fun s => decide (s = p ∨ s = q))).getLast? with
  | none => exact hne (List.getLast?_eq_none_iff.mp hg)
  | some w =>
    rw [hg] at e'
    simp at e'
    have hw := (List.mem_filter.mp (List.mem_of_getLast? hg)).1
    rw [← e'] at hw
    exact hB' hw

theorem sameOrder_symm {D : Pattern → Pattern → Prop} {ps qs : List Pattern} (h : SameOrder D ps qs) : SameOrder D qs ps :=
  ⟨h.1.symm, fun p q hd => (h.2 p q hd).symm⟩

theorem alone_dependent (l : Bytes) (p q : Pattern) (hp : p.pattern = [.literal l]) (hq : q.pattern = [.literal l]) : SuffixOrderMatters p q := by
  unfold SuffixOrderMatters
  rw [hp, hq]
  simp

theorem more_dependent (l : Bytes) (p q : Pattern) (hp : ∃ rest, rest ≠ [] ∧ p.pattern = .literal l :: rest)
    (hq : ∃ rest, rest ≠ [] ∧ q.pattern = .literal l :: rest) : SuffixOrderMatters p q := by
  obtain ⟨r, h1, e1⟩ := hp
  obtain ⟨r', h2, e2⟩ := hq
  unfold SuffixOrderMatters
  rw [e1, e2]
  simp [h1, h2]

theorem suffixAnswer_same {ps qs : List Pattern} (h : SameOrder SuffixOrderMatters ps qs) {x : Bytes} {r : Option MatchResult}
    (ha : SuffixAnswer qs x r) : SuffixAnswer ps x r := by
  obtain ⟨h1, h2⟩ := ha
  refine ⟨?_, ?_⟩
  · intro hno
    rw [parserLed_same h]
    exact h1 (fun l hl => hno l ((leads_same h.1 l).mpr hl))
  · intro l hc
    obtain ⟨a, b⟩ := h2 l ((chosen_same h.1 x l).mp hc)
    refine ⟨?_, ?_⟩
    · intro hx
      obtain ⟨a1, a2⟩ := a hx
      exact ⟨fun p hp => a1 p (lastWith_same h (alone_dependent l) hp), fun hn => a2 (fun p hp => hn p (h.1.mem_iff.mpr hp))⟩
    · intro hx
      obtain ⟨b1, b2⟩ := b hx
      exact ⟨fun p hp => b1 p (lastWith_same h (more_dependent l) hp), fun hn => b2 (fun p hp => hn p (h.1.mem_iff.mpr hp))⟩

theorem suffixTrouble_same {ps qs : List Pattern} (h : SameOrder SuffixOrderMatters ps qs) {x : Bytes} : SuffixTrouble qs x → SuffixTrouble ps x := by
  rintro (⟨h1, h2⟩ | ⟨l, h1, h2, p, h3, h4⟩)
  · exact .inl ⟨fun l hl => h1 l ((leads_same h.1 l).mp hl), by rw [parserLed_same h]; exact h2⟩
  · exact .inr ⟨l, (chosen_same h.1 x l).mpr h1, h2, p, lastWith_same (sameOrder_symm h) (more_dependent l) h3, h4⟩

/-- C100: the order of additions to a suffix array matters only between patterns that `SuffixOrderMatters` relates.  If two lists hold the same patterns
and any two patterns so related stand in the same order in both, the matchers built from them have the same outcome for every text. -/
theorem C100_same_order (sip : Bytes → UInt64) (ps qs : List Pattern) (hu : ∀ p ∈ ps, Utf8Lits p) (hcol : NoCollision sip ps)
    (h : SameOrder SuffixOrderMatters ps qs) (text : Bytes) (hx : Utf8 text) :
    (SuffixTable.build sip ps >>= fun t => t.parse text) = (SuffixTable.build sip qs >>= fun t => t.parse text) :=
  outcome_same (fun p hp => hu p (sameOrder_mem h p hp)) (noCollision_sub hcol (sameOrder_mem h)) hu hcol hx
    (fun _ => suffixAnswer_same (sameOrder_symm h)) ⟨suffixTrouble_same (sameOrder_symm h), suffixTrouble_same h⟩

theorem suffix_two {p q : Pattern} (hu : ∀ s ∈ [p, q], Utf8Lits s) (h : SuffixOrderMatters p q) {x : Bytes} (hx : Utf8 x) {cp cq}
    (hp : LooseMatches p.pattern x cp) (hq : LooseMatches q.pattern x cq) {r : Option MatchResult} (ha : SuffixAnswer [p, q] x r) :
    ∃ res, r = some res ∧
      ((∃ a b, p.pattern.head? = some (.parser a) ∧ q.pattern.head? = some (.parser b) ∧ a ≠ b) → res.pattern = { p with pattern := [] }) ∧
      ((¬∃ a b, p.pattern.head? = some (.parser a) ∧ q.pattern.head? = some (.parser b) ∧ a ≠ b) → res.pattern = { q with pattern := [] }) := by
  have first_head : ∀ {p : Pattern} {L : List Pattern} {c}, FirstLoose (p :: L) x r → LooseMatches p.pattern x c →
      ∃ res, r = some res ∧ res.pattern = { p with pattern := [] } := by
    intro p L c h hm
    obtain ⟨res, e, g⟩ := h.1 [] _ _ _ rfl (by simp) hm
    exact ⟨res, e, g.1⟩
  unfold SuffixOrderMatters at h
  split at h
  · rename_i l rest l' rest' ep eq
    obtain ⟨rfl, hr⟩ := h
    suffices hh : ∃ res, r = some res ∧ res.pattern = { q with pattern := [] } by
      obtain ⟨res, h1, h2⟩ := hh
      exact ⟨res, h1, fun ⟨a, b, g, _⟩ => by rw [ep] at g; simp at g, fun _ => h2⟩
    have hc : Chosen [p, q] x l := by
      obtain ⟨m, hm, _⟩ := C73_chosen [p, q] hu x hx ⟨l, p, by simp, by rw [ep]; rfl⟩
      obtain ⟨s, hs, e⟩ := hm.1
      have : m = l := by
        simp only [List.mem_cons, List.not_mem_nil, or_false] at hs
        rcases hs with rfl | rfl
        · rw [ep] at e; simpa using e.symm
        · rw [eq] at e; simpa using e.symm
      exact this ▸ hm
    obtain ⟨h1, h2⟩ := ha.2 l hc
    rcases loose_lit_inv (eq ▸ hq) with ⟨g1, g2, _⟩ | ⟨g1, c, y, g2, g3, g4, _⟩
    · subst g1
      refine ⟨_, (h1 g2).1 q ⟨[p], [], rfl, eq, by simp⟩, rfl⟩
    · have hn : ¬ x <+: l := by
        intro hxl
        have := g3.2.2.2 x hx hxl (List.prefix_refl _)
        have hlen : 0 < y.length := List.length_pos_iff.mpr g4
        rw [g2, List.length_append] at this
        omega
      exact first_head ((h2 hn).1 q ⟨[p], [], rfl, ⟨rest', g1, eq⟩, by simp⟩) hq
  · rename_i a rest b rest' ep eq
    have hf := ha.1 (by
      rintro l ⟨s, hs, e⟩
      simp only [List.mem_cons, List.not_mem_nil, or_false] at hs
      rcases hs with rfl | rfl
      · rw [ep] at e; simp at e
      · rw [eq] at e; simp at e)
    have e0 : (Table.of [p, q]).parserLed = addParserLed b q [p] := by
      unfold Table.of
      simp only [List.foldl_cons, List.foldl_nil]
      unfold Table.add
      simp only [ep, eq]
      rfl
    rw [e0] at hf
    have hph : p.pattern.head? = some (.parser a) := by rw [ep]; rfl
    have hqh : q.pattern.head? = some (.parser b) := by rw [eq]; rfl
    by_cases e : a = b
    · subst e
      have : addParserLed a q [p] = [q] := by
        rw [addParserLed, if_pos hph, if_neg]
        rintro ⟨g, g'⟩
        rw [eq] at g; rw [ep] at g'
        simp at g g'
        exact g' ((h rfl).mpr g)
      rw [this] at hf
      obtain ⟨res, h1, h2⟩ := first_head hf hq
      refine ⟨res, h1, ?_, fun _ => h2⟩
      rintro ⟨_, _, g, g', g''⟩
      rw [hph] at g; rw [hqh] at g'
      simp at g g'
      exact absurd (g.symm.trans g') g''
    · have : addParserLed b q [p] = [p, q] := by
        have hb : ¬ p.pattern.head? = some (.parser b) := by rw [hph]; simpa using e
        rw [addParserLed, if_neg hb]; rfl
      rw [this] at hf
      obtain ⟨res, h1, h2⟩ := first_head hf hp
      exact ⟨res, h1, fun _ => h2, fun g => absurd ⟨a, b, hph, hqh, e⟩ g⟩
  · exact absurd h id

theorem suffixOrderMatters_symm {p q : Pattern} (h : SuffixOrderMatters p q) : SuffixOrderMatters q p := by
  unfold SuffixOrderMatters at h ⊢
  split at h
  · rename_i e1 e2
    simp only [e1, e2]
    exact ⟨h.1.symm, h.2.symm⟩
  · rename_i e1 e2
    simp only [e1, e2]
    exact fun e => (h e.symm).symm
  · exact absurd h id

theorem suffix_order_counts {p q : Pattern} (hu : ∀ s ∈ [p, q], Utf8Lits s) (h : SuffixOrderMatters p q) (hd : ToldApart p q) {text : Bytes}
    (hx : Utf8 text) (hp : ∃ caps, LooseMatches p.pattern text caps) (hq : ∃ caps, LooseMatches q.pattern text caps) {r r' : Option MatchResult}
    (ha : SuffixAnswer [p, q] text r) (ha' : SuffixAnswer [q, p] text r') : r ≠ r' := by
  obtain ⟨cp, hp⟩ := hp
  obtain ⟨cq, hq⟩ := hq
  have hu' : ∀ s ∈ [q, p], Utf8Lits s := fun s hs => hu s (by simpa [or_comm] using hs)
  obtain ⟨s, rfl, g⟩ := suffix_two hu h hx hp hq ha
  obtain ⟨s', rfl, g'⟩ := suffix_two hu' (suffixOrderMatters_symm h) hx hq hp ha'
  intro he
  simp only [Option.some.injEq] at he
  subst he
  by_cases c : ∃ a b, p.pattern.head? = some (.parser a) ∧ q.pattern.head? = some (.parser b) ∧ a ≠ b
  · obtain ⟨a, b, c1, c2, c3⟩ := c
    exact hd ((g.1 ⟨a, b, c1, c2, c3⟩).symm.trans (g'.1 ⟨b, a, c2, c1, fun e => c3 e.symm⟩))
  · exact hd ((g'.2 (fun ⟨a, b, c1, c2, c3⟩ => c ⟨b, a, c2, c1, fun e => c3 e.symm⟩)).symm.trans (g.2 c))

/-- C100: between two patterns that `SuffixOrderMatters` relates the order does matter: if both (loosely) match a text and they can be told apart, the two
orders of adding them lead to different answers for this text. -/
theorem C100_order_counts (sip : Bytes → UInt64) (p q : Pattern) (hu : ∀ s ∈ [p, q], Utf8Lits s) (hcol : NoCollision sip [p, q])
    (h : SuffixOrderMatters p q) (hd : ToldApart p q) (text : Bytes) (hx : Ascii text) (hp : ∃ caps, LooseMatches p.pattern text caps)
    (hq : ∃ caps, LooseMatches q.pattern text caps) :
    (SuffixTable.build sip [p, q] >>= fun t => t.parse text) ≠ (SuffixTable.build sip [q, p] >>= fun t => t.parse text) := by
  have hsub : ∀ s ∈ [q, p], s ∈ [p, q] := by simp [or_comm]
  obtain ⟨r, e, ha⟩ := C74_ascii sip [p, q] hu hcol text hx
  obtain ⟨r', e', ha'⟩ := C74_ascii sip [q, p] (fun s hs => hu s (hsub s hs)) (noCollision_sub hcol hsub) text hx
  rw [e, e']
  intro he
  exact suffix_order_counts hu h hd (ascii_utf8 hx) hp hq ha ha' (by simpa using he)

/-- C100: the same for texts in any script, whenever both orders answer. -/
theorem C100_order_counts_utf8 (sip : Bytes → UInt64) (p q : Pattern) (hu : ∀ s ∈ [p, q], Utf8Lits s) (hcol : NoCollision sip [p, q])
    (h : SuffixOrderMatters p q) (hd : ToldApart p q) (text : Bytes) (hx : Utf8 text) (hp : ∃ caps, LooseMatches p.pattern text caps)
    (hq : ∃ caps, LooseMatches q.pattern text caps) (r r' : Option MatchResult)
    (hr : (SuffixTable.build sip [p, q] >>= fun t => t.parse text) = .ok r) (hr' : (SuffixTable.build sip [q, p] >>= fun t => t.parse text) = .ok r') :
    r ≠ r' := by
  have hsub : ∀ s ∈ [q, p], s ∈ [p, q] := by simp [or_comm]
  exact suffix_order_counts hu h hd hx hp hq (suffix_answer_of hu hcol hx hr)
    (suffix_answer_of (fun s hs => hu s (hsub s hs)) (noCollision_sub hcol hsub) hx hr')

/-! A list and a rearrangement of it that meet the hypotheses of `C20_same_order_ascii_partial` and `C100_same_order`: the patterns that go on after `ab`
stay in their order, the others move. -/

theorem sameOrder_trans {D : Pattern → Pattern → Prop} {ps qs rs : List Pattern} (h : SameOrder D ps qs) (h' : SameOrder D qs rs) : SameOrder D ps rs :=
  ⟨h.1.trans h'.1, fun p q hd => (h.2 p q hd).trans (h'.2 p q hd)⟩

/-- Two neighbours whose order does not matter can be swapped. -/
theorem sameOrder_swap {D : Pattern → Pattern → Prop} {p q : Pattern} (h : ¬ D p q) (h' : ¬ D q p) (A B : List Pattern) :
    SameOrder D (A ++ p :: q :: B) (A ++ q :: p :: B) := by
  refine ⟨(List.Perm.swap q p B).append_left A, ?_⟩
  intro u v hd
  simp only [List.filter_append, List.filter_cons]
  congr 1
  by_cases h1 : p = u ∨ p = v
  · by_cases h2 : q = u ∨ q = v
    · rcases h1 with rfl | rfl <;> rcases h2 with rfl | rfl
      · rfl
      · exact absurd hd h
      · exact absurd hd h'
      · rfl
    · simp [h2]
  · simp [h1]

def orderSample1 : Pattern := Samples.pat 1 [.literal b!"ab", .parser (Samples.int b!"x")]
def orderSample2 : Pattern := Samples.pat 2 [.literal b!"xy", .parser (Samples.int b!"x")]
def orderSample3 : Pattern := Samples.pat 3 [.literal b!"ab", .parser (Samples.int b!"x"), .literal b!";"]
def orderSample4 : Pattern := Samples.pat 4 [.parser (Samples.int b!"y")]

example : SameOrder OrderMatters [orderSample1, orderSample2, orderSample3, orderSample4] [orderSample2, orderSample1, orderSample4, orderSample3] :=
  sameOrder_trans (sameOrder_swap (by simp [OrderMatters, orderSample1, orderSample2, Samples.pat])
      (by simp [OrderMatters, orderSample1, orderSample2, Samples.pat]) [] [orderSample3, orderSample4])
    (sameOrder_swap (p := orderSample3) (q := orderSample4) (by simp [OrderMatters, orderSample3, orderSample4, Samples.pat])
      (by simp [OrderMatters, orderSample3, orderSample4, Samples.pat]) [orderSample2, orderSample1] [])

example : SameOrder SuffixOrderMatters [orderSample1, orderSample2, orderSample3, orderSample4] [orderSample2, orderSample1, orderSample4, orderSample3] :=
  sameOrder_trans (sameOrder_swap (by simp [SuffixOrderMatters, orderSample1, orderSample2, Samples.pat])
      (by simp [SuffixOrderMatters, orderSample1, orderSample2, Samples.pat]) [] [orderSample3, orderSample4])
    (sameOrder_swap (p := orderSample3) (q := orderSample4) (by simp [SuffixOrderMatters, orderSample3, orderSample4, Samples.pat])
      (by simp [SuffixOrderMatters, orderSample3, orderSample4, Samples.pat]) [orderSample2, orderSample1] [])

theorem orderSample_plain : Plain Samples.sip [orderSample1, orderSample2, orderSample3, orderSample4] := by
  refine ⟨?_, ?_, ?_, ?_⟩
  · intro p hp l hl
    simp only [List.mem_cons, List.not_mem_nil, or_false] at hp
    rcases hp with rfl | rfl | rfl | rfl <;> simp [orderSample1, orderSample2, orderSample3, orderSample4, Samples.pat] at hl
    · subst hl; decide
    · subst hl; decide
    · rcases hl with rfl | rfl <;> decide
  · intro p hp l hl
    simp only [List.mem_cons, List.not_mem_nil, or_false] at hp
    rcases hp with rfl | rfl | rfl | rfl <;> simp [orderSample1, orderSample2, orderSample3, orderSample4, Samples.pat] at hl
    · subst hl; decide
    · subst hl; decide
    · rcases hl with rfl | rfl <;> decide
  · intro p hp l rest e l'
    simp only [List.mem_cons, List.not_mem_nil, or_false] at hp
    rcases hp with rfl | rfl | rfl | rfl <;> simp [orderSample1, orderSample2, orderSample3, orderSample4, Samples.pat] at e
    · rw [← e.2]; simp
    · rw [← e.2]; simp
    · rw [← e.2]; simp
  · have key : ∀ a, (∃ p ∈ [orderSample1, orderSample2, orderSample3, orderSample4], p.pattern.head? = some (.parser a)) → a = Samples.int b!"y" := by
      rintro a ⟨p, hp, e⟩
      simp only [List.mem_cons, List.not_mem_nil, or_false] at hp
      rcases hp with rfl | rfl | rfl | rfl <;> simp [orderSample1, orderSample2, orderSample3, orderSample4, Samples.pat] at e
      exact e.symm
    intro a b ha hb _
    rw [key a ha, key b hb]

/-! A pair that meets the hypotheses of `C20_order_counts` and `C100_order_counts`: both match `ab7;`. -/

def orderSample5 : Pattern := Samples.pat 5 [.literal b!"ab", .parser (Samples.int b!"x"), .parser (Samples.greedy b!"z" none)]
def orderSample6 : Pattern := Samples.pat 6 [.literal b!"ab", .parser (Samples.int b!"y"), .literal b!";"]

example : OrderMatters orderSample5 orderSample6 ∧ ToldApart orderSample5 orderSample6 := by
  refine ⟨by simp [OrderMatters, orderSample5, orderSample6, Samples.pat], by simp [ToldApart, orderSample5, orderSample6, Samples.pat, Pattern.withUuid]⟩

example : (SuffixTree.build Samples.sip [orderSample5, orderSample6] >>= fun t => t.parse b!"ab7;") =
      .ok (some ⟨Samples.pat 6 [], [(b!"y", b!"7")]⟩) ∧
    (SuffixTree.build Samples.sip [orderSample6, orderSample5] >>= fun t => t.parse b!"ab7;") =
      .ok (some ⟨Samples.pat 5 [], [(b!"x", b!"7"), (b!"z", b!";")]⟩) := by decide +kernel

example : (SuffixTable.build Samples.sip [orderSample5, orderSample6] >>= fun t => t.parse b!"ab7;") =
      .ok (some ⟨Samples.pat 6 [], [(b!"y", b!"7")]⟩) ∧
    (SuffixTable.build Samples.sip [orderSample6, orderSample5] >>= fun t => t.parse b!"ab7;") =
      .ok (some ⟨Samples.pat 5 [], [(b!"x", b!"7"), (b!"z", b!";")]⟩) := by decide +kernel

/-! And for `C20_shorter_first`: `ab%{INT:x}` and `abc`. -/

example : (SuffixTree.build Samples.sip [orderSample1, Samples.pat 7 [.literal b!"abc"]] >>= fun t => t.parse b!"ab7") =
      .ok (some ⟨Samples.pat 1 [], [(b!"x", b!"7")]⟩) ∧
    (SuffixTree.build Samples.sip [Samples.pat 7 [.literal b!"abc"], orderSample1] >>= fun t => t.parse b!"ab7") = .ok none := by decide +kernel

/-! The same outside ASCII: `C20_shorter_first_utf8` and `C100_order_counts_utf8`. -/

example : (SuffixTree.build Samples.sip [Samples.pat 5 [.literal b!"ab", .parser (Samples.int b!"x"), .parser (Samples.greedy b!"z" none)],
        Samples.pat 6 [.literal b!"abcé", .parser (Samples.int b!"y")]] >>= fun t => t.parse b!"ab7é") =
      .ok (some ⟨Samples.pat 5 [], [(b!"x", b!"7"), (b!"z", b!"é")]⟩) ∧
    (SuffixTree.build Samples.sip [Samples.pat 6 [.literal b!"abcé", .parser (Samples.int b!"y")],
        Samples.pat 5 [.literal b!"ab", .parser (Samples.int b!"x"), .parser (Samples.greedy b!"z" none)]] >>= fun t => t.parse b!"ab7é") =
      .ok none := by decide +kernel

example : (SuffixTable.build Samples.sip [Samples.pat 5 [.literal b!"éab", .parser (Samples.int b!"x"), .parser (Samples.greedy b!"z" none)],
        Samples.pat 6 [.literal b!"éab", .parser (Samples.int b!"y"), .literal b!"é"]] >>= fun t => t.parse b!"éab7é") =
      .ok (some ⟨Samples.pat 6 [], [(b!"y", b!"7")]⟩) ∧
    (SuffixTable.build Samples.sip [Samples.pat 6 [.literal b!"éab", .parser (Samples.int b!"y"), .literal b!"é"],
        Samples.pat 5 [.literal b!"éab", .parser (Samples.int b!"x"), .parser (Samples.greedy b!"z" none)]] >>= fun t => t.parse b!"éab7é") =
      .ok (some ⟨Samples.pat 5 [], [(b!"x", b!"7"), (b!"z", b!"é")]⟩) := by decide +kernel

end Verif
