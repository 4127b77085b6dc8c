import Verif.Props.C149_Three
import Verif.Props.C150_Triples
/-! C151: how many patterns disturb one another in the suffix array. -/
namespace Verif
open Spec Fewer

namespace SuffixPairs

theorem lastIn {L : List Pattern} {P : List Token → Prop} {s : Pattern} : LastWith L P s → s ∈ L := by
  rintro ⟨C, D, rfl, _⟩
  simp

/-- An answer comes from the last pattern of its kind for the chosen literal, or from the patterns that begin with parsers. -/
theorem origin {qs : List Pattern} (hu : ∀ q ∈ qs, Utf8Lits q) {x : Bytes} (hx : Utf8 x) {r : MatchResult} (h : SuffixAnswer qs x (some r)) :
    ((∀ l, ¬ Leads qs l) ∧ ∃ C q D caps, (Table.of qs).parserLed = C ++ q :: D ∧ (∀ c ∈ C, ¬∃ caps, LooseMatches c.pattern x caps) ∧ LooseMatches q.pattern x caps ∧
      r.pattern.uuid = q.uuid) ∨
    ∃ l, Chosen qs x l ∧ ∃ q, r.pattern.uuid = q.uuid ∧ ((x <+: l ∧ LastWith qs (· = [.literal l]) q) ∨
      (¬ x <+: l ∧ LastWith qs (fun toks => ∃ rest, rest ≠ [] ∧ toks = .literal l :: rest) q ∧ ∃ caps, LooseMatches q.pattern x caps)) := by
  by_cases hno : ∀ l, ¬ Leads qs l
  · refine .inl ⟨hno, ?_⟩
    rcases firstLoose_cases (Table.of qs).parserLed x with hn | ⟨C, q, D, caps, e, h1, h2⟩
    · have := (h.1 hno).2 hn
      simp at this
    · obtain ⟨res, e', hres⟩ := (h.1 hno).1 C q D caps e h1 h2
      simp only [Option.some.injEq] at e'
      exact ⟨C, q, D, caps, e, h1, h2, by rw [e', hres.1]⟩
  · obtain ⟨l, hc, _⟩ := C73_chosen qs hu x hx (Classical.not_forall_not.mp hno)
    obtain ⟨k1, k2⟩ := h.2 l hc
    refine .inr ⟨l, hc, ?_⟩
    by_cases hpre : x <+: l
    · obtain ⟨k3, k4⟩ := k1 hpre
      have hex : ∃ q ∈ qs, q.pattern = [.literal l] := by
        refine Classical.byContradiction fun hno => ?_
        have := k4 (fun q hq e => hno ⟨q, hq, e⟩)
        simp at this
      obtain ⟨q, hlast⟩ := lastWith_exists (P := (· = [.literal l])) hex
      have e := k3 q hlast
      simp only [Option.some.injEq] at e
      exact ⟨q, by rw [e], .inl ⟨hpre, hlast⟩⟩
    · obtain ⟨k3, k4⟩ := k2 hpre
      have hex : ∃ q ∈ qs, ∃ rest, rest ≠ [] ∧ q.pattern = .literal l :: rest := by
        refine Classical.byContradiction fun hno => ?_
        have := k4 (fun q hq rest hr e => hno ⟨q, hq, rest, hr, e⟩)
        simp at this
      obtain ⟨q, hlast⟩ := lastWith_exists (P := fun toks => ∃ rest, rest ≠ [] ∧ toks = .literal l :: rest) hex
      have hf := k3 q hlast
      have hm : ∃ caps, LooseMatches q.pattern x caps := by
        refine Classical.byContradiction fun hno => ?_
        have := hf.2 (fun s hs => by simp only [List.mem_singleton] at hs; rw [hs]; exact hno)
        simp at this
      obtain ⟨caps, hm⟩ := hm
      obtain ⟨res, e, hres⟩ := hf.1 [] q [] caps rfl (by simp) hm
      simp only [Option.some.injEq] at e
      exact ⟨q, by rw [e, hres.1], .inr ⟨hpre, hlast, caps, hm⟩⟩

theorem lit_origin {qs : List Pattern} (hu : ∀ q ∈ qs, Utf8Lits q) (hid : qs.Pairwise fun p q => p.uuid ≠ q.uuid) {x : Bytes} (hx : Utf8 x) {r : MatchResult}
    (h : SuffixAnswer qs x (some r)) {p : Pattern} (hp : p ∈ qs) {l : Bytes} {rest : List Token} (e : p.pattern = .literal l :: rest)
    (hr : r.pattern.uuid = p.uuid) : Chosen qs x l ∧ ((x <+: l ∧ LastWith qs (· = [.literal l]) p) ∨
      (¬ x <+: l ∧ LastWith qs (fun toks => ∃ rest, rest ≠ [] ∧ toks = .literal l :: rest) p ∧ ∃ caps, LooseMatches p.pattern x caps)) := by
  rcases origin hu hx h with ⟨_, C, q, D, caps, h1, _, _, h2⟩ | ⟨l', hc, q, hq, hk⟩
  · have hqL : q ∈ (Table.of qs).parserLed := by rw [h1]; simp
    have hqp := own hid (table_parserLed qs q hqL) hp (by rw [← h2, hr])
    subst hqp
    obtain ⟨a, g⟩ := (ownHeads_fold qs ⟨[], []⟩ ⟨by simp, .nil⟩ : OwnHeads (Table.of qs).parserLed).1 q hqL
    rw [e] at g
    simp at g
  · have hqm : q ∈ qs := hk.elim (fun k => lastIn k.2) fun k => lastIn k.2.1
    have hqp := own hid hqm hp (by rw [← hq, hr])
    subst hqp
    have hl : l' = l := by
      rcases hk with ⟨_, _, _, _, g, _⟩ | ⟨_, ⟨_, _, _, ⟨_, _, g⟩, _⟩, _⟩
      · rw [e] at g; simp at g; exact g.1.symm
      · rw [e] at g; simp at g; exact g.1.symm
    subst hl
    exact ⟨hc, hk⟩

theorem par_origin {qs : List Pattern} (hu : ∀ q ∈ qs, Utf8Lits q) (hid : qs.Pairwise fun p q => p.uuid ≠ q.uuid) {x : Bytes} (hx : Utf8 x) {r : MatchResult}
    (h : SuffixAnswer qs x (some r)) {p : Pattern} (hp : p ∈ qs) {a : Parser} {rest : List Token} (e : p.pattern = .parser a :: rest)
    (hr : r.pattern.uuid = p.uuid) : (∀ l, ¬ Leads qs l) ∧ ∃ C D caps, (Table.of qs).parserLed = C ++ p :: D ∧ (∀ c ∈ C, ¬∃ caps, LooseMatches c.pattern x caps) ∧
      LooseMatches p.pattern x caps := by
  rcases origin hu hx h with ⟨hno, C, q, D, caps, h1, h3, h4, h2⟩ | ⟨l', hc, q, hq, hk⟩
  · have hqL : q ∈ (Table.of qs).parserLed := by rw [h1]; simp
    have hqp := own hid (table_parserLed qs q hqL) hp (by rw [← h2, hr])
    subst hqp
    exact ⟨hno, C, D, caps, h1, h3, h4⟩
  · have hqm : q ∈ qs := hk.elim (fun k => lastIn k.2) fun k => lastIn k.2.1
    have hqp := own hid hqm hp (by rw [← hq, hr])
    subst hqp
    rcases hk with ⟨_, _, _, _, g, _⟩ | ⟨_, ⟨_, _, _, ⟨_, _, g⟩, _⟩, _⟩
    · rw [e] at g; simp at g
    · rw [e] at g; simp at g

/-- The matcher of `qs` gives `p` for `x`. -/
def Found (sip : Bytes → UInt64) (qs : List Pattern) (p : Pattern) (x : Bytes) : Prop :=
  ∃ r, (SuffixTable.build sip qs >>= fun t => t.parse x) = .ok (some r) ∧ r.pattern.uuid = p.uuid

theorem found_iff {sip : Bytes → UInt64} {qs : List Pattern} (hu : ∀ q ∈ qs, Utf8Lits q) (hcol : NoCollision sip qs) {x : Bytes} (hx : Utf8 x) {p : Pattern} :
    Found sip qs p x ↔ ¬ SuffixTrouble qs x ∧ ∃ r, SuffixAnswer qs x (some r) ∧ r.pattern.uuid = p.uuid := by
  obtain ⟨g1, g2⟩ := C74_panics_iff sip qs hu hcol x hx
  constructor
  · rintro ⟨r, h, hr⟩
    have hn : ¬ SuffixTrouble qs x := by
      intro ht
      rw [g1 ht] at h
      simp at h
    obtain ⟨b, hb, hans⟩ := g2 hn
    rw [h] at hb
    simp only [Except.ok.injEq] at hb
    subst hb
    exact ⟨hn, r, hans, hr⟩
  · rintro ⟨hn, r, hans, hr⟩
    obtain ⟨b, hb, hans'⟩ := g2 hn
    rw [C73_answer_unique qs hu x hx _ _ hans' hans] at hb
    exact ⟨r, hb, hr⟩

/-- The last of its kind beside each other one is the last of its kind. -/
theorem last_pairs {A B : List Pattern} {p : Pattern} {P : List Token → Prop} (hB : p ∉ B) (hP : P p.pattern) (h : ∀ q ∈ B, LastWith [p, q] P p) : LastWith (A ++ p :: B) P p := by
  refine ⟨A, B, rfl, hP, fun q hq hPq => ?_⟩
  have : LastWith [p, q] P q := ⟨[p], [], rfl, hPq, by simp⟩
  exact hB (lastWith_unique (h q hq) this ▸ hq)

theorem pairs_found {sip : Bytes → UInt64} {ps : List Pattern} (hu : ∀ q ∈ ps, Utf8Lits q) (hcol : NoCollision sip ps)
    (hid : ps.Pairwise fun p q => p.uuid ≠ q.uuid) {p : Pattern} (hp : p ∈ ps) {l : Bytes} {rest : List Token} (e : p.pattern = .literal l :: rest)
    {x : Bytes} (hx : Utf8 x) (h : ∀ qs, qs.Sublist ps → qs.length ≤ 2 → p ∈ qs → Found sip qs p x) : Found sip ps p x := by
  have use : ∀ qs, qs.Sublist ps → qs.length ≤ 2 → p ∈ qs → ¬ SuffixTrouble qs x ∧ Chosen qs x l ∧ ((x <+: l ∧ LastWith qs (· = [.literal l]) p) ∨
      (¬ x <+: l ∧ LastWith qs (fun toks => ∃ rest, rest ≠ [] ∧ toks = .literal l :: rest) p ∧ ∃ caps, LooseMatches p.pattern x caps)) := by
    intro qs h1 h2 h3
    have hu' : ∀ q ∈ qs, Utf8Lits q := fun q g => hu q (h1.subset g)
    obtain ⟨k1, r, k2, k3⟩ := (found_iff hu' (noCollision_sub hcol fun _ g => h1.subset g) hx).mp (h qs h1 h2 h3)
    exact ⟨k1, lit_origin hu' (hid.sublist h1) hx k2 h3 e k3⟩
  have pair : ∀ q ∈ ps, ∃ qs : List Pattern, qs.Sublist ps ∧ qs.length ≤ 2 ∧ p ∈ qs ∧ q ∈ qs := by
    intro q hq
    by_cases c : p = q
    · subst c
      exact ⟨[p], List.singleton_sublist.mpr hp, by simp, by simp, by simp⟩
    · rcases Three.pair_sublist hp hq c with k | k
      · exact ⟨[p, q], k, by simp, by simp, by simp⟩
      · exact ⟨[q, p], k, by simp, by simp, by simp⟩
  obtain ⟨hn1, hc1, hk1⟩ := use [p] (List.singleton_sublist.mpr hp) (by simp) (by simp)
  have hch : Chosen ps x l := by
    refine ⟨⟨p, hp, by rw [e]; rfl⟩, ?_⟩
    by_cases c : l = x
    · exact .inl c
    · refine .inr ⟨?_, ?_⟩
      · rintro ⟨q, hq, g⟩
        obtain ⟨qs, k1, k2, k3, k4⟩ := pair q hq
        rcases (use qs k1 k2 k3).2.1.2 with k | k
        · exact c k
        · exact k.1 ⟨q, k4, g⟩
      · rintro l' ⟨q, hq, g⟩ hne
        obtain ⟨qs, k1, k2, k3, k4⟩ := pair q hq
        rcases (use qs k1 k2 k3).2.1.2 with k | k
        · exact absurd k c
        · exact k.2 l' ⟨q, k4, g⟩ hne
  obtain ⟨A, B, rfl⟩ := List.append_of_mem hp
  have hB : p ∉ B := fun k => (List.pairwise_cons.mp (List.pairwise_append.mp hid).2.1).1 p k rfl
  have sub : ∀ q ∈ B, [p, q].Sublist (A ++ p :: B) := fun q hq =>
    List.Sublist.trans ((List.singleton_sublist.mpr hq).cons_cons p) (List.sublist_append_right A (p :: B))
  rw [found_iff hu hcol hx]
  rcases hk1 with ⟨hpre, hl1⟩ | ⟨hpre, hl1, caps, hm⟩
  · obtain ⟨_, _, _, hP, _⟩ := hl1
    have hlast : LastWith (A ++ p :: B) (· = [.literal l]) p := last_pairs hB hP fun q hq => by
      rcases (use [p, q] (sub q hq) (by simp) (by simp)).2.2 with k | k
      · exact k.2
      · exact absurd hpre k.1
    refine ⟨?_, { pattern := { p with pattern := [] }, values := [] }, ⟨fun hno => absurd hch.1 (hno l), fun l' hl' => ?_⟩, rfl⟩
    · rintro (⟨hno, _⟩ | ⟨l', hl', g, _⟩)
      · exact hno l hch.1
      · obtain rfl := chosen_unique hl' hch
        exact g hpre
    · obtain rfl := chosen_unique hl' hch
      refine ⟨fun _ => ⟨fun s hs => ?_, fun hno => absurd hP (hno p hp)⟩, fun g => absurd hpre g⟩
      rw [lastWith_unique hs hlast]
  · obtain ⟨_, _, _, hP, _⟩ := id hl1
    have hlast : LastWith (A ++ p :: B) (fun toks => ∃ rest, rest ≠ [] ∧ toks = .literal l :: rest) p := last_pairs hB hP fun q hq => by
      rcases (use [p, q] (sub q hq) (by simp) (by simp)).2.2 with k | k
      · exact absurd k.1 hpre
      · exact k.2.1
    have hn : ¬ SuffixTrouble (A ++ p :: B) x := by
      rintro (⟨hno, _⟩ | ⟨l', hl', _, s, hs, ht⟩)
      · exact hno l hch.1
      · obtain rfl := chosen_unique hl' hch
        rw [lastWith_unique hs hlast] at ht
        exact hn1 (.inr ⟨l', hc1, hpre, p, hl1, ht⟩)
    obtain ⟨r, hr⟩ := C73_answer_exists (A ++ p :: B) hu x hx
    obtain ⟨res, e', hres⟩ := (((hr.2 l hch).2 hpre).1 p hlast).1 [] p [] caps rfl (by simp) hm
    rw [e'] at hr
    exact ⟨hn, res, hr, by rw [hres.1]⟩

theorem first_such {α : Type} {P : α → Prop} {L : List α} (h : ∃ c ∈ L, P c) : ∃ A c B, L = A ++ c :: B ∧ P c ∧ ∀ a ∈ A, ¬ P a := by
  induction L with
  | nil => obtain ⟨_, h, _⟩ := h; cases h
  | cons b L ih =>
    by_cases hb : P b
    · exact ⟨[], b, L, rfl, hb, by simp⟩
    · obtain ⟨c, hc, hPc⟩ := h
      rcases List.mem_cons.mp hc with rfl | hc
      · exact absurd hPc hb
      · obtain ⟨A, c, B, rfl, h2, h3⟩ := ih ⟨c, hc, hPc⟩
        refine ⟨b :: A, c, B, rfl, h2, fun a ha => ?_⟩
        rcases List.mem_cons.mp ha with rfl | ha
        · exact hb
        · exact h3 a ha

/-- A text for which a pattern that comes first decides. -/
def Decides (x : Bytes) (g : Pattern) : Prop := (∃ caps, LooseMatches g.pattern x caps) ∨ LooseTrouble g.pattern x

theorem par_use {sip : Bytes → UInt64} {qs : List Pattern} (hu : ∀ q ∈ qs, Utf8Lits q) (hcol : NoCollision sip qs)
    (hid : qs.Pairwise fun p q => p.uuid ≠ q.uuid) {p : Pattern} (hp : p ∈ qs) {a : Parser} {rest : List Token} (e : p.pattern = .parser a :: rest)
    {x : Bytes} (hx : Utf8 x) (h : Found sip qs p x) : (∀ l, ¬ Leads qs l) ∧ ¬ LooseTrouble p.pattern x ∧ (∃ caps, LooseMatches p.pattern x caps) ∧
      ∃ C D, (Table.of qs).parserLed = C ++ p :: D ∧ ∀ c ∈ C, ¬ Decides x c := by
  obtain ⟨k1, r, k2, k3⟩ := (found_iff hu hcol hx).mp h
  obtain ⟨hno, C, D, caps, h3, h4, hm⟩ := par_origin hu hid hx k2 hp e k3
  have hC : ∀ c ∈ C, ¬ LooseTrouble c.pattern x := by
    intro c hc g
    obtain ⟨A', c', B', rfl, g1, g2⟩ := first_such (P := fun c : Pattern => LooseTrouble c.pattern x) ⟨c, hc, g⟩
    exact k1 (.inl ⟨hno, A', c', B' ++ p :: D, by rw [h3]; simp, fun s hs => ⟨g2 s hs, h4 s (by simp [hs])⟩, g1⟩)
  refine ⟨hno, fun ht => k1 (.inl ⟨hno, C, p, D, h3, fun s hs => ⟨hC s hs, h4 s hs⟩, ht⟩), ⟨caps, hm⟩, C, D, h3, fun c hc => ?_⟩
  rintro (g | g)
  · exact h4 c hc g
  · exact hC c hc g

theorem par_found {sip : Bytes → UInt64} {ps : List Pattern} (hu : ∀ q ∈ ps, Utf8Lits q) (hcol : NoCollision sip ps) {p : Pattern} {x : Bytes} (hx : Utf8 x)
    (hno : ∀ l, ¬ Leads ps l) (hpt : ¬ LooseTrouble p.pattern x) (hm : ∃ caps, LooseMatches p.pattern x caps)
    (hs : ∃ C D, (Table.of ps).parserLed = C ++ p :: D ∧ ∀ c ∈ C, ¬ Decides x c) : Found sip ps p x := by
  obtain ⟨caps, hm⟩ := hm
  obtain ⟨C, D, hL, hC⟩ := hs
  rw [found_iff hu hcol hx]
  obtain ⟨r, hr⟩ := C73_answer_exists ps hu x hx
  obtain ⟨res, e', hres⟩ := (hr.1 hno).1 C p D caps hL (fun c hc k => hC c hc (.inl k)) hm
  rw [e'] at hr
  refine ⟨?_, res, hr, by rw [hres.1]⟩
  rintro (⟨_, A', q, B', k1, k2, k3⟩ | ⟨l, hl, _⟩)
  · rw [hL] at k1
    rcases List.append_eq_append_iff.mp k1 with ⟨W, w1, w2⟩ | ⟨W, w1, w2⟩
    · cases W with
      | nil => simp at w2; exact hpt (w2.1 ▸ k3)
      | cons w W =>
        simp at w2
        exact (k2 p (by rw [w1, w2.1]; simp)).2 ⟨caps, hm⟩
    · cases W with
      | nil => simp at w2; exact hpt (w2.1 ▸ k3)
      | cons w W =>
        simp at w2
        exact hC q (by rw [w1, w2.1]; simp) (.inr k3)
  · exact hno l hl.1

theorem no_leads {sip : Bytes → UInt64} {ps : List Pattern} (hu : ∀ q ∈ ps, Utf8Lits q) (hcol : NoCollision sip ps)
    (hid : ps.Pairwise fun p q => p.uuid ≠ q.uuid) {p : Pattern} (hp : p ∈ ps) {a : Parser} {rest : List Token} (e : p.pattern = .parser a :: rest)
    {x : Bytes} (hx : Utf8 x) (h : ∀ qs, qs.Sublist ps → qs.length ≤ 2 → p ∈ qs → Found sip qs p x) : ∀ l, ¬ Leads ps l := by
  rintro l ⟨q, hq, g⟩
  have c : p ≠ q := by
    rintro rfl
    rw [e] at g
    simp at g
  have use : ∀ qs : List Pattern, qs.Sublist ps → qs.length ≤ 2 → p ∈ qs → q ∈ qs → False := fun qs h1 h2 h3 h4 =>
    (par_use (fun q g => hu q (h1.subset g)) (noCollision_sub hcol fun _ g => h1.subset g) (hid.sublist h1) h3 e hx (h qs h1 h2 h3)).1 l ⟨q, h4, g⟩
  rcases Three.pair_sublist hp hq c with k | k
  · exact use [p, q] k (by simp) (by simp) (by simp)
  · exact use [q, p] k (by simp) (by simp) (by simp)

theorem three_found {sip : Bytes → UInt64} {ps : List Pattern} (hu : ∀ q ∈ ps, Utf8Lits q) (hcol : NoCollision sip ps)
    (hid : ps.Pairwise fun p q => p.uuid ≠ q.uuid) {p : Pattern} (hp : p ∈ ps) {a : Parser} {rest : List Token} (e : p.pattern = .parser a :: rest)
    {x : Bytes} (hx : Utf8 x) (h : ∀ qs, qs.Sublist ps → qs.length ≤ 3 → p ∈ qs → Found sip qs p x) : Found sip ps p x := by
  have use := fun qs h1 h2 h3 =>
    par_use (fun q g => hu q (List.Sublist.subset h1 g)) (noCollision_sub hcol fun _ g => List.Sublist.subset h1 g) (hid.sublist h1) h3 e hx (h qs h1 h2 h3)
  obtain ⟨_, hpt, hm, _⟩ := use [p] (List.singleton_sublist.mpr hp) (by simp) (by simp)
  have hno := no_leads hu hcol hid hp e hx fun qs h1 h2 h3 => h qs h1 (by omega) h3
  obtain ⟨A, B, rfl⟩ := List.append_of_mem hp
  have hA : p ∉ A := fun k => (List.pairwise_append.mp hid).2.2 p k p (by simp) rfl
  have hB : p ∉ B := fun k => (List.pairwise_cons.mp (List.pairwise_append.mp hid).2.1).1 p k rfl
  exact par_found hu hcol hx hno hpt hm (Three.three_slots hA hB e (Decides x) fun X Y hX hY hn =>
    (use (X ++ p :: Y) (hX.append (hY.cons_cons p)) (by simp; omega) (by simp)).2.2.2)

end SuffixPairs
open SuffixPairs

/-- C151, suffix array: a pattern that begins with a literal is the answer if and only if it is the answer when it is loaded alone and with each one of the
others. -/
theorem C151_pairs (sip : Bytes → UInt64) (ps : List Pattern) (hu : ∀ q ∈ ps, Utf8Lits q) (hcol : NoCollision sip ps)
    (hid : ps.Pairwise fun p q => p.uuid ≠ q.uuid) (p : Pattern) (hp : p ∈ ps) (hlit : ∃ l, p.pattern.head? = some (.literal l)) (text : Bytes) (hx : Utf8 text) :
    (∃ r, (SuffixTable.build sip ps >>= fun t => t.parse text) = .ok (some r) ∧ r.pattern.uuid = p.uuid) ↔
    ∀ qs, qs.Sublist ps → qs.length ≤ 2 → p ∈ qs →
      ∃ r, (SuffixTable.build sip qs >>= fun t => t.parse text) = .ok (some r) ∧ r.pattern.uuid = p.uuid := by
  constructor
  · rintro ⟨r, h, hr⟩ qs hq _ hpq
    exact ⟨r, C143_suffix_answers sip ps qs hu hcol hid hq p hpq hlit text hx r hr h, hr⟩
  · intro h
    obtain ⟨l, hl⟩ := hlit
    obtain ⟨rest, e⟩ : ∃ rest, p.pattern = .literal l :: rest := by
      cases hpp : p.pattern with
      | nil => rw [hpp] at hl; simp at hl
      | cons t u => rw [hpp] at hl; simp at hl; exact ⟨u, by rw [hl]⟩
    exact pairs_found hu hcol hid hp e hx h

/-- C151, suffix array: any pattern is the answer if it is the answer whenever it is loaded with at most two of the others. -/
theorem C151_three (sip : Bytes → UInt64) (ps : List Pattern) (hu : ∀ q ∈ ps, Utf8Lits q) (hcol : NoCollision sip ps)
    (hid : ps.Pairwise fun p q => p.uuid ≠ q.uuid) (p : Pattern) (hp : p ∈ ps) (text : Bytes) (hx : Utf8 text)
    (h : ∀ qs, qs.Sublist ps → qs.length ≤ 3 → p ∈ qs →
      ∃ r, (SuffixTable.build sip qs >>= fun t => t.parse text) = .ok (some r) ∧ r.pattern.uuid = p.uuid) :
    ∃ r, (SuffixTable.build sip ps >>= fun t => t.parse text) = .ok (some r) ∧ r.pattern.uuid = p.uuid := by
  cases e : p.pattern with
  | nil =>
    obtain ⟨r, k1, k2⟩ := h [p] (List.singleton_sublist.mpr hp) (by simp) (by simp)
    have hu' : ∀ q ∈ [p], Utf8Lits q := fun q hq => hu q (by simp at hq; exact hq ▸ hp)
    obtain ⟨_, r, k3, k4⟩ := (found_iff hu' (noCollision_sub hcol fun q hq => by simp at hq; exact hq ▸ hp) hx).mp ⟨r, k1, k2⟩
    have hno : ∀ l, ¬ Leads [p] l := by
      rintro l ⟨q, hq, g⟩
      simp at hq
      rw [hq, e] at g
      simp at g
    have e0 : (Table.of [p]).parserLed = [] := by simp [Table.of, Table.add, e]
    have := (k3.1 hno).2 (by rw [e0]; simp)
    simp at this
  | cons t rest =>
    cases t with
    | parser a => exact three_found hu hcol hid hp e hx h
    | literal l =>
      exact (C151_pairs sip ps hu hcol hid p hp ⟨l, by rw [e]; rfl⟩ text hx).mpr fun qs k1 k2 k3 => h qs k1 (by omega) k3

namespace SuffixPairs

def int1 : Pattern := Samples.pat 1 [.parser (Samples.int b!"x"), .literal b!"a"]
def int2 : Pattern := Samples.pat 3 [.parser (Samples.int b!"x"), .literal b!"b"]
def rest : Pattern := Samples.pat 2 [.parser (Samples.greedy b!"y" none)]
def sample : List Pattern := [int1, rest, int2]

theorem sample_utf8 : ∀ q ∈ sample, Utf8Lits q := by
  intro p hp l hl
  simp [sample, int1, int2, rest] at hp
  rcases hp with rfl | rfl | rfl <;> simp [Samples.pat] at hl <;> subst hl <;> exact ascii_utf8 (by decide)

theorem sample_hashes : NoCollision Samples.sip sample := by
  have key : ∀ a, (∃ p ∈ sample, p.pattern.head? = some (.parser a)) → a = Samples.int b!"x" ∨ a = Samples.greedy b!"y" none := by
    rintro a ⟨p, hp, e⟩
    simp [sample, int1, int2, rest] at hp
    rcases hp with rfl | rfl | rfl <;> simp [Samples.pat] at e
    · exact .inl e.symm
    · exact .inr e.symm
    · exact .inl e.symm
  intro a b ha hb h
  rcases key a ha with rfl | rfl <;> rcases key b hb with rfl | rfl
  · rfl
  · revert h; decide +kernel
  · revert h; decide +kernel
  · rfl

end SuffixPairs

/-- C151: for patterns that begin with parsers, one other pattern at a time is not enough: beside each of `%{INT:x}a` and `%{INT:x}b` the pattern
`%{GREEDY:y}` between them is the answer for `7b`, but not beside both. -/
theorem C151_parsers_count : ∃ (ps : List Pattern) (p : Pattern) (text : Bytes), (∀ q ∈ ps, Utf8Lits q) ∧ NoCollision Samples.sip ps ∧
    (ps.Pairwise fun p q => p.uuid ≠ q.uuid) ∧ p ∈ ps ∧ Utf8 text ∧
    (∀ qs, qs.Sublist ps → qs.length ≤ 2 → p ∈ qs →
      ∃ r, (SuffixTable.build Samples.sip qs >>= fun t => t.parse text) = .ok (some r) ∧ r.pattern.uuid = p.uuid) ∧
    ∃ r, (SuffixTable.build Samples.sip ps >>= fun t => t.parse text) = .ok (some r) ∧ r.pattern.uuid ≠ p.uuid := by
  refine ⟨SuffixPairs.sample, SuffixPairs.rest, b!"7b", SuffixPairs.sample_utf8, SuffixPairs.sample_hashes, by decide +kernel, by decide +kernel,
    ascii_utf8 (by decide), ?_, { pattern := Samples.pat 3 [], values := [(b!"x", b!"7")] }, by decide +kernel, by decide +kernel⟩
  have key : ∀ qs ∈ Three.subs SuffixPairs.sample, qs.length ≤ 2 → SuffixPairs.rest ∈ qs →
      (SuffixTable.build Samples.sip qs >>= fun t => t.parse b!"7b") = .ok (some { pattern := Samples.pat 2 [], values := [(b!"y", b!"7b")] }) := by decide +kernel
  exact fun qs hs hl hp => ⟨_, key qs (Three.mem_subs hs) hl hp, rfl⟩

example : ∃ r, (SuffixTable.build Samples.sip SuffixPairs.sample >>= fun t => t.parse b!"8c") = .ok (some r) ∧ r.pattern.uuid = SuffixPairs.rest.uuid := by
  have key : ∀ qs ∈ Three.subs SuffixPairs.sample, qs.length ≤ 3 → SuffixPairs.rest ∈ qs →
      (SuffixTable.build Samples.sip qs >>= fun t => t.parse b!"8c") = .ok (some { pattern := Samples.pat 2 [], values := [(b!"y", b!"8c")] }) := by decide +kernel
  exact C151_three Samples.sip _ SuffixPairs.sample_utf8 SuffixPairs.sample_hashes (by decide +kernel) SuffixPairs.rest (by decide +kernel) b!"8c"
    (ascii_utf8 (by decide)) fun qs hs hl hp => ⟨_, key qs (Three.mem_subs hs) hl hp, rfl⟩

example : ∃ r, (SuffixTable.build Samples.sip Three.threeSample >>= fun t => t.parse b!"ab5") = .ok (some r) ∧ r.pattern.uuid = 8 := by
  have key : ∀ qs ∈ Three.subs Three.threeSample, qs.length ≤ 2 → Samples.pat 8 [.literal b!"ab", .parser (Samples.int b!"x")] ∈ qs →
      (SuffixTable.build Samples.sip qs >>= fun t => t.parse b!"ab5") = .ok (some { pattern := Samples.pat 8 [], values := [(b!"x", b!"5")] }) := by decide +kernel
  exact (C151_pairs Samples.sip _ Three.threeSample_proper.utf8 Three.threeSample_proper.hashes (by decide +kernel)
    (Samples.pat 8 [.literal b!"ab", .parser (Samples.int b!"x")]) (by decide +kernel) ⟨_, rfl⟩ b!"ab5" (ascii_utf8 (by decide))).mpr
    fun qs hs hl hp => ⟨_, key qs (Three.mem_subs hs) hl hp, rfl⟩

end Verif
