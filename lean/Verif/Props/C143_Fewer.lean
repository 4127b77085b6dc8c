import Verif.Props.C99_SuffixValidated
import Verif.Props.C101_Again
import Verif.Props.C78_SuffixPanics
import Verif.Props.C75_C76_Families
/-! C143: which patterns can be taken out of a source that loads. -/
namespace Verif
open Spec
namespace Fewer
variable {T : Type}

theorem validated_first (I : MatcherImpl T) (A B : List Pattern) (m : T) (h : Validated I (A ++ B) m) : ∃ m', Validated I A m' := by
  obtain ⟨_, hv⟩ := h
  have hb : ∃ m', built I A = .ok m' := by
    rcases List.eq_nil_or_concat A with rfl | ⟨A', p, rfl⟩
    · exact ⟨I.new, rfl⟩
    · obtain ⟨m1, h1, _⟩ := hv A' p B (by simp)
      exact ⟨m1, by simpa using h1⟩
  obtain ⟨m', hm'⟩ := hb
  refine ⟨m', hm', fun pre p post e => hv pre p (post ++ B) (by rw [e]; simp)⟩

/-- The last pattern of its kind is that in any part of the list that holds it. -/
theorem lastWith_fewer {ps qs : List Pattern} {P : List Token → Prop} {p : Pattern} (hq : qs.Sublist ps) (hid : ps.Pairwise fun p q => p.uuid ≠ q.uuid)
    (hp : p ∈ qs) (h : LastWith ps P p) : LastWith qs P p := by
  obtain ⟨C, D, rfl, hP, hD⟩ := h
  obtain ⟨q1, q2, rfl, h1, h2⟩ := List.sublist_append_iff.mp hq
  have hC : p ∉ C := fun g => (List.pairwise_append.mp hid).2.2 p g p (by simp) rfl
  rcases List.sublist_cons_iff.mp h2 with h3 | ⟨r, rfl, h3⟩
  · rcases List.mem_append.mp hp with g | g
    · exact absurd (h1.subset g) hC
    · exact absurd hP (hD p (h3.subset g))
  · exact ⟨q1, r, rfl, hP, fun q hq => hD q (h3.subset hq)⟩

theorem own {ps : List Pattern} (hid : ps.Pairwise fun p q => p.uuid ≠ q.uuid) : ∀ {p q : Pattern}, p ∈ ps → q ∈ ps → p.uuid = q.uuid → p = q := by
  induction ps with
  | nil => intro p q hp; cases hp
  | cons s ps ih =>
    intro p q hp hq e
    obtain ⟨h1, h2⟩ := List.pairwise_cons.mp hid
    rcases List.mem_cons.mp hp with rfl | gp <;> rcases List.mem_cons.mp hq with rfl | gq
    · rfl
    · exact absurd e (h1 q gq)
    · exact absurd e.symm (h1 p gp)
    · exact ih h2 gp gq e

/-- If a pattern that begins with a literal gives the answer, then it does so in any part of the list that holds it. -/
theorem answer_fewer {ps qs : List Pattern} {p : Pattern} (hq : qs.Sublist ps) (hu : ∀ q ∈ ps, Utf8Lits q) (hid : ps.Pairwise fun p q => p.uuid ≠ q.uuid)
    (hpq : p ∈ qs) (hlit : ∃ l, p.pattern.head? = some (.literal l)) {x : Bytes} (hx : Utf8 x) {r : MatchResult}
    (h : SuffixAnswer ps x (some r)) (hr : r.pattern.uuid = p.uuid) (hn : ¬ SuffixTrouble ps x) :
    SuffixAnswer qs x (some r) ∧ ¬ SuffixTrouble qs x := by
  obtain ⟨l0, hl0⟩ := hlit
  have hpp := hq.subset hpq
  obtain ⟨l, hc, _⟩ := C73_chosen ps hu x hx ⟨l0, p, hpp, hl0⟩
  have lastIn : ∀ {L : List Pattern} {P : List Token → Prop} {s : Pattern}, LastWith L P s → s ∈ L := by
    rintro L P s ⟨C, D, rfl, _⟩
    simp
  have leadsSub : ∀ l', Leads qs l' → Leads ps l' := fun l' ⟨q, g, e⟩ => ⟨q, hq.subset g, e⟩
  have hchosen : p.pattern.head? = some (.literal l) → Chosen qs x l := by
    intro hp
    refine ⟨⟨p, hpq, hp⟩, ?_⟩
    rcases hc.2 with e | ⟨g1, g2⟩
    · exact .inl e
    · exact .inr ⟨fun g => g1 (leadsSub x g), fun l' hl' => g2 l' (leadsSub l' hl')⟩
  obtain ⟨k1, k2⟩ := h.2 l hc
  by_cases hpre : x <+: l
  · obtain ⟨k3, k4⟩ := k1 hpre
    have hex : ∃ q ∈ ps, q.pattern = [.literal l] := by
      refine Classical.byContradiction fun hno => ?_
      have := k4 (fun q hq e => hno ⟨q, hq, e⟩)
      simp at this
    obtain ⟨q, hlast⟩ := lastWith_exists (P := (· = [.literal l])) hex
    have e := k3 q hlast
    simp only [Option.some.injEq] at e
    have hqp := own hid (lastIn hlast) hpp (by rw [← hr, e])
    subst hqp
    obtain ⟨C, D, _, hP, _⟩ := id hlast
    have hP : q.pattern = [.literal l] := hP
    have hch := hchosen (by rw [hP]; rfl)
    refine ⟨⟨fun hno => absurd hch.1 (hno l), fun l' hl' => ?_⟩, ?_⟩
    · obtain rfl := chosen_unique hl' hch
      refine ⟨fun _ => ⟨fun s hs => ?_, fun hno => absurd hP (hno q hpq)⟩, fun g => absurd hpre g⟩
      rw [lastWith_unique hs (lastWith_fewer hq hid hpq hlast), e]
    · rintro (⟨hno, _⟩ | ⟨l', hl', g, _⟩)
      · exact hno l hch.1
      · obtain rfl := chosen_unique hl' hch
        exact g hpre
  · obtain ⟨k3, k4⟩ := k2 hpre
    have hex : ∃ q ∈ ps, ∃ rest, rest ≠ [] ∧ q.pattern = .literal l :: rest := by
      refine Classical.byContradiction fun hno => ?_
      have := k4 (fun q hq rest hr e => hno ⟨q, hq, rest, hr, e⟩)
      simp at this
    obtain ⟨q, hlast⟩ := lastWith_exists (P := fun toks => ∃ rest, rest ≠ [] ∧ toks = .literal l :: rest) hex
    have hf := k3 q hlast
    have hm : ∃ caps, LooseMatches q.pattern x caps := by
      refine Classical.byContradiction fun hno => ?_
      have := hf.2 (fun s hs => by simp only [List.mem_singleton] at hs; rw [hs]; exact hno)
      simp at this
    obtain ⟨caps, hm⟩ := hm
    obtain ⟨res, e, hres⟩ := hf.1 [] q [] caps rfl (by simp) hm
    simp only [Option.some.injEq] at e
    have hqp := own hid (lastIn hlast) hpp (by rw [← hr, e, hres.1])
    subst hqp
    obtain ⟨C, D, _, hP, _⟩ := id hlast
    have hlast' := lastWith_fewer hq hid hpq hlast
    have hch := hchosen (by obtain ⟨rest, _, g⟩ := hP; rw [g]; rfl)
    refine ⟨⟨fun hno => absurd hch.1 (hno l), fun l' hl' => ?_⟩, ?_⟩
    · obtain rfl := chosen_unique hl' hch
      refine ⟨fun g => absurd g hpre, fun _ => ⟨fun s hs => ?_, fun hno => ?_⟩⟩
      · rw [lastWith_unique hs hlast']
        exact hf
      · obtain ⟨rest, g1, g2⟩ := hP
        exact absurd g2 (hno q hpq rest g1)
    · rintro (⟨hno, _⟩ | ⟨l', hl', _, s, hs, ht⟩)
      · exact hno l hch.1
      · obtain rfl := chosen_unique hl' hch
        rw [lastWith_unique hs hlast'] at ht
        exact hn (.inr ⟨l', hc, hpre, q, hlast, ht⟩)

/-- The same for the answers of the trie if no addition disturbs another one. -/
theorem family_fewer {ps qs : List Pattern} {p : Pattern} (hq : qs.Sublist ps) (hid : ps.Pairwise fun p q => p.uuid ≠ q.uuid)
    (hpq : p ∈ qs) {x : Bytes} {r : MatchResult} (h : FamilyAnswer ps x (some r)) (hr : r.pattern.uuid = p.uuid) : FamilyAnswer qs x (some r) := by
  have hpp := hq.subset hpq
  have al : ∀ l q, Alone qs l q → Alone ps l q := fun l q g => ⟨hq.subset g.1, g.2⟩
  have co : ∀ l q, Continuing qs l q → Continuing ps l q := fun l q g => ⟨hq.subset g.1, g.2⟩
  have le : ∀ l, Leading qs l → Leading ps l := fun l ⟨q, g, e⟩ => ⟨q, hq.subset g, e⟩
  have st : ∀ b, FamilyStop qs b → FamilyStop ps b := by
    rintro b (g | ⟨q, g⟩ | ⟨l, l', g1, g2, g3⟩)
    · exact .inl g
    · exact .inr (.inl ⟨q, co b q g⟩)
    · exact .inr (.inr ⟨l, l', le l g1, le l' g2, g3⟩)
  obtain ⟨h1, h2, h3⟩ := h
  by_cases hal : ∃ q, Alone ps x q
  · obtain ⟨q, hal⟩ := hal
    have e := h1 q hal
    simp only [Option.some.injEq] at e
    have hqp := own hid hal.1 hpp (by rw [← hr, e])
    subst hqp
    have hal' : Alone qs x q := ⟨hpq, hal.2⟩
    exact ⟨fun s hs => h1 s (al x s hs), fun _ hno => absurd hal' (hno q), fun hno => absurd ⟨q, hpq, [], hal.2⟩ hno⟩
  · have hno : ∀ q, ¬ Alone ps x q := fun q g => hal ⟨q, g⟩
    by_cases hle : Leading ps x
    · have := h2 hle hno
      simp at this
    · obtain ⟨b, b1, b2, b3, c1, c2, c3⟩ := h3 hle
      refine ⟨fun s hs => absurd (al x s hs) (hno s), fun g => absurd (le x g) hle, fun _ => ?_⟩
      by_cases hb : b = []
      · refine ⟨b, .inl hb, b2, fun b' g1 g2 => b3 b' (st b' g1) g2, fun _ => ?_, fun g => absurd hb g, fun g => absurd hb g⟩
        have hf := c1 hb
        have hm : ∃ q ∈ parserLed ps, ∃ caps, MatchesStrict q.pattern x caps := by
          refine Classical.byContradiction fun hno => ?_
          have := hf.2 (fun s hs g => hno ⟨s, hs, g⟩)
          simp at this
        obtain ⟨A, q, B, e, ⟨caps, hcaps⟩, hA⟩ : ∃ A q B, parserLed ps = A ++ q :: B ∧ (∃ caps, MatchesStrict q.pattern x caps) ∧
            ∀ a ∈ A, ¬∃ caps, MatchesStrict a.pattern x caps := by
          clear hf c1 c2 c3 h3
          generalize parserLed ps = L at hm
          induction L with
          | nil => obtain ⟨_, g, _⟩ := hm; cases g
          | cons s L ih =>
            by_cases hs : ∃ caps, MatchesStrict s.pattern x caps
            · exact ⟨[], s, L, rfl, hs, by simp⟩
            · obtain ⟨A, q, B, e, g1, g2⟩ := ih (by
                obtain ⟨q, hq, g⟩ := hm
                rcases List.mem_cons.mp hq with rfl | hq
                · exact absurd g hs
                · exact ⟨q, hq, g⟩)
              exact ⟨s :: A, q, B, by rw [e]; rfl, g1, fun a ha => by
                rcases List.mem_cons.mp ha with rfl | ha
                · exact hs
                · exact g2 a ha⟩
        obtain ⟨res, e1, hres⟩ := hf.1 A q B caps e hA hcaps
        simp only [Option.some.injEq] at e1
        have hin : q ∈ ps ∧ q ∈ parserLed ps := by
          have : q ∈ parserLed ps := by rw [e]; simp
          exact ⟨(List.mem_filter.mp this).1, this⟩
        have hqp := own hid hin.1 hpp (by rw [← hr, e1, hres.1])
        subst hqp
        have hsub : (parserLed qs).Sublist (A ++ q :: B) := by rw [← e]; exact hq.filter _
        have hpl : q ∈ parserLed qs := List.mem_filter.mpr ⟨hpq, (List.mem_filter.mp hin.2).2⟩
        obtain ⟨A', B', e2⟩ := List.append_of_mem hpl
        have hA' : ∀ a ∈ A', a ∈ A := by
          have hpw : (A ++ q :: B).Pairwise fun p q => p.uuid ≠ q.uuid := by rw [← e]; exact hid.filter _
          rw [e2] at hsub
          obtain ⟨r1, r2, er, s1, s2⟩ := List.append_sublist_iff.mp hsub
          intro a ha
          have hqr : q ∈ r2 := s2.subset (by simp)
          have har := s1.subset ha
          rcases List.append_eq_append_iff.mp er with ⟨Z, z1, z2⟩ | ⟨Z, z1, z2⟩
          · cases Z with
            | nil => rw [z1] at har; simpa using har
            | cons z Z =>
              simp only [List.cons_append, List.cons.injEq] at z2
              have hqB : q ∈ B := by rw [z2.2]; simp [hqr]
              exact absurd rfl ((List.pairwise_cons.mp (List.pairwise_append.mp hpw).2.1).1 q hqB)
          · rw [z1]; simp [har]
        have key : ∀ C s D, parserLed qs = C ++ s :: D → (∀ a ∈ C, ¬∃ caps, MatchesStrict a.pattern x caps) → (∃ caps, MatchesStrict s.pattern x caps) → s = q := by
          intro C s D e3 hC hs
          rw [e2] at e3
          rcases List.append_eq_append_iff.mp e3 with ⟨Z, z1, z2⟩ | ⟨Z, z1, z2⟩
          · cases Z with
            | nil => simp at z2; exact z2.1.symm
            | cons z Z =>
              simp only [List.cons_append, List.cons.injEq] at z2
              exact absurd ⟨caps, hcaps⟩ (hC q (by rw [z1, z2.1]; simp))
          · cases Z with
            | nil => simp at z2; exact z2.1
            | cons z Z =>
              simp only [List.cons_append, List.cons.injEq] at z2
              exact absurd hs (hA s (hA' s (by rw [z1, z2.1]; simp)))
        refine ⟨fun C s D caps' e3 hC hs => ?_, fun hno => absurd ⟨caps, hcaps⟩ (hno q hpl)⟩
        have := key C s D e3 hC ⟨caps', hs⟩
        subst this
        exact hf.1 A s B caps' e hA hs
      · have hcon : ∃ q, Continuing ps b q := by
          refine Classical.byContradiction fun g => ?_
          have := c3 hb (fun q hq => g ⟨q, hq⟩)
          simp at this
        obtain ⟨q, hcon⟩ := hcon
        have hf := c2 hb q hcon
        have hm : ∃ caps, MatchesStrict q.pattern x caps := by
          refine Classical.byContradiction fun hno => ?_
          have := hf.2 (fun s hs => by simp only [List.mem_singleton] at hs; rw [hs]; exact hno)
          simp at this
        obtain ⟨caps, hm⟩ := hm
        obtain ⟨res, e, hres⟩ := hf.1 [] q [] caps rfl (by simp) hm
        simp only [Option.some.injEq] at e
        have hqp := own hid hcon.1 hpp (by rw [← hr, e, hres.1])
        subst hqp
        have hcon' : Continuing qs b q := ⟨hpq, hcon.2⟩
        exact ⟨b, .inr (.inl ⟨q, hcon'⟩), b2, fun b' g1 g2 => b3 b' (st b' g1) g2, fun g => absurd g hb, fun _ s hs => c2 hb s (co b s hs),
          fun _ g => absurd hcon' (g q)⟩

theorem sublist_split {ps qs : List Pattern} (h : qs.Sublist ps) : ∀ {pre' p post'}, qs = pre' ++ p :: post' →
    ∃ pre post, ps = pre ++ p :: post ∧ pre'.Sublist pre := by
  intro pre' p post' e
  rw [e] at h
  obtain ⟨r1, r2, rfl, h1, h2⟩ := List.append_sublist_iff.mp h
  obtain ⟨s1, s2, rfl, h3, _⟩ := List.cons_sublist_iff.mp h2
  obtain ⟨u, v, rfl⟩ := List.append_of_mem h3
  exact ⟨r1 ++ u, v ++ s2, by simp, h1.trans (List.sublist_append_left _ _)⟩

theorem loaded_apart {ps : List Pattern} (h : ps.Pairwise fun p q => p.uuid ≠ q.uuid) : (ps.map loaded).Pairwise fun p q => p.uuid ≠ q.uuid :=
  List.pairwise_map.mpr h

theorem loaded_undisturbed {ps : List Pattern} (h : Undisturbed ps) : Undisturbed (ps.map loaded) := List.pairwise_map.mpr h

theorem loaded_plain {sip : Bytes → UInt64} {ps : List Pattern} (h : Plain sip ps) : Plain sip (ps.map loaded) := by
  refine ⟨?_, ?_, ?_, noCollision_loaded h.hashes⟩
  · intro p hp; obtain ⟨q, hq, rfl⟩ := List.mem_map.mp hp; exact h.ascii q hq
  · intro p hp; obtain ⟨q, hq, rfl⟩ := List.mem_map.mp hp; exact h.nonempty q hq
  · intro p hp; obtain ⟨q, hq, rfl⟩ := List.mem_map.mp hp; exact h.split q hq

theorem plain_sub {sip : Bytes → UInt64} {ps qs : List Pattern} (h : Plain sip ps) (hq : ∀ q ∈ qs, q ∈ ps) : Plain sip qs :=
  ⟨fun q g => h.ascii q (hq q g), fun q g => h.nonempty q (hq q g), fun q g => h.split q (hq q g), noCollision_sub h.hashes hq⟩

end Fewer
open Fewer
variable {T : Type}

/-- C143, for every matcher: if a source loads, then so do its first items alone. -/
theorem C143_first (I : MatcherImpl T) (A B : List BuildResult) (m : T) (rest : List BuildResult) (h : fromSource I (A ++ B) = .ok (.ok m, rest)) :
    ∃ m', fromSource I A = .ok (.ok m', []) := by
  rw [C40_from_source_ok] at h
  obtain ⟨_, ps, e, hv⟩ := h
  obtain ⟨ps1, ps2, rfl, e1, e2⟩ := List.append_eq_map_iff.mp e
  obtain ⟨m', hm'⟩ := validated_first I ps1 ps2 m hv
  exact ⟨m', (C40_from_source_ok I _ _ _).mpr ⟨rfl, ps1, e1.symm, hm'⟩⟩

/-- C143, the same for a pattern file: any number of patterns can be deleted from its beginning. -/
theorem C143_file (I : MatcherImpl T) (F G : List Pattern) (m : T) (rest : List BuildResult) (h : fromSource I (fileItems (F ++ G)) = .ok (.ok m, rest)) :
    ∃ m', fromSource I (fileItems G) = .ok (.ok m', []) := by
  rw [C45_file_order, List.reverse_append, List.map_append] at h
  rw [C45_file_order]
  exact C143_first I _ _ m rest h

/-- C143, suffix array: a text that is answered with a pattern that begins with a literal has the same answer in the matcher of any part of the list that
holds this pattern (the patterns having different uuids). -/
theorem C143_suffix_answers (sip : Bytes → UInt64) (ps qs : List Pattern) (hu : ∀ p ∈ ps, Utf8Lits p) (hcol : NoCollision sip ps)
    (hid : ps.Pairwise fun p q => p.uuid ≠ q.uuid) (hq : qs.Sublist ps) (p : Pattern) (hp : p ∈ qs) (hlit : ∃ l, p.pattern.head? = some (.literal l))
    (text : Bytes) (hx : Utf8 text) (r : MatchResult) (hr : r.pattern.uuid = p.uuid)
    (h : (SuffixTable.build sip ps >>= fun t => t.parse text) = .ok (some r)) :
    (SuffixTable.build sip qs >>= fun t => t.parse text) = .ok (some r) := by
  have g := C74_panics_iff sip ps hu hcol text hx
  have hu' : ∀ q ∈ qs, Utf8Lits q := fun q g => hu q (hq.subset g)
  have g' := C74_panics_iff sip qs hu' (noCollision_sub hcol fun _ g => hq.subset g) text hx
  have hn : ¬ SuffixTrouble ps text := by
    intro ht
    rw [g.1 ht] at h
    simp at h
  obtain ⟨b, hb, hans⟩ := g.2 hn
  rw [h] at hb
  simp only [Except.ok.injEq] at hb
  subst hb
  obtain ⟨h1, h2⟩ := answer_fewer hq hu hid hp hlit hx hans hr hn
  obtain ⟨b', hb', hans'⟩ := g'.2 h2
  rw [hb', ← C73_answer_unique qs hu' text hx _ _ h1 hans']

/-- C143, trie: the same for every pattern, if no addition disturbs another one (C75). -/
theorem C143_trie_answers (sip : Bytes → UInt64) (ps qs : List Pattern) (hps : Plain sip ps) (hd : Undisturbed ps)
    (hid : ps.Pairwise fun p q => p.uuid ≠ q.uuid) (hq : qs.Sublist ps) (p : Pattern) (hp : p ∈ qs) (text : Bytes) (hx : Ascii text) (r : MatchResult)
    (hr : r.pattern.uuid = p.uuid) (h : (SuffixTree.build sip ps >>= fun t => t.parse text) = .ok (some r)) :
    (SuffixTree.build sip qs >>= fun t => t.parse text) = .ok (some r) := by
  have hps' := plain_sub hps fun _ g => hq.subset g
  obtain ⟨b, hb, hans⟩ := C65_table_ascii sip ps hps.ascii hps.nonempty hps.split hps.hashes text hx
  obtain ⟨b', hb', hans'⟩ := C65_table_ascii sip qs hps'.ascii hps'.nonempty hps'.split hps'.hashes text hx
  rw [h] at hb
  simp only [Except.ok.injEq] at hb
  subst hb
  have f := family_fewer hq hid hp (family_answer (lists_of hd) hans) hr
  rw [hb', C75_answer_unique qs text _ _ (family_answer (lists_of (hd.sublist hq)) hans') f]

namespace Fewer

/-- What is needed for loading parts: the messages pass in any company of fewer patterns. -/
theorem load_fewer (I : MatcherImpl T) (ps qs : List Pattern) (hq : qs.Sublist ps) (hb : ∀ qs : List Pattern, qs.Sublist ps → ∃ m, built I qs = .ok m)
    (hpass : ∀ pre p post pre' m m' msg, ps = pre ++ p :: post → pre'.Sublist pre → built I (pre ++ [p]) = .ok m → built I (pre' ++ [p]) = .ok m' →
      msg ∈ testsOf p → PassesIn I m p.uuid msg → PassesIn I m' p.uuid msg) (m : T) (rest : List BuildResult)
    (h : fromSource I (ps.map .ok) = .ok (.ok m, rest)) : ∃ m', fromSource I (qs.map .ok) = .ok (.ok m', []) := by
  rw [C40_from_source_ok] at h
  obtain ⟨_, ps', e, _, hv⟩ := h
  have e : ps = ps' := by
    have := congrArg delivered e
    rwa [delivered_map_ok, delivered_map_ok] at this
  subst e
  obtain ⟨m', hm'⟩ := hb qs hq
  refine ⟨m', (C40_from_source_ok _ _ _ _).mpr ⟨rfl, qs, rfl, hm', fun pre' p post' e' => ?_⟩⟩
  obtain ⟨pre, post, e2, hsub⟩ := sublist_split hq e'
  obtain ⟨m1, h1, h2⟩ := hv pre p post e2
  have hs : (pre' ++ [p]).Sublist ps := by
    rw [e2]
    exact hsub.append (List.singleton_sublist.mpr (by simp))
  obtain ⟨m2, h3⟩ := hb (pre' ++ [p]) hs
  exact ⟨m2, h3, fun msg hin => hpass pre p post pre' m1 m2 msg e2 hsub h1 h3 hin (h2 msg hin)⟩

theorem upTo {pre post : List Pattern} {p : Pattern} : (pre ++ [p]).Sublist (pre ++ p :: post) :=
  (List.Sublist.refl pre).append (List.singleton_sublist.mpr (by simp))

end Fewer

/-- C143, suffix array: if the patterns have different uuids and those with test messages begin with literals, any of them can be taken out of a source
that loads. -/
theorem C143_suffix_array (sip : Bytes → UInt64) (ps qs : List Pattern) (hu : ∀ p ∈ ps, Utf8Lits p) (hcol : NoCollision sip ps)
    (hid : ps.Pairwise fun p q => p.uuid ≠ q.uuid) (hlit : ∀ p ∈ ps, testsOf p ≠ [] → ∃ l, p.pattern.head? = some (.literal l))
    (hmsg : ∀ p ∈ ps, ∀ msg ∈ testsOf p, Utf8 msg.message) (m : SuffixTable) (rest : List BuildResult)
    (h : fromSource (suffixArrayMatcher sip) (ps.map .ok) = .ok (.ok m, rest)) (hq : qs.Sublist ps) :
    ∃ m', fromSource (suffixArrayMatcher sip) (qs.map .ok) = .ok (.ok m', []) := by
  refine load_fewer _ ps qs hq (fun qs _ => sfile_built sip qs) ?_ m rest h
  rintro pre p post pre' m1 m2 msg rfl hsub h1 h2 hin ⟨a, ha, hpass⟩
  obtain ⟨r, rfl, hr, _⟩ := id hpass
  refine ⟨some r, ?_, hpass⟩
  have hb1 : SuffixTable.build sip ((pre ++ [p]).map loaded) = .ok m1 := h1
  have hb2 : SuffixTable.build sip ((pre' ++ [p]).map loaded) = .ok m2 := h2
  have := C143_suffix_answers sip ((pre ++ [p]).map loaded) ((pre' ++ [p]).map loaded) (utf8_loaded fun q g => hu q (upTo.subset g))
    (noCollision_loaded (noCollision_sub hcol fun _ g => upTo.subset g)) (loaded_apart (hid.sublist upTo))
    ((hsub.append (List.Sublist.refl _)).map _) (loaded p) (by simp) (hlit p (by simp) (fun g => by rw [g] at hin; simp at hin)) msg.message
    (hmsg p (by simp) msg hin) r hr (by rw [hb1]; exact ha)
  rw [hb2] at this
  exact this

/-- C143, trie: the same for all patterns if no addition disturbs another one (C75). -/
theorem C143_trie (sip : Bytes → UInt64) (ps qs : List Pattern) (hps : Plain sip ps) (hd : Undisturbed ps) (hid : ps.Pairwise fun p q => p.uuid ≠ q.uuid)
    (hmsg : ∀ p ∈ ps, ∀ msg ∈ testsOf p, Ascii msg.message) (m : SuffixTree) (rest : List BuildResult)
    (h : fromSource (trieMatcher sip) (ps.map .ok) = .ok (.ok m, rest)) (hq : qs.Sublist ps) :
    ∃ m', fromSource (trieMatcher sip) (qs.map .ok) = .ok (.ok m', []) := by
  refine load_fewer _ ps qs hq ?_ ?_ m rest h
  · intro qs hq
    obtain ⟨t, ht, _⟩ := build_ascii sip (qs.map loaded) (loaded_plain (plain_sub hps fun _ g => hq.subset g)).ascii
    exact ⟨t, ht⟩
  · rintro pre p post pre' m1 m2 msg rfl hsub h1 h2 hin ⟨a, ha, hpass⟩
    obtain ⟨r, rfl, hr, _⟩ := id hpass
    refine ⟨some r, ?_, hpass⟩
    have hb1 : SuffixTree.build sip ((pre ++ [p]).map loaded) = .ok m1 := h1
    have hb2 : SuffixTree.build sip ((pre' ++ [p]).map loaded) = .ok m2 := h2
    have := C143_trie_answers sip ((pre ++ [p]).map loaded) ((pre' ++ [p]).map loaded) (loaded_plain (plain_sub hps fun _ g => upTo.subset g))
      (loaded_undisturbed (hd.sublist upTo)) (loaded_apart (hid.sublist upTo)) ((hsub.append (List.Sublist.refl _)).map _) (loaded p) (by simp)
      msg.message (hmsg p (by simp) msg hin) r hr (by rw [hb1]; exact ha)
    rw [hb2] at this
    exact this

namespace Fewer

def loads {T : Type} : M (Except BuildError T × List BuildResult) → Bool
  | .ok (.ok _, []) => true
  | _ => false

theorem loads_iff {T : Type} {r : M (Except BuildError T × List BuildResult)} : loads r = true ↔ ∃ m, r = .ok (.ok m, []) := by
  unfold loads
  split
  · rename_i m
    exact ⟨fun _ => ⟨m, rfl⟩, fun _ => rfl⟩
  · rename_i h
    exact ⟨fun g => by simp at g, fun ⟨m, g⟩ => absurd g (h m)⟩

def tested (p : Pattern) (text value : Bytes) : Pattern :=
  { p with testMessages := some [{ message := text, values := [(b!"x", value)], tags := none }] }

def first : Pattern := Samples.pat 1 [.literal b!"a", .parser (Samples.int b!"x")]
def longer : Pattern := tested (Samples.pat 2 [.literal b!"ab", .parser (Samples.int b!"x")]) b!"ab5" b!"5"
def again : Pattern := tested (Samples.pat 3 [.literal b!"a", .parser (Samples.int b!"x")]) b!"a1" b!"1"

def int1 : Pattern := Samples.pat 1 [.parser (Samples.int b!"x")]
def int2 : Pattern := Samples.pat 2 [.parser (Samples.int b!"y")]
def int3 : Pattern := tested (Samples.pat 3 [.parser (Samples.int b!"x")]) b!"7" b!"7"

end Fewer

/-- C143, trie: the patterns that are added first cannot be taken out: `a%{INT:x}`, `ab%{INT:x}` and again `a%{INT:x}` load in this order, but not without
the first one, although the uuids are different and the patterns begin with literals. -/
theorem C143_trie_counts : ∃ ps qs : List Pattern, qs.Sublist ps ∧ (ps.Pairwise fun p q => p.uuid ≠ q.uuid) ∧
    (∀ p ∈ ps, ∃ l, p.pattern.head? = some (.literal l)) ∧
    (∃ m, fromSource (trieMatcher Samples.sip) (ps.map .ok) = .ok (.ok m, [])) ∧ ¬∃ m, fromSource (trieMatcher Samples.sip) (qs.map .ok) = .ok (.ok m, []) := by
  refine ⟨[first, longer, again], [longer, again], by simp, by decide +kernel, ?_, loads_iff.mp (by decide +kernel), ?_⟩
  · intro p hp
    simp only [List.mem_cons, List.not_mem_nil, or_false] at hp
    rcases hp with rfl | rfl | rfl <;> exact ⟨_, rfl⟩
  · rw [← loads_iff]
    decide +kernel

/-- C143, both matchers: neither can they if patterns begin with parsers: `%{INT:x}`, `%{INT:y}` and again `%{INT:x}` load in this order, but not without the
first one. -/
theorem C143_parsers_count : ∃ ps qs : List Pattern, qs.Sublist ps ∧ (ps.Pairwise fun p q => p.uuid ≠ q.uuid) ∧
    ((∃ m, fromSource (trieMatcher Samples.sip) (ps.map .ok) = .ok (.ok m, [])) ∧ ¬∃ m, fromSource (trieMatcher Samples.sip) (qs.map .ok) = .ok (.ok m, [])) ∧
    (∃ m, fromSource (suffixArrayMatcher Samples.sip) (ps.map .ok) = .ok (.ok m, [])) ∧
      ¬∃ m, fromSource (suffixArrayMatcher Samples.sip) (qs.map .ok) = .ok (.ok m, []) := by
  refine ⟨[int1, int2, int3], [int2, int3], by simp, by decide +kernel, ⟨loads_iff.mp (by decide +kernel), ?_⟩, loads_iff.mp (by decide +kernel), ?_⟩
  all_goals
    rw [← loads_iff]
    decide +kernel

/-! The suffix array loads the first three patterns, and therefore also without the first one. -/

example : ∃ m, fromSource (suffixArrayMatcher Samples.sip) ([longer, again].map .ok) = .ok (.ok m, []) := by
  obtain ⟨m, h⟩ := loads_iff.mp (show loads (fromSource (suffixArrayMatcher Samples.sip) ([first, longer, again].map .ok)) = true by decide +kernel)
  refine C143_suffix_array Samples.sip [first, longer, again] _ ?_ ?_ (by decide +kernel) ?_ ?_ m [] h (by simp)
  · intro p hp l hl
    simp only [List.mem_cons, List.not_mem_nil, or_false] at hp
    rcases hp with rfl | rfl | rfl <;> simp [first, longer, again, tested, Samples.pat] at hl <;> subst hl <;> exact ascii_utf8 (by decide)
  · rintro a b ⟨p, hp, e⟩
    simp only [List.mem_cons, List.not_mem_nil, or_false] at hp
    rcases hp with rfl | rfl | rfl <;> simp [first, longer, again, tested, Samples.pat] at e
  · intro p hp _
    simp only [List.mem_cons, List.not_mem_nil, or_false] at hp
    rcases hp with rfl | rfl | rfl <;> exact ⟨_, rfl⟩
  · intro p hp msg hm
    simp only [List.mem_cons, List.not_mem_nil, or_false] at hp
    rcases hp with rfl | rfl | rfl
    · cases hm
    all_goals
      simp [longer, again, tested, testsOf] at hm
      subst hm
      exact ascii_utf8 (by decide)

/-! The trie loads the first two of them, which do not disturb each other, and therefore each of them alone. -/

example : ∃ m, fromSource (trieMatcher Samples.sip) ([longer].map .ok) = .ok (.ok m, []) := by
  obtain ⟨m, h⟩ := loads_iff.mp (show loads (fromSource (trieMatcher Samples.sip) ([first, longer].map .ok)) = true by decide +kernel)
  refine C143_trie Samples.sip [first, longer] _ ⟨?_, ?_, ?_, ?_⟩ ?_ (by decide +kernel) ?_ m [] h (by simp)
  · intro p hp l hl
    simp only [List.mem_cons, List.not_mem_nil, or_false] at hp
    rcases hp with rfl | rfl <;> simp [first, longer, tested, Samples.pat] at hl <;> subst hl <;> decide
  · intro p hp l hl
    simp only [List.mem_cons, List.not_mem_nil, or_false] at hp
    rcases hp with rfl | rfl <;> simp [first, longer, tested, Samples.pat] at hl <;> subst hl <;> decide
  · intro p hp l rest e l'
    simp only [List.mem_cons, List.not_mem_nil, or_false] at hp
    rcases hp with rfl | rfl <;> simp [first, longer, tested, Samples.pat] at e <;> rw [← e.2] <;> simp
  · rintro a b ⟨p, hp, e⟩
    simp only [List.mem_cons, List.not_mem_nil, or_false] at hp
    rcases hp with rfl | rfl <;> simp [first, longer, tested, Samples.pat] at e
  · refine List.pairwise_cons.mpr ⟨?_, List.pairwise_singleton _ _⟩
    intro q hq
    simp only [List.mem_singleton] at hq
    subst hq
    refine ⟨?_, ?_⟩
    · intro l rest l' rest' e1 e2
      simp [first, longer, tested, Samples.pat] at e1 e2
      obtain ⟨rfl, rfl⟩ := e1
      obtain ⟨rfl, rfl⟩ := e2
      simp
    · intro a rest b rest' e1
      simp [first, Samples.pat] at e1
  · intro p hp msg hm
    simp only [List.mem_cons, List.not_mem_nil, or_false] at hp
    rcases hp with rfl | rfl
    · cases hm
    · simp [longer, tested, testsOf] at hm
      subst hm
      decide

example (T : Type) (I : MatcherImpl T) (m : T) (h : fromSource I (fileItems ([again, longer] ++ [first])) = .ok (.ok m, [])) :
    ∃ m', fromSource I (fileItems [first]) = .ok (.ok m', []) := C143_file I _ _ m [] h

end Verif
