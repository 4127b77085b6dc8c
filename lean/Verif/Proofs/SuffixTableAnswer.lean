import Verif.Proofs.SuffixFam
import Verif.Proofs.TrieTable
/-! The exact answers of the suffix-array matcher. -/
namespace Verif
open Spec

/-! ### patterns that begin with a parser -/

/-- The parser entry that stands for a pattern. -/
def SStands (n : ParserE) (p : Pattern) : Prop :=
  ∃ rest, p.pattern = .parser n.parser :: rest ∧ (rest = [] → n.pattern = some p.strip ∧ n.child = none) ∧
    (rest ≠ [] → n.child = some (ssingle rest p.strip))

inductive SParRel : List ParserE → List Pattern → Prop
  | nil : SParRel [] []
  | cons (n : ParserE) (p : Pattern) (ns : List ParserE) (ps : List Pattern) : SStands n p → SParRel ns ps → SParRel (n :: ns) (p :: ps)

theorem sparRel_add {sip : Bytes → UInt64} {ns : List ParserE} {ps : List Pattern} {a : Parser} {rest : List Token} {p : Pattern}
    (h : SParRel ns ps) (hp : p.pattern = .parser a :: rest)
    (hcol : ∀ q ∈ ps, ∀ b rest', q.pattern = .parser b :: rest' → b.hashOs sip = a.hashOs sip → b = a) :
    SParRel (putPar sip a (supdP rest p.strip) ns) (addParserLed a p ps) := by
  induction h with
  | nil =>
    refine .cons _ _ _ _ ⟨rest, ?_, ?_, ?_⟩ .nil
    · rw [supdP_parser, hp]; rfl
    · intro h; simp [supdP, h, ParserE.new]
    · intro h; simp [supdP, h]
  | cons n q ns ps hst hrel ih =>
    obtain ⟨r, hq, h1, h2⟩ := hst
    unfold putPar addParserLed
    by_cases hh : n.parser.hashOs sip = a.hashOs sip
    · have ha := hcol q (by simp) _ _ hq hh
      rw [if_pos (by simpa using hh), if_pos (by rw [hq]; simp [ha])]
      refine .cons _ _ _ _ ?_ hrel
      by_cases hrest : rest = []
      · subst hrest
        have hu : supdP [] p.strip n = { n with pattern := some p.strip } := by simp [supdP]
        rw [hu]
        by_cases hr : r = []
        · rw [if_neg (by rw [hq, hr, ha]; simp)]
          exact ⟨[], by rw [hp, ← ha], fun _ => ⟨rfl, (h1 hr).2⟩, fun h => absurd rfl h⟩
        · rw [if_pos ⟨hp, by rw [hq]; simpa using fun _ => hr⟩]
          exact ⟨r, hq, fun h => absurd h hr, h2⟩
      · have hu : supdP rest p.strip n = { n with child := some (ssingle rest p.strip) } := by simp [supdP, hrest]
        rw [hu, if_neg (by rw [hp]; simp [hrest])]
        exact ⟨rest, by rw [hp, ← ha], fun h => absurd h hrest, fun _ => rfl⟩
    · rw [if_neg (by simpa using hh), if_neg (by rw [hq]; simp; rintro rfl; exact hh rfl)]
      exact .cons _ _ _ _ ⟨r, hq, h1, h2⟩ (ih fun q' hq' => hcol q' (by simp [hq']))

theorem noCollision_init {sip : Bytes → UInt64} {ps qs : List Pattern} (h : NoCollision sip (ps ++ qs)) : NoCollision sip ps := by
  rintro a b ⟨p, hp, e⟩ ⟨q, hq, e'⟩ hh
  exact h a b ⟨p, by simp [hp], e⟩ ⟨q, by simp [hq], e'⟩ hh

theorem reach_parsers {sip : Bytes → UInt64} (qs : List Pattern) : ∀ (ps : List Pattern) (t t' : SuffixTable), Reach sip ps t →
    SParRel t.parserEntries (Table.of ps).parserLed → (∀ p ∈ (Table.of ps).parserLed, p ∈ ps) → NoCollision sip (ps ++ qs) →
    qs.foldlM (fun t p => t.addPattern sip p) t = .ok t' →
    SParRel t'.parserEntries (Table.of (ps ++ qs)).parserLed ∧ ∀ p ∈ (Table.of (ps ++ qs)).parserLed, p ∈ ps ++ qs := by
  induction qs with
  | nil =>
    intro ps t t' _ h1 h2 _ h
    simp [pure, Except.pure] at h
    subst h
    simpa using ⟨h1, h2⟩
  | cons q qs ih =>
    intro ps t t' hr h1 h2 hcol h
    obtain ⟨t1, e1, hr1⟩ := reach_step hr q
    have hof : Table.of (ps ++ [q]) = (Table.of ps).add q := by simp [Table.of]
    have hkey : SParRel t1.parserEntries (Table.of (ps ++ [q])).parserLed ∧ ∀ p ∈ (Table.of (ps ++ [q])).parserLed, p ∈ ps ++ [q] := by
      rw [hof]
      cases hq : q.pattern with
      | nil =>
        rw [sinsert_empty sip t q hq] at e1
        simp at e1; subst e1
        have : (Table.of ps).add q = Table.of ps := by unfold Table.add; rw [hq]
        rw [this]
        exact ⟨h1, fun p hp => by simp [h2 p hp]⟩
      | cons tok rest =>
        cases tok with
        | literal l =>
          rw [sinsert_lit sip t q l rest hq, sinsertLiteral_run hr.sorted] at e1
          simp at e1; subst e1
          have : ((Table.of ps).add q).parserLed = (Table.of ps).parserLed := by unfold Table.add; rw [hq]
          rw [this]
          exact ⟨h1, fun p hp => by simp [h2 p hp]⟩
        | parser a =>
          rw [sinsert_par sip t q a rest hq, sinsertParser_run] at e1
          simp at e1; subst e1
          have : ((Table.of ps).add q).parserLed = addParserLed a q (Table.of ps).parserLed := by unfold Table.add; rw [hq]
          rw [this]
          refine ⟨sparRel_add h1 hq ?_, ?_⟩
          · intro q' hq' b rest' e hh
            exact hcol b a ⟨q', by simp [h2 q' hq'], by rw [e]; rfl⟩ ⟨q, by simp, by rw [hq]; rfl⟩ hh
          · intro p hp
            rcases addParserLed_mem hp with hp | rfl
            · simp [h2 p hp]
            · simp
    have h' : qs.foldlM (fun t p => t.addPattern sip p) t1 = .ok t' := by
      rw [List.foldlM_cons] at h
      simp only [SuffixTable.addPattern, e1, bind, Except.bind] at h
      exact h
    have := ih (ps ++ [q]) t1 t' hr1 hkey.1 hkey.2 (by simpa using hcol) h'
    simpa using this

theorem sbuild_parsers {sip : Bytes → UInt64} {ps : List Pattern} {t : SuffixTable} (hb : SuffixTable.build sip ps = .ok t)
    (hcol : NoCollision sip ps) : SParRel t.parserEntries (Table.of ps).parserLed ∧ ∀ p ∈ (Table.of ps).parserLed, p ∈ ps := by
  have := reach_parsers (sip := sip) ps [] SuffixTable.new t (reach_new sip) .nil (by simp [Table.of]) (by simpa using hcol) hb
  simpa using this

theorem firstLoose_cons {p : Pattern} {ps : List Pattern} {x : Bytes} {r0 r : Option MatchResult} (hans : SAnswers p.pattern p.strip x r0)
    (h : (∃ res, r0 = some res ∧ r = some res) ∨ (r0 = none ∧ FirstLoose ps x r)) : FirstLoose (p :: ps) x r := by
  rcases h with ⟨res, rfl, rfl⟩ | ⟨rfl, ih⟩
  · refine ⟨?_, ?_⟩
    · intro A p' B caps hs hA hm
      cases A with
      | nil =>
        simp at hs
        rw [← hs.1] at hm ⊢
        obtain ⟨res', h3, h4, h5⟩ := hans.1 caps hm
        exact ⟨res', h3, h4, h5⟩
      | cons a0 A =>
        simp at hs
        have := hans.2 (by rw [hs.1]; exact hA a0 (by simp))
        simp at this
    · intro hno
      have := hans.2 (hno p (by simp))
      simp at this
  · refine ⟨?_, ?_⟩
    · intro A p' B caps hs hA hm
      cases A with
      | nil =>
        simp at hs
        rw [← hs.1] at hm
        obtain ⟨res', h3, _⟩ := hans.1 caps hm
        simp at h3
      | cons a0 A =>
        simp at hs
        exact ih.1 A p' B caps hs.2 (fun a ha => hA a (by simp [ha])) hm
    · intro hno
      exact ih.2 fun p hp => hno p (by simp [hp])

theorem firstLoose_one {p : Pattern} {x : Bytes} {r : Option MatchResult} (hans : SAnswers p.pattern p.strip x r) : FirstLoose [p] x r := by
  refine firstLoose_cons hans ?_
  cases r with
  | none => exact .inr ⟨rfl, by intro A p B caps h; simp at h, fun _ => rfl⟩
  | some res => exact .inl ⟨res, rfl, rfl⟩

theorem sparRel_first {ns : List ParserE} {ps : List Pattern} (h : SParRel ns ps) (hu : ∀ p ∈ ps, Utf8Lits p) {x : Bytes} (hx : Utf8 x)
    {r : Option MatchResult} (hr : sparseWithParsers ns x = .ok r) : FirstLoose ps x r := by
  induction h generalizing r with
  | nil =>
    rw [sparseWithParsers] at hr
    simp at hr
    exact ⟨by intro A p B caps h; simp at h, fun _ => hr.symm⟩
  | cons n p ns ps hst hrel ih =>
    obtain ⟨rest, hp, hpat, hchild⟩ := hst
    have hu' : LitsP Utf8 rest := fun l hl => hu p (by simp) l (by rw [hp]; simp [hl])
    obtain ⟨r0, h1, h2⟩ := sparseWithParsers_cons hr
    have hans : SAnswers p.pattern p.strip x r0 := by
      rw [hp]
      exact parserE_answers rfl hpat hchild hx (fun h y hy r hr => ssingle_answers h hu' hy hr) h1
    refine firstLoose_cons hans ?_
    rcases h2 with ⟨res, rfl, rfl⟩ | ⟨rfl, h2⟩
    · exact .inl ⟨res, rfl, rfl⟩
    · exact .inr ⟨rfl, ih (fun p hp => hu p (by simp [hp])) h2⟩

/-! ### the chosen literal -/

theorem nearer_iff {x l l' : Bytes} (hx : Utf8 x) (hl : Utf8 l) (hl' : Utf8 l') :
    Nearer x l l' ↔ commonPrefixLen l' x ≤ commonPrefixLen l x := by
  have h1 := cpl_le l x
  have h2 := cpl_le l' x
  constructor
  · intro h
    have := h _ _ ((lcp_iff hl hx).mpr rfl) ((lcp_iff hl' hx).mpr rfl)
    rw [List.length_take, List.length_take] at this
    omega
  · intro h c c' hc hc'
    rw [lcp_iff hl hx] at hc
    rw [lcp_iff hl' hx] at hc'
    rw [hc, hc', List.length_take, List.length_take]
    omega

theorem before_iff {a b : Bytes} : Before a b ↔ cmpBytes a b = .lt := cmpBytes_lex.symm

/-- What `longest_common_prefix` finds for a text that is not stored. -/
theorem lcp_pick {t : SuffixTable} (hs : SSorted t.literalEntries) (hu : SUtf8 t.literalEntries) {x : Bytes} (hx : Utf8 x)
    (hno : ∀ e ∈ t.literalEntries, e.literal ≠ x) (hne : t.literalEntries ≠ []) :
    ∃ e ∈ t.literalEntries, t.longestCommonPrefix x = .ok (some e) ∧
      (∀ e' ∈ t.literalEntries, commonPrefixLen e'.literal x ≤ commonPrefixLen e.literal x) ∧
      ((cmpBytes e.literal x = .lt ∧ ∀ e' ∈ t.literalEntries, cmpBytes e'.literal x = .lt → e' = e ∨ cmpBytes e'.literal e.literal = .lt) ∨
       (cmpBytes x e.literal = .lt ∧ (∀ e' ∈ t.literalEntries, cmpBytes x e'.literal = .lt → e' = e ∨ cmpBytes e.literal e'.literal = .lt) ∧
        ∀ e' ∈ t.literalEntries, cmpBytes e'.literal x = .lt → commonPrefixLen e'.literal x < commonPrefixLen e.literal x)) := by
  rcases lcp_spec hs hu hx with ⟨h, _⟩ | ⟨e, he, h1, h2⟩
  · exact absurd h hne
  · refine ⟨e, he, h1, h2, ?_⟩
    unfold SuffixTable.longestCommonPrefix at h1
    rcases ssearch hs x with ⟨A, e', B, h3, h4, _⟩ | ⟨A, B, h3, hA, hB, h4⟩
    · exact absurd h4 (hno e' (by rw [h3]; simp))
    · rw [h4] at h1
      simp only [bind, Except.bind, pure, Except.pure, Except.ok.injEq] at h1
      have hs' := hs
      unfold SSorted at hs'
      rw [h3, List.pairwise_append] at hs'
      have left : ∀ a A', A = A' ++ [a] → cmpBytes a.literal x = .lt ∧
          ∀ e' ∈ t.literalEntries, cmpBytes e'.literal x = .lt → e' = a ∨ cmpBytes e'.literal a.literal = .lt := by
        rintro a A' rfl
        refine ⟨hA a (by simp), ?_⟩
        intro e' he' hlt
        rw [h3, List.mem_append] at he'
        rcases he' with he' | he'
        · simp at he'
          rcases he' with he' | rfl
          · have h5 := hs'.1
            rw [List.pairwise_append] at h5
            exact .inr (h5.2.2 e' he' a (by simp))
          · exact .inl rfl
        · rw [hB e' he'] at hlt; simp at hlt
      have right : ∀ b B', B = b :: B' → cmpBytes x b.literal = .lt ∧
          ∀ e' ∈ t.literalEntries, cmpBytes x e'.literal = .lt → e' = b ∨ cmpBytes b.literal e'.literal = .lt := by
        rintro b B' rfl
        refine ⟨cmpBytes_gt.mp (hB b (by simp)), ?_⟩
        intro e' he' hlt
        rw [h3, List.mem_append] at he'
        rcases he' with he' | he'
        · have := cmpBytes_gt.mpr hlt
          rw [hA e' he'] at this; simp at this
        · simp at he'
          rcases he' with rfl | he'
          · exact .inl rfl
          · have h5 := hs'.2.1
            rw [List.pairwise_cons] at h5
            exact .inr (h5.1 e' he')
      unfold SuffixTable.lcpAroundPos at h1
      rcases List.eq_nil_or_concat A with rfl | ⟨A', a, rfl⟩
      · cases B with
        | nil => rw [h3] at hne; exact absurd rfl hne
        | cons b B =>
          rw [h3] at h1
          simp at h1
          subst h1
          obtain ⟨r1, r2⟩ := right b B rfl
          refine .inr ⟨r1, r2, ?_⟩
          intro e' he' hlt
          rw [h3] at he'
          rw [hB e' (by simpa using he')] at hlt; simp at hlt
      · rw [List.concat_eq_append] at *
        rw [if_neg (by simp)] at h1
        unfold SuffixTable.lcpBetweenConsecutive at h1
        have e1 : t.literalEntries[(A' ++ [a]).length - 1]? = some a := by rw [h3]; simp
        have e2 : t.literalEntries[(A' ++ [a]).length - 1 + 1]? = B.head? := by
          rw [h3, List.getElem?_append_right (by simp)]
          simp [List.head?_eq_getElem?]
        rw [e1, e2] at h1
        obtain ⟨l1, l2⟩ := left a A' rfl
        cases B with
        | nil =>
          simp at h1
          subst h1
          exact .inl ⟨l1, l2⟩
        | cons b B =>
          simp only [List.head?_cons] at h1
          obtain ⟨r1, r2⟩ := right b B rfl
          by_cases hge : commonPrefixLen a.literal x ≥ commonPrefixLen b.literal x
          · rw [if_pos hge] at h1
            simp at h1
            subst h1
            exact .inl ⟨l1, l2⟩
          · rw [if_neg hge] at h1
            simp at h1
            subst h1
            refine .inr ⟨r1, r2, ?_⟩
            intro e' he' hlt
            have ha : a ∈ t.literalEntries := by rw [h3]; simp
            have : commonPrefixLen e'.literal x ≤ commonPrefixLen a.literal x := by
              rcases l2 e' he' hlt with rfl | h5
              · exact Nat.le_refl _
              · exact cpl_left (hu e' he') hx (hu a ha) h5 l1
            omega

theorem chosen_unique {ps : List Pattern} {x l l' : Bytes} (h : Chosen ps x l) (h' : Chosen ps x l') : l = l' := by
  obtain ⟨h1, h2⟩ := h
  obtain ⟨h1', h2'⟩ := h'
  rcases h2 with rfl | ⟨hx, h2⟩
  · rcases h2' with rfl | ⟨hx', _⟩
    · rfl
    · exact absurd h1 hx'
  · rcases h2' with rfl | ⟨_, h2'⟩
    · exact absurd h1' hx
    · by_cases e : l' = l
      · exact e.symm
      · exfalso
        obtain ⟨n1, k1⟩ := h2 l' h1' e
        obtain ⟨n2, k2⟩ := h2' l h1 (Ne.symm e)
        have k1 := k1 n2
        have k2 := k2 n1
        simp only [before_iff] at k1 k2
        have irr : ∀ {a b : Bytes}, cmpBytes a b = .lt → cmpBytes b a = .lt → False := fun p q => cmpBytes_irrefl _ (cmpBytes_trans p q)
        have tot : ∀ m, Leads ps m → cmpBytes m x = .lt ∨ cmpBytes x m = .lt := by
          intro m hm
          cases hc : cmpBytes m x with
          | lt => exact .inl rfl
          | eq => rw [cmpBytes_eq] at hc; exact absurd (hc ▸ hm) hx
          | gt => exact .inr (cmpBytes_gt.mp hc)
        rcases tot l h1 with a | a <;> rcases tot l' h1' with b | b
        · rcases k1.1 a with c | c
          · rcases k2.1 b with d | d
            · exact irr c d
            · exact irr a d
          · exact irr b c
        · exact irr (cmpBytes_trans (k2.2 b) a) b
        · exact irr (cmpBytes_trans (k1.2 a) b) a
        · exact irr (k1.2 a) (k2.2 b)

/-- `longest_common_prefix` finds the entry of the chosen literal. -/
theorem lcp_chosen {sip : Bytes → UInt64} {ps : List Pattern} {t : SuffixTable} (h : Reach sip ps t) (hu : ∀ p ∈ ps, Utf8Lits p) {x : Bytes}
    (hx : Utf8 x) (hl : ∃ l, Leads ps l) : ∃ e ∈ t.literalEntries, t.longestCommonPrefix x = .ok (some e) ∧ Chosen ps x e.literal := by
  have hus := reach_utf8 h hu
  by_cases hlx : Leads ps x
  · obtain ⟨e, he, rfl⟩ := (reach_has h x).mpr hlx
    exact ⟨e, he, lcp_exact h.sorted he, hlx, .inl rfl⟩
  · obtain ⟨l0, hl0⟩ := hl
    obtain ⟨e0, he0, _⟩ := (reach_has h l0).mpr hl0
    obtain ⟨e, he, h1, h2, h3⟩ := lcp_pick h.sorted hus hx (fun e he hh => hlx ((reach_has h x).mp ⟨e, he, hh⟩))
      (by intro h0; rw [h0] at he0; simp at he0)
    refine ⟨e, he, h1, (reach_has h _).mp ⟨e, he, rfl⟩, .inr ⟨hlx, ?_⟩⟩
    intro l' hl' hne
    obtain ⟨e', he', rfl⟩ := (reach_has h l').mpr hl'
    have hee : e' ≠ e := by rintro rfl; exact hne rfl
    refine ⟨(nearer_iff hx (hus e he) (hus e' he')).mpr (h2 e' he'), ?_⟩
    intro hn
    rw [nearer_iff hx (hus e' he') (hus e he)] at hn
    simp only [before_iff]
    have hcase : cmpBytes e'.literal x = .lt ∨ cmpBytes x e'.literal = .lt := by
      cases hc : cmpBytes e'.literal x with
      | lt => exact .inl rfl
      | eq => rw [cmpBytes_eq] at hc; exact absurd (hc ▸ hl') hlx
      | gt => exact .inr (cmpBytes_gt.mp hc)
    have irr : ∀ {a b : Bytes}, cmpBytes a b = .lt → cmpBytes b a = .lt → False := fun p q => cmpBytes_irrefl _ (cmpBytes_trans p q)
    rcases h3 with ⟨k1, k2⟩ | ⟨k1, k2, k3⟩
    · refine ⟨fun _ => ?_, fun hh => (irr k1 hh).elim⟩
      rcases hcase with hc | hc
      · rcases k2 e' he' hc with hh | hh
        · exact absurd hh hee
        · exact .inl hh
      · exact .inr hc
    · refine ⟨fun hh => (irr k1 hh).elim, fun _ => ?_⟩
      rcases hcase with hc | hc
      · have := k3 e' he' hc; omega
      · rcases k2 e' he' hc with hh | hh
        · exact absurd hh hee
        · exact hh

/-! ### the last pattern with a literal -/

theorem lastWith_find {ps : List Pattern} {P : List Token → Prop} {f : Pattern → Bool} (hf : ∀ p, f p = true ↔ P p.pattern) {p : Pattern} :
    LastWith ps P p ↔ ps.reverse.find? f = some p := by
  rw [List.find?_eq_some_iff_append]
  constructor
  · rintro ⟨A, B, rfl, h1, h2⟩
    refine ⟨(hf p).mpr h1, B.reverse, A.reverse, by simp, ?_⟩
    intro q hq
    have := h2 q (by simpa using hq)
    rw [← hf] at this
    simpa using this
  · rintro ⟨h1, A, B, h2, h3⟩
    refine ⟨B.reverse, A.reverse, ?_, (hf p).mp h1, ?_⟩
    · have := congrArg List.reverse h2
      simpa using this
    · intro q hq
      have := h3 q (by simpa using hq)
      rw [← hf]
      simpa using this

theorem lastWhole_iff {ps : List Pattern} {l : Bytes} {p : Pattern} : LastWith ps (· = [.literal l]) p ↔ wholeFor ps l = some p :=
  lastWith_find (by simp)

theorem lastMore_iff {ps : List Pattern} {l : Bytes} {p : Pattern} :
    LastWith ps (fun toks => ∃ rest, rest ≠ [] ∧ toks = .literal l :: rest) p ↔ moreFor ps l = some p := by
  refine lastWith_find ?_
  intro q
  simp only [decide_eq_true_eq]
  cases q.pattern with
  | nil => simp
  | cons tok toks =>
    simp only [List.head?_cons, Option.some.injEq, List.tail_cons, List.cons.injEq]
    constructor
    · rintro ⟨rfl, h⟩; exact ⟨toks, h, rfl, rfl⟩
    · rintro ⟨rest, h, rfl, rfl⟩; exact ⟨rfl, h⟩

/-- The exact answer of the suffix-array matcher. -/
theorem suffix_answer {sip : Bytes → UInt64} {ps : List Pattern} {t : SuffixTable} (hb : SuffixTable.build sip ps = .ok t)
    (hu : ∀ p ∈ ps, Utf8Lits p) (hcol : NoCollision sip ps) {x : Bytes} (hx : Utf8 x) {r : Option MatchResult} (hr : t.parse x = .ok r) :
    SuffixAnswer ps x r := by
  have h := reach_of_build hb
  obtain ⟨hpar, hmem⟩ := sbuild_parsers hb hcol
  have hus := reach_utf8 h hu
  refine ⟨?_, ?_⟩
  · intro hno
    have he : t.literalEntries = [] := by
      cases hl : t.literalEntries with
      | nil => rfl
      | cons e es => exact absurd ((reach_has h e.literal).mp ⟨e, by rw [hl]; simp, rfl⟩) (hno _)
    rw [sparse_nolit (lcp_nil he x)] at hr
    exact sparRel_first hpar (fun p hp => hu p (hmem p hp)) hx hr
  · intro l hch
    obtain ⟨e, he, h1, h2⟩ := lcp_chosen h hu hx ⟨l, hch.1⟩
    obtain rfl := chosen_unique hch h2
    rw [sparse_lit hx (hus e he) h1] at hr
    have hent := (reach_entry h).mp he
    unfold entryFor at hent
    rw [if_pos (show ∃ p, p ∈ ps ∧ p.pattern.head? = some (.literal e.literal) from hch.1)] at hent
    simp at hent
    have hpat : e.pattern = (wholeFor ps e.literal).map Pattern.strip := by conv => lhs; rw [← hent]
    have hchild : e.child = (moreFor ps e.literal).map fun p => ssingle p.pattern.tail p.strip := by conv => lhs; rw [← hent]
    refine ⟨?_, ?_⟩
    · intro hpre
      rw [if_pos ((cpl_eq_length_right (hus e he) hx).mpr hpre)] at hr
      simp at hr
      refine ⟨?_, ?_⟩
      · intro p hp
        rw [lastWhole_iff] at hp
        rw [← hr, hpat, hp]; rfl
      · intro hno
        cases hw : wholeFor ps e.literal with
        | none => rw [← hr, hpat, hw]; rfl
        | some p => exact absurd (wholeFor_some hw).2 (hno p (wholeFor_some hw).1)
    · intro hpre
      have hk : commonPrefixLen e.literal x ≠ x.length := fun hk => hpre ((cpl_eq_length_right (hus e he) hx).mp hk)
      rw [if_neg hk] at hr
      refine ⟨?_, ?_⟩
      · intro p hp
        rw [lastMore_iff] at hp
        rw [hp] at hchild
        simp at hchild
        rw [hchild] at hr
        obtain ⟨hm, rest, hrest, e1⟩ := moreFor_some hp
        have htail : p.pattern.tail = rest := by rw [e1]; rfl
        rw [htail] at hr
        refine firstLoose_one ?_
        rw [e1]
        exact litE_child_answers (hus e he) hrest hx hk (ssingle_answers hrest (fun l hl => hu p hm l (by rw [e1]; simp [hl]))
            (boundary_split hx (cpl_boundary_right (hus e he) hx)).2 hr)
      · intro hno
        cases hw : moreFor ps e.literal with
        | none => rw [hw] at hchild; simp at hchild; rw [hchild] at hr; simp at hr; exact hr.symm
        | some p =>
          obtain ⟨hm, rest, hrest, e1⟩ := moreFor_some hw
          exact absurd e1 (hno p hm rest hrest)

end Verif
