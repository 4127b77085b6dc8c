import Verif.Proofs.TrieStops
/-! The trie implements the flat table of `Spec/Table.lean`. -/
namespace Verif
open Spec

/-! ### rows -/

/-- The parsers that continue after the text of a row. -/
def morePs (r : Row) : List ParserNode :=
  match r.more with
  | none => []
  | some p => (single p.pattern.tail p.strip).parserChildren

/-- What is stored in a row: a text that is not empty, and a pattern that continues with a parser. -/
def RowOk (r : Row) : Prop :=
  r.text ≠ [] ∧ ∀ p, r.more = some p → Utf8Lits p ∧ NonemptyLits p ∧ ∃ a rest, p.pattern = .literal r.text :: .parser a :: rest

theorem morePs_nil {r : Row} (h : RowOk r) : morePs r = [] ↔ r.more = none := by
  unfold morePs
  cases hm : r.more with
  | none => simp
  | some p =>
    obtain ⟨_, _, a, rest, hp⟩ := h.2 p hm
    simp [hp, single]

structure RowsRel (rows : List Row) (t : SuffixTree) : Prop where
  entries : ∀ x w ps, EntryAt t x w ps ↔ ∃ r ∈ rows, r.text = x ∧ w = r.whole.map Pattern.strip ∧ ps = morePs r
  uniq : ∀ r ∈ rows, ∀ s ∈ rows, r.text = s.text → r = s
  ok : ∀ r ∈ rows, RowOk r

theorem rowOf_text (rows : List Row) (l : Bytes) : (rowOf rows l).text = l := by
  unfold rowOf
  cases h : rows.find? fun r => decide (r.text = l) with
  | none => rfl
  | some r => simpa using List.find?_some h

theorem rowOf_cases (rows : List Row) (l : Bytes) :
    rowOf rows l ∈ rows ∨ (rowOf rows l = ⟨l, none, none⟩ ∧ ∀ r ∈ rows, r.text ≠ l) := by
  unfold rowOf
  cases h : rows.find? fun r => decide (r.text = l) with
  | none => right; refine ⟨rfl, ?_⟩; rw [List.find?_eq_none] at h; simpa using h
  | some r => exact .inl (List.mem_of_find?_eq_some h)

section
variable {rows : List Row} {t : SuffixTree} (h : RowsRel rows t)
include h

theorem rowsRel_rowOk {l : Bytes} (hl : l ≠ []) : RowOk (rowOf rows l) := by
  rcases rowOf_cases rows l with h1 | ⟨h1, _⟩
  · exact h.ok _ h1
  · rw [h1]; exact ⟨hl, by simp⟩

theorem rowsRel_entry (l : Bytes) (w : Option Pattern) (ps : List ParserNode) :
    EntryAt t l w ps ↔ rowOf rows l ∈ rows ∧ w = (rowOf rows l).whole.map Pattern.strip ∧ ps = morePs (rowOf rows l) := by
  rw [h.entries]
  constructor
  · rintro ⟨r, hr, rfl, rfl, rfl⟩
    have : rowOf rows r.text = r := by
      rcases rowOf_cases rows r.text with h1 | ⟨_, h1⟩
      · exact h.uniq _ h1 _ hr (rowOf_text _ _)
      · exact absurd rfl (h1 r hr)
    rw [this]; exact ⟨hr, rfl, rfl⟩
  · rintro ⟨h1, rfl, rfl⟩
    exact ⟨_, h1, rowOf_text _ _, rfl, rfl⟩

theorem rowsRel_oldPs (l : Bytes) (ps : List ParserNode) : OldPs (EntryAt t) l ps ↔ ps = morePs (rowOf rows l) := by
  unfold OldPs
  simp only [rowsRel_entry h]
  rcases rowOf_cases rows l with h1 | ⟨h1, h2⟩
  · constructor
    · rintro (⟨w, _, _, h3⟩ | ⟨_, h3⟩)
      · exact h3
      · exact absurd ⟨_, _, h1, rfl, rfl⟩ h3
    · intro h3; exact .inl ⟨_, h1, rfl, h3⟩
  · have : rowOf rows l ∉ rows := fun h3 => h2 _ h3 (rowOf_text _ _)
    simp [this]
    rw [h1]; rfl

theorem rowsRel_oldW (l : Bytes) (w : Option Pattern) : OldW (EntryAt t) l w ↔ w = (rowOf rows l).whole.map Pattern.strip := by
  unfold OldW
  simp only [rowsRel_entry h]
  rcases rowOf_cases rows l with h1 | ⟨h1, h2⟩
  · constructor
    · rintro (⟨w, _, h3, _⟩ | ⟨_, h3⟩)
      · exact h3
      · exact absurd ⟨_, _, h1, rfl, rfl⟩ h3
    · intro h3; exact .inl ⟨_, h1, h3, rfl⟩
  · have : rowOf rows l ∉ rows := fun h3 => h2 _ h3 (rowOf_text _ _)
    simp [this]
    rw [h1]; simp

theorem rowsRel_lost {l : Bytes} (hl : l ≠ []) : Lost (EntryAt t) l ↔ (rowOf rows l).more = none ∧ Extended rows l := by
  unfold Lost Extended
  rw [← morePs_nil (rowsRel_rowOk h hl)]
  refine and_congr ?_ ?_
  · simp only [rowsRel_entry h]
    rcases rowOf_cases rows l with h1 | ⟨h1, h2⟩
    · constructor
      · intro h3; exact h3 _ _ ⟨h1, rfl, rfl⟩
      · rintro h3 w ps ⟨_, _, rfl⟩; exact h3
    · have : rowOf rows l ∉ rows := fun h3 => h2 _ h3 (rowOf_text _ _)
      constructor
      · intro _; rw [h1]; rfl
      · rintro _ w ps ⟨h3, _⟩; exact absurd h3 this
  · constructor
    · rintro ⟨x, w, ps, he, h1, h2⟩
      obtain ⟨r, hr, rfl, _⟩ := (h.entries _ _ _).mp he
      exact ⟨r, hr, h1, h2⟩
    · rintro ⟨r, hr, h1, h2⟩
      exact ⟨_, _, _, (h.entries _ _ _).mpr ⟨r, hr, rfl, rfl, rfl⟩, h1, h2⟩

end

/-- Adding a pattern with a leading literal, on both sides. -/
theorem rowsRel_add {rows : List Row} {t t' : SuffixTree} {l : Bytes} {rest : List Token} {p : Pattern} (h : RowsRel rows t)
    (hp : p.pattern = .literal l :: rest) (hu : Utf8Lits p) (hne : NonemptyLits p) (hpn : ParserNext rest)
    (he : Effect rest p.strip l (EntryAt t) (EntryAt t')) : RowsRel (addLiteralLed rows l rest.isEmpty p) t' := by
  have hl : l ≠ [] := hne l (by rw [hp]; simp)
  have hok := rowsRel_rowOk h hl
  have ht := rowOf_text rows l
  -- a row put in place of the rows removed by a filter
  have build : ∀ (r0 : Row) (f : Row → Bool), r0.text = l → RowOk r0 → (∀ r ∈ rows, f r = true → r.text ≠ l) →
      (∀ x w ps, EntryAt t' x w ps ↔ (x = l ∧ w = r0.whole.map Pattern.strip ∧ ps = morePs r0) ∨
        ∃ r ∈ rows, f r = true ∧ r.text = x ∧ w = r.whole.map Pattern.strip ∧ ps = morePs r) → RowsRel (r0 :: rows.filter f) t' := by
    intro r0 f h1 h2 h3 h4
    refine ⟨?_, ?_, ?_⟩
    · intro x w ps
      rw [h4]
      simp only [List.mem_cons, List.mem_filter]
      constructor
      · rintro (⟨rfl, rfl, rfl⟩ | ⟨r, hr, hf, h5⟩)
        · exact ⟨r0, .inl rfl, h1, rfl, rfl⟩
        · exact ⟨r, .inr ⟨hr, hf⟩, h5⟩
      · rintro ⟨r, rfl | ⟨hr, hf⟩, h5, h6⟩
        · exact .inl ⟨by rw [← h5, h1], h6⟩
        · exact .inr ⟨r, hr, hf, h5, h6⟩
    · intro r hr s hs hrs
      simp only [List.mem_cons, List.mem_filter] at hr hs
      rcases hr with rfl | ⟨hr, hf⟩
      · rcases hs with rfl | ⟨hs, hf⟩
        · rfl
        · exact absurd (hrs.symm.trans h1) (h3 s hs hf)
      · rcases hs with rfl | ⟨hs, hf'⟩
        · exact absurd (hrs.trans h1) (h3 r hr hf)
        · exact h.uniq r hr s hs hrs
    · intro r hr
      simp only [List.mem_cons, List.mem_filter] at hr
      rcases hr with rfl | ⟨hr, _⟩
      · exact h2
      · exact h.ok r hr
  unfold addLiteralLed
  cases rest with
  | nil =>
    simp only [List.isEmpty_nil, if_true]
    refine build { rowOf rows l with whole := some p } _ ht ⟨by rw [← ht] at hl; exact hl, hok.2⟩ (by simp) ?_
    intro x w ps
    rw [he.whole rfl, rowsRel_oldPs h, h.entries]
    refine or_congr Iff.rfl ?_
    constructor
    · rintro ⟨h1, r, hr, rfl, h3⟩; exact ⟨r, hr, by simpa using h1, rfl, h3⟩
    · rintro ⟨r, hr, h1, rfl, h3⟩; exact ⟨by simpa using h1, r, hr, rfl, h3⟩
  | cons tok rest =>
    simp only [List.isEmpty_cons, Bool.false_eq_true, if_false]
    split
    · rename_i hlost
      have hlost' := (rowsRel_lost h hl).mpr hlost
      refine build (rowOf rows l) _ ht hok (by simp) ?_
      intro x w ps
      rw [he.lost (by simp) hlost', rowsRel_oldW h, h.entries, (morePs_nil hok).mpr hlost.1]
      refine or_congr ?_ ?_
      · rw [and_comm (a := ps = [])]
      · constructor
        · rintro ⟨h1, r, hr, rfl, h3⟩; exact ⟨r, hr, by simpa using h1, rfl, h3⟩
        · rintro ⟨r, hr, h1, rfl, h3⟩; exact ⟨by simpa using h1, r, hr, rfl, h3⟩
    · rename_i hlost
      have hlost' : ¬ Lost (EntryAt t) l := fun h1 => hlost ((rowsRel_lost h hl).mp h1)
      have hm : morePs { rowOf rows l with more := some p } = (single (tok :: rest) p.strip).parserChildren := by
        simp [morePs, hp]
      refine build { rowOf rows l with more := some p } _ ht ⟨by rw [← ht] at hl; exact hl, ?_⟩ ?_ ?_
      · intro p' hp'
        simp at hp'; subst hp'
        refine ⟨hu, hne, ?_⟩
        rcases hpn with h1 | ⟨a, rest', h1⟩
        · simp at h1
        · exact ⟨a, rest', by rw [hp, h1, ht]⟩
      · intro r _ h1 h2
        rw [h2] at h1
        simp at h1
      · intro x w ps
        rw [he.more (by simp) hlost', rowsRel_oldW h, h.entries, hm]
        refine or_congr ?_ ?_
        · rw [and_comm (a := ps = _)]
        · constructor
          · rintro ⟨h1, r, hr, rfl, h3⟩; exact ⟨r, hr, by simpa using h1, rfl, h3⟩
          · rintro ⟨r, hr, h1, rfl, h3⟩; exact ⟨by simpa using h1, r, hr, rfl, h3⟩

/-! ### patterns that begin with a parser -/

/-- The parser node that stands for a pattern. -/
def Stands (n : ParserNode) (p : Pattern) : Prop :=
  ∃ rest, p.pattern = .parser n.parser :: rest ∧
    (rest = [] → n.pattern = some p.strip) ∧ n.node = restNode rest p.strip

inductive ParRel : List ParserNode → List Pattern → Prop
  | nil : ParRel [] []
  | cons (n : ParserNode) (p : Pattern) (ns : List ParserNode) (ps : List Pattern) : Stands n p → ParRel ns ps → ParRel (n :: ns) (p :: ps)

theorem parRel_add {sip : Bytes → UInt64} {ns : List ParserNode} {ps : List Pattern} {a : Parser} {rest : List Token} {p : Pattern}
    (h : ParRel ns ps) (hp : p.pattern = .parser a :: rest)
    (hcol : ∀ q ∈ ps, ∀ b rest', q.pattern = .parser b :: rest' → b.hashOs sip = a.hashOs sip → b = a) :
    ParRel (insPar sip ns a rest p.strip) (addParserLed a p ps) := by
  induction h with
  | nil =>
    refine .cons _ _ _ _ ⟨rest, ?_, ?_, ?_⟩ .nil
    · rw [(updPar_new _ _ _).1, hp]
    · intro h; rw [(updPar_new _ _ _).2.1]; simp [restPat, h]
    · exact (updPar_new _ _ _).2.2
  | cons n q ns ps hst hrel ih =>
    obtain ⟨r, hq, h1, h2⟩ := hst
    unfold insPar addParserLed
    by_cases hh : n.parser.hashOs sip = a.hashOs sip
    · have ha := hcol q (by simp) _ _ hq hh
      rw [if_pos (by simpa using hh), if_pos (by rw [hq]; simp [ha])]
      refine .cons _ _ _ _ ?_ hrel
      cases rest with
      | nil =>
        have hu : updPar [] p.strip n = { n with pattern := some p.strip } := rfl
        rw [hu]
        by_cases hr : r = []
        · rw [if_neg (by rw [hq, hr, ha]; simp)]
          exact ⟨[], by rw [hp, ← ha], fun _ => rfl, by rw [h2, hr]; rfl⟩
        · rw [if_pos ⟨hp, by rw [hq]; simpa using fun _ => hr⟩]
          exact ⟨r, hq, fun h => absurd h hr, h2⟩
      | cons tok rest =>
        have hu : updPar (tok :: rest) p.strip n = { n with node := some (single (tok :: rest) p.strip) } := rfl
        rw [hu, if_neg (by rw [hp]; simp)]
        exact ⟨tok :: rest, by rw [hp, ← ha], by simp, rfl⟩
    · rw [if_neg (by simpa using hh), if_neg (by rw [hq]; simp; rintro rfl; exact hh rfl)]
      exact .cons _ _ _ _ ⟨r, hq, h1, h2⟩ (ih fun q' hq' => hcol q' (by simp [hq']))

theorem addParserLed_mem {a : Parser} {p q : Pattern} {ps : List Pattern} (h : q ∈ addParserLed a p ps) : q ∈ ps ∨ q = p := by
  induction ps with
  | nil => simp [addParserLed] at h; exact .inr h
  | cons s ps ih =>
    unfold addParserLed at h
    split at h
    · simp at h
      rcases h with h | h
      · split at h
        · exact .inl (by simp [h])
        · exact .inr h
      · exact .inl (by simp [h])
    · simp at h
      rcases h with h | h
      · exact .inl (by simp [h])
      · rcases ih h with h | h
        · exact .inl (by simp [h])
        · exact .inr h

theorem answers_first {p : Pattern} {x : Bytes} {r : Option MatchResult} (h : Answers p.pattern p.strip x r) : FirstAnswer [p] x r := by
  refine ⟨?_, fun hno => h.2 (hno p (by simp))⟩
  intro A p' B caps he _ hm
  cases A with
  | nil =>
    simp at he
    obtain ⟨rfl, rfl⟩ := he
    obtain ⟨res, h1, h2, h3⟩ := h.1 caps hm
    exact ⟨res, h1, h2, h3⟩
  | cons a A => simp at he

/-- The answer of a parser node that stands for a pattern. -/
theorem stands_answers {n : ParserNode} {p : Pattern} (h : Stands n p) (hu : Utf8Lits p) (hne : NonemptyLits p) {x : Bytes} (hx : Utf8 x)
    {r : Option MatchResult} (hr : n.parse x = .ok r) : Answers p.pattern p.strip x r := by
  obtain ⟨rest, hp, h1, h2⟩ := h
  have ih : rest ≠ [] → ∀ y, Utf8 y → ∀ r, (single rest p.strip).parse y = .ok r → Answers rest p.strip y r := by
    intro h0 y hy r hr
    refine single_answers h0 ?_ ?_ hy hr
    · intro l hl; exact hu l (by rw [hp]; simp [hl])
    · intro l hl; exact hne l (by rw [hp]; simp [hl])
  rw [hp]
  cases rest with
  | nil => exact parserNode_answers ⟨rfl, by rw [h1 rfl]; rfl, h2⟩ hx ih hr
  | cons tok rest =>
    have hn : n.node = some (single (tok :: rest) p.strip) := h2
    have e : ({ n with pattern := none } : ParserNode).parse x = .ok r := by
      rw [← hr]
      obtain ⟨a, q, d⟩ := n
      simp only at hn
      subst hn
      rw [ParserNode.parse, ParserNode.parse]
    exact parserNode_answers (m := { n with pattern := none }) ⟨rfl, rfl, h2⟩ hx ih e

theorem parRel_first {ns : List ParserNode} {ps : List Pattern} (h : ParRel ns ps) (hu : ∀ p ∈ ps, Utf8Lits p)
    (hne : ∀ p ∈ ps, NonemptyLits p) {x : Bytes} (hx : Utf8 x) {r : Option MatchResult} (hr : parseWithParsers ns x = .ok r) :
    FirstAnswer ps x r := by
  induction h with
  | nil =>
    rw [parseWithParsers] at hr
    simp at hr
    refine ⟨?_, fun _ => hr.symm⟩
    intro A p B caps he; simp at he
  | cons n p ns ps hst hrel ih =>
    rw [parseWithParsers] at hr
    have ans : ∀ r, n.parse x = .ok r → Answers p.pattern p.strip x r :=
      fun r hr => stands_answers hst (hu p (by simp)) (hne p (by simp)) hx hr
    split at hr
    · simp at hr
    · rename_i res hres
      simp at hr; subst hr
      have hans := ans _ hres
      refine ⟨?_, fun hno => hans.2 (hno p (by simp))⟩
      intro A p' B caps he hA hm
      cases A with
      | nil =>
        simp at he
        obtain ⟨rfl, rfl⟩ := he
        obtain ⟨res', e, e1, e2⟩ := hans.1 caps hm
        exact ⟨res', e, e1, e2⟩
      | cons a' A =>
        simp at he
        obtain ⟨rfl, rfl⟩ := he
        have := hans.2 (hA p (by simp))
        simp at this
    · rename_i hres
      have hans := ans _ hres
      have hno : ¬∃ caps, MatchesStrict p.pattern x caps := by
        rintro ⟨caps, hm⟩
        obtain ⟨res', e, _⟩ := hans.1 caps hm
        simp at e
      have ih := ih (fun p hp => hu p (by simp [hp])) (fun p hp => hne p (by simp [hp])) hr
      refine ⟨?_, fun hall => ih.2 fun p hp => hall p (by simp [hp])⟩
      intro A p' B caps he hA hm
      cases A with
      | nil =>
        simp at he
        obtain ⟨rfl, rfl⟩ := he
        exact absurd ⟨caps, hm⟩ hno
      | cons a' A =>
        simp at he
        obtain ⟨rfl, rfl⟩ := he
        exact ih.1 A p' B caps rfl (fun a ha => hA a (by simp [ha])) hm

/-! ### the table -/

structure TableRel (T : Table) (t : SuffixTree) : Prop where
  shape : TShape t
  root : ∀ n ∈ t.literalChildren, n.literal ≠ []
  rows : RowsRel T.rows t
  pars : ParRel t.parserChildren T.parserLed

theorem parserNext_of {p : Pattern} (h : SplitLiterals p) {l : Bytes} {rest : List Token} (hp : p.pattern = .literal l :: rest) : ParserNext rest := by
  cases rest with
  | nil => exact .inl rfl
  | cons tok rest =>
    cases tok with
    | literal l' => exact absurd rfl (h l _ hp l')
    | parser a => exact .inr ⟨a, rest, rfl⟩

theorem entryAt_parsers (t : SuffixTree) (ns : List ParserNode) (x : Bytes) (w : Option Pattern) (ps : List ParserNode) :
    EntryAt { t with parserChildren := ns } x w ps ↔ EntryAt t x w ps := by
  rw [entryAt_iff, entryAt_iff]

/-- The trie of a history implements the table of the history. -/
theorem build_table {sip : Bytes → UInt64} {ps : List Pattern} {t : SuffixTree} (hu : ∀ p ∈ ps, Utf8Lits p)
    (hne : ∀ p ∈ ps, NonemptyLits p) (hsl : ∀ p ∈ ps, SplitLiterals p) (hcol : NoCollision sip ps)
    (hb : SuffixTree.build sip ps = .ok t) : Inv Utf8 t ∧ TableRel (Table.of ps) t ∧ ∀ p ∈ (Table.of ps).parserLed, p ∈ ps := by
  have key := build_induct (sip := sip) (fun ps t => (∀ p ∈ ps, Utf8Lits p) → (∀ p ∈ ps, NonemptyLits p) → (∀ p ∈ ps, SplitLiterals p) →
      NoCollision sip ps → TableRel (Table.of ps) t ∧ ∀ p ∈ (Table.of ps).parserLed, p ∈ ps)
    (fun _ _ _ _ => by
      refine ⟨⟨tshape_new, by simp [SuffixTree.new], ⟨?_, by simp [Table.of], by simp [Table.of]⟩, .nil⟩, by simp [Table.of]⟩
      intro x w ps
      rw [entryAt_iff]
      simp [SuffixTree.new, Table.of])
    (fun ps t p t' hs hi hl ih hu hne hsl hcol => by
      obtain ⟨h1, h2⟩ := ih (fun p hp => hu p (by simp [hp])) (fun p hp => hne p (by simp [hp])) (fun p hp => hsl p (by simp [hp]))
        (fun a b ha hb => hcol a b (by obtain ⟨p, hp, h⟩ := ha; exact ⟨p, by simp [hp], h⟩)
          (by obtain ⟨p, hp, h⟩ := hb; exact ⟨p, by simp [hp], h⟩))
      have hof : Table.of (ps ++ [p]) = (Table.of ps).add p := by simp [Table.of]
      rw [hof]
      cases hs with
      | empty he =>
        have : (Table.of ps).add p = Table.of ps := by unfold Table.add; rw [he]
        rw [this]
        exact ⟨h1, fun q hq => by simp [h2 q hq]⟩
      | lit l rest he t' h =>
        have hadd : (Table.of ps).add p = { Table.of ps with rows := addLiteralLed (Table.of ps).rows l rest.isEmpty p } := by
          unfold Table.add; rw [he]
        rw [hadd]
        have hpn := parserNext_of (hsl p (by simp)) he
        have hl0 : l ≠ [] := hne p (by simp) l (by rw [he]; simp)
        obtain ⟨s1, s2, s3, s4⟩ := ins_shape hpn h hi h1.shape
        refine ⟨⟨s1, ?_, ?_, by rw [s2]; exact h1.pars⟩, fun q hq => by simp [h2 q hq]⟩
        · intro n hn h0
          rcases s4 n hn h0 with h3 | ⟨m, hm, h3⟩
          · exact hl0 h3
          · exact h1.root m hm h3
        · exact rowsRel_add h1.rows he (hu p (by simp)) (hne p (by simp)) hpn
            (ins_effect hpn h hi h1.shape (fun h0 => absurd h0 hl0))
      | par a rest he =>
        have hadd : (Table.of ps).add p = { Table.of ps with parserLed := addParserLed a p (Table.of ps).parserLed } := by
          unfold Table.add; rw [he]
        rw [hadd]
        refine ⟨⟨?_, h1.root, ⟨?_, h1.rows.uniq, h1.rows.ok⟩, ?_⟩, ?_⟩
        · exact .mk _ h1.shape.inner h1.shape.entry h1.shape.child
        · intro x w ps
          rw [entryAt_parsers]
          exact h1.rows.entries x w ps
        · refine parRel_add h1.pars he ?_
          intro q hq b rest' hb hh
          exact hcol b a ⟨q, by simp [h2 q hq], by rw [hb]; rfl⟩ ⟨p, by simp, by rw [he]; rfl⟩ hh
        · intro q hq
          rcases addParserLed_mem hq with hq | rfl
          · simp [h2 q hq]
          · simp)
    hu hb
  exact ⟨key.1, key.2 hu hne hsl hcol⟩

theorem prefix_utf8 {a y : Bytes} (ha : Utf8 a) (h : Utf8 (a ++ y)) : Utf8 y := utf8_cancel ha h

theorem strict_lit {l y : Bytes} {rest : List Token} {caps} (hr : rest ≠ []) :
    MatchesStrict (.literal l :: rest) (l ++ y) caps ↔ y ≠ [] ∧ MatchesStrict rest y caps := by
  constructor
  · intro h
    obtain ⟨y', he, h1, h2⟩ := strict_lit_inv h
    have := List.append_cancel_left he
    subst this
    exact ⟨h1 hr, h2⟩
  · rintro ⟨h1, h2⟩
    exact .literal _ _ _ _ (fun _ => h1) h2

/-- A trie that implements a table gives the table's answers. -/
theorem table_answer {T : Table} {t : SuffixTree} (hi : Inv Utf8 t) (h : TableRel T t) (hu : ∀ p ∈ T.parserLed, Utf8Lits p)
    (hne : ∀ p ∈ T.parserLed, NonemptyLits p) {x : Bytes} (hx : Utf8 x) {r : Option MatchResult} (hr : t.parse x = .ok r) :
    T.Answer x r := by
  have hp := parse_partial hi hx hr
  have hw := walk_spec hi x
  refine ⟨?_, ?_⟩
  · intro row hrow hrx
    have he := (h.rows.entries x _ _).mpr ⟨row, hrow, hrx, rfl, rfl⟩
    obtain ⟨n, h1, h2, _⟩ := walk_entry he hi h.shape
    rw [h1] at hp
    simp only at hp
    rw [hp, ← h2, Option.map_map]
    rfl
  · intro hno
    cases hwx : walk t x with
    | found n =>
      rw [hwx] at hw
      obtain ⟨row, h1, h2, _⟩ := (h.rows.entries _ _ _).mp hw
      exact absurd h2 (hno row h1)
    | stuck c y =>
      rw [hwx] at hw hp
      simp only at hp hw
      obtain ⟨pre, rfl, htree, hmax⟩ := hw
      have hut := walk_stuck labelPred_utf8 hi hx hwx
      refine ⟨pre, ⟨?_, List.prefix_append _ _, ?_⟩, ?_, ?_, ?_⟩
      · by_cases hpre : pre = []
        · exact .inl hpre
        · rcases treeAt_stop htree hi h.shape hpre with ⟨h1, w, h2⟩ | ⟨_, _, x1, w1, p1, x2, w2, p2, n1, n2, hxx, hcs⟩
          · obtain ⟨row, hrow, h3, _, h4⟩ := (h.rows.entries _ _ _).mp h2
            refine .inr (.inl ⟨row, hrow, h3, ?_⟩)
            intro h5
            rw [h4] at h1
            exact h1 ((morePs_nil (h.rows.ok row hrow)).mpr h5)
          · obtain ⟨r1, hr1, rfl, _⟩ := (h.rows.entries _ _ _).mp n1
            obtain ⟨r2, hr2, rfl, _⟩ := (h.rows.entries _ _ _).mp n2
            exact .inr (.inr ⟨r1, hr1, r2, hr2, hxx, hcs⟩)
      · intro b' hstop hpb
        rcases hstop with rfl | ⟨row, hrow, rfl, hm⟩ | ⟨r1, hr1, r2, hr2, hne, hcs⟩
        · simp
        · have he := (h.rows.entries row.text _ _).mpr ⟨row, hrow, rfl, rfl, rfl⟩
          obtain ⟨c', hc'⟩ := entry_treeAt he (fun h0 => hm ((morePs_nil (h.rows.ok row hrow)).mp h0))
          exact hmax _ _ hc' hpb
        · have he1 := (h.rows.entries r1.text _ _).mpr ⟨r1, hr1, rfl, rfl, rfl⟩
          have he2 := (h.rows.entries r2.text _ _).mpr ⟨r2, hr2, rfl, rfl, rfl⟩
          obtain ⟨c', hc'⟩ := parting_treeAt hi he1 he2 hne hcs
          exact hmax _ _ hc' hpb
      · rintro rfl
        have := treeAt_nil htree
        subst this
        exact parRel_first h.pars hu hne hx hp
      · intro hpre row hrow hrt p hm
        obtain ⟨hpu, hpne, a, rest, hpp⟩ := (h.rows.ok row hrow).2 p hm
        have he := (h.rows.entries pre _ _).mpr ⟨row, hrow, hrt, rfl, rfl⟩
        have hmp : morePs row = (single (.parser a :: rest) p.strip).parserChildren := by simp [morePs, hm, hpp]
        have hc : c.parserChildren = morePs row := by
          rcases treeAt_stop htree hi h.shape hpre with ⟨h1, w, h2⟩ | ⟨_, h2, _⟩
          · exact (entry_unique hi h.shape h2 he).2
          · have := h2 _ _ he
            rw [hmp] at this
            simp [single] at this
        rw [hc, hmp] at hp
        simp only [single] at hp
        have hp := parseWithParsers_single hp
        have hst : Stands ⟨a, if rest.isEmpty then some p.strip else none, if rest.isEmpty then none else some (single rest p.strip)⟩
            { p with pattern := .parser a :: rest } := by
          refine ⟨rest, rfl, ?_, rfl⟩
          intro h0; simp [h0]; rfl
        have hans := stands_answers hst (p := { p with pattern := .parser a :: rest })
          (fun l hl => hpu l (by rw [hpp]; simp at hl; simp [hl])) (fun l hl => hpne l (by rw [hpp]; simp at hl; simp [hl])) hut.2.1 hp
        have hy : y ≠ [] := by
          rintro rfl
          exact hno row hrow (by simpa using hrt)
        apply answers_first
        rw [hpp, hrt]
        refine ⟨?_, ?_⟩
        · intro caps hm
          exact hans.1 caps ((strict_lit (by simp)).mp hm).2
        · intro hno
          apply hans.2
          rintro ⟨caps, hc⟩
          exact hno ⟨caps, (strict_lit (by simp)).mpr ⟨hy, hc⟩⟩
      · intro hpre hnone
        rcases treeAt_stop htree hi h.shape hpre with ⟨h1, w, h2⟩ | ⟨h1, _⟩
        · obtain ⟨row, hrow, h3, _, h4⟩ := (h.rows.entries _ _ _).mp h2
          rw [h4, (morePs_nil (h.rows.ok row hrow)).mpr (hnone row hrow h3)] at h1
          exact absurd rfl h1
        · rw [h1, parseWithParsers] at hp
          simpa using hp.symm

end Verif
