import Verif.Spec.Relabel
import Verif.Props.C66_Panics
import Verif.Props.C96_AddPanics
import Verif.Props.C98_SuffixChange
import Verif.Props.C79_Change
import Verif.Props.C100_SuffixOrder
/-! Replacing the parsers of patterns by parsers that match the same pieces of text. -/
namespace Verif
open Spec

/-- the replacement matches what the parser matches -/
def SameMatches (φ : Parser → Parser) : Prop := ∀ a x v, ParserMatch (φ a) x v ↔ ParserMatch a x v

/-- `g` replaces the parsers of patterns as `φ` says -/
structure Rewrites (φ : Parser → Parser) (g : Pattern → Pattern) : Prop where
  tokens : ∀ p, (g p).pattern = p.pattern.map (replaceToken φ)

/-- and the replacements match the same -/
structure Replaces (φ : Parser → Parser) (g : Pattern → Pattern) : Prop extends Rewrites φ g where
  alike : SameMatches φ

variable {φ : Parser → Parser} {g : Pattern → Pattern}

theorem replace_head (toks : List Token) (a : Parser) (h : toks.head? = some (.parser a)) :
    (toks.map (replaceToken φ)).head? = some (.parser (φ a)) := by
  rw [List.head?_map, h]; rfl

theorem replace_head_literal (toks : List Token) (l : Bytes) : (toks.map (replaceToken φ)).head? = some (.literal l) ↔ toks.head? = some (.literal l) := by
  rw [List.head?_map]
  cases toks with
  | nil => simp
  | cons t ts => cases t <;> simp [replaceToken]

/-- The captures with other names. -/
def replaceCaps (φ : Parser → Parser) (caps : List (Parser × Bytes)) : List (Parser × Bytes) := caps.map fun c => (φ c.1, c.2)

theorem replace_strict (hφ : SameMatches φ) {toks : List Token} {x : Bytes} {caps : List (Parser × Bytes)} (h : MatchesStrict toks x caps) :
    MatchesStrict (toks.map (replaceToken φ)) x (replaceCaps φ caps) := by
  induction h with
  | nil => exact .nil
  | literal l toks x caps h1 _ ih => exact .literal l _ x _ (by simpa using h1) ih
  | parser a toks v x caps h1 _ ih => exact .parser _ _ v x _ ((hφ a _ _).mpr h1) ih

theorem replace_strict_inv (hφ : SameMatches φ) {toks : List Token} {x : Bytes} {caps : List (Parser × Bytes)} (h : MatchesStrict (toks.map (replaceToken φ)) x caps) :
    ∃ caps0, MatchesStrict toks x caps0 ∧ caps = replaceCaps φ caps0 := by
  induction toks generalizing x caps with
  | nil => cases h; exact ⟨[], .nil, rfl⟩
  | cons t ts ih =>
    cases t with
    | literal l =>
      simp only [List.map_cons, replaceToken] at h
      cases h with
      | literal _ _ y _ h1 h2 =>
        obtain ⟨c, h3, rfl⟩ := ih h2
        exact ⟨c, .literal l ts y c (by simpa using h1) h3, rfl⟩
    | parser a =>
      simp only [List.map_cons, replaceToken] at h
      cases h with
      | parser _ _ v y _ h1 h2 =>
        obtain ⟨c, h3, rfl⟩ := ih h2
        exact ⟨(a, v) :: c, .parser a ts v y c ((hφ a _ _).mp h1) h3, rfl⟩

theorem replace_loose (hφ : SameMatches φ) {toks : List Token} {x : Bytes} {caps : List (Parser × Bytes)} (h : LooseMatches toks x caps) :
    LooseMatches (toks.map (replaceToken φ)) x (replaceCaps φ caps) := by
  induction h with
  | nil => exact .nil
  | last l x h => exact .last l x h
  | literal l c y toks caps h1 h2 h3 _ ih => exact .literal l c y _ _ (by simpa using h1) h2 h3 ih
  | parser a toks v x caps h1 _ ih => exact .parser _ _ v x _ ((hφ a _ _).mpr h1) ih

theorem replace_loose_inv (hφ : SameMatches φ) {toks : List Token} {x : Bytes} {caps : List (Parser × Bytes)} (h : LooseMatches (toks.map (replaceToken φ)) x caps) :
    ∃ caps0, LooseMatches toks x caps0 ∧ caps = replaceCaps φ caps0 := by
  induction toks generalizing x caps with
  | nil => cases h; exact ⟨[], .nil, rfl⟩
  | cons t ts ih =>
    cases t with
    | literal l =>
      simp only [List.map_cons, replaceToken] at h
      generalize hm : ts.map (replaceToken φ) = ts' at h
      cases h with
      | last _ _ h1 =>
        simp at hm; subst hm
        exact ⟨[], .last l x h1, rfl⟩
      | literal _ c y _ _ h0 h1 h2 h3 =>
        subst hm
        obtain ⟨c', h4, rfl⟩ := ih h3
        exact ⟨c', .literal l c y ts c' (by simpa using h0) h1 h2 h4, rfl⟩
    | parser a =>
      simp only [List.map_cons, replaceToken] at h
      cases h with
      | parser _ _ v y _ h1 h2 =>
        obtain ⟨c, h3, rfl⟩ := ih h2
        exact ⟨(a, v) :: c, .parser a ts v y c ((hφ a _ _).mp h1) h3, rfl⟩

theorem replace_runsInto (hφ : SameMatches φ) {toks : List Token} {x : Bytes} : RunsInto (toks.map (replaceToken φ)) x ↔ RunsInto toks x := by
  constructor
  · intro h
    induction toks generalizing x with
    | nil => cases h
    | cons t ts ih =>
      cases t with
      | literal l =>
        simp only [List.map_cons, replaceToken] at h
        cases h with
        | here _ _ _ h1 h2 => exact .here l ts x h1 h2
        | literal _ _ y h1 => exact .literal l ts y (ih h1)
      | parser a =>
        simp only [List.map_cons, replaceToken] at h
        cases h with
        | cut _ _ v _ h1 h2 => exact .cut a ts v x ((hφ a _ _).mp h1) h2
        | parser _ _ v y h1 h2 => exact .parser a ts v y ((hφ a _ _).mp h1) (ih h2)
  · intro h
    induction h with
    | here l toks x h1 h2 => exact .here l _ x h1 h2
    | cut a toks v x h1 h2 => exact .cut _ _ v x ((hφ a _ _).mpr h1) h2
    | literal l toks x _ ih => exact .literal l _ x ih
    | parser a toks v x h1 _ ih => exact .parser _ _ v x ((hφ a _ _).mpr h1) ih

theorem replace_trouble (hφ : SameMatches φ) {toks : List Token} {x : Bytes} : LooseTrouble (toks.map (replaceToken φ)) x ↔ LooseTrouble toks x := by
  constructor
  · intro h
    induction toks generalizing x with
    | nil => cases h
    | cons t ts ih =>
      cases t with
      | literal l =>
        simp only [List.map_cons, replaceToken] at h
        cases h with
        | literal _ c y _ h0 h1 h2 h3 => exact .literal l c y ts (by simpa using h0) h1 h2 (ih h3)
      | parser a =>
        simp only [List.map_cons, replaceToken] at h
        cases h with
        | cut _ _ v _ h1 h2 => exact .cut a ts v x ((hφ a _ _).mp h1) h2
        | parser _ _ v y h1 h2 => exact .parser a ts v y ((hφ a _ _).mp h1) (ih h2)
  · intro h
    induction h with
    | cut a toks v x h1 h2 => exact .cut _ _ v x ((hφ a _ _).mpr h1) h2
    | literal l c y toks h0 h1 h2 _ ih => exact .literal l c y _ (by simpa using h0) h1 h2 ih
    | parser a toks v x h1 _ ih => exact .parser _ _ v x ((hφ a _ _).mpr h1) ih

/-! ### The table -/

def replaceRow (g : Pattern → Pattern) (r : Row) : Row := ⟨r.text, r.whole.map g, r.more.map g⟩

def replaceTable (g : Pattern → Pattern) (T : Table) : Table := ⟨T.rows.map (replaceRow g), T.parserLed.map g⟩

theorem rowOf_replace (rows : List Row) (l : Bytes) : rowOf (rows.map (replaceRow g)) l = replaceRow g (rowOf rows l) := by
  unfold rowOf
  rw [List.find?_map]
  have : ((fun r => decide (Row.text r = l)) ∘ replaceRow g) = fun r => decide (Row.text r = l) := rfl
  rw [this]
  cases rows.find? fun r => decide (r.text = l) <;> rfl

theorem extended_replace (rows : List Row) (l : Bytes) : Extended (rows.map (replaceRow g)) l ↔ Extended rows l := by
  simp only [Extended, List.mem_map]
  constructor
  · rintro ⟨_, ⟨r, hr, rfl⟩, h⟩; exact ⟨r, hr, h⟩
  · rintro ⟨r, hr, h⟩; exact ⟨_, ⟨r, hr, rfl⟩, h⟩

theorem filter_replace (f : Bytes → Bool) (rows : List Row) :
    (rows.map (replaceRow g)).filter (fun r => f r.text) = (rows.filter fun r => f r.text).map (replaceRow g) := by
  rw [List.filter_map]; rfl

theorem addLiteralLed_replace (rows : List Row) (l : Bytes) (alone : Bool) (p : Pattern) :
    addLiteralLed (rows.map (replaceRow g)) l alone (g p) = (addLiteralLed rows l alone p).map (replaceRow g) := by
  unfold addLiteralLed
  have f1 := filter_replace (g := g) (fun t => decide (t ≠ l)) rows
  have f2 := filter_replace (g := g) (fun t => decide (¬ l <+: t)) rows
  simp only [rowOf_replace, extended_replace, f1, f2]
  have : (replaceRow g (rowOf rows l)).more = none ↔ (rowOf rows l).more = none := by simp [replaceRow]
  simp only [this]
  split
  · rfl
  · split <;> rfl

theorem addParserLed_replace (hg : Rewrites φ g) {a : Parser} {p : Pattern} {rest : List Token} (hp : p.pattern = .parser a :: rest) (qs : List Pattern)
    (hk : ∀ q ∈ qs, ∀ b, q.pattern.head? = some (.parser b) → φ b = φ a → b = a) :
    addParserLed (φ a) (g p) (qs.map g) = (addParserLed a p qs).map g := by
  induction qs with
  | nil => rfl
  | cons q qs ih =>
    have h1 := ih (fun r hr => hk r (by simp [hr]))
    have e : (g q).pattern.head? = some (.parser (φ a)) ↔ q.pattern.head? = some (.parser a) := by
      rw [hg.tokens q]
      constructor
      · intro h
        rw [List.head?_map] at h
        cases hh : q.pattern.head? with
        | none => rw [hh] at h; simp at h
        | some t =>
          rw [hh] at h
          cases t with
          | literal l => simp [replaceToken] at h
          | parser b =>
            simp [replaceToken] at h
            rw [hk q (by simp) b hh h]
      · exact replace_head _ _
    have e2 : (g p).pattern = [.parser (φ a)] ↔ p.pattern = [.parser a] := by
      rw [hg.tokens p, hp]; simp [replaceToken]
    simp only [List.map_cons, addParserLed, e, e2]
    split
    · rename_i hq
      have e3 : (g q).pattern = [.parser (φ a)] ↔ q.pattern = [.parser a] := by
        rw [hg.tokens q]
        cases hh : q.pattern with
        | nil => rw [hh] at hq; simp at hq
        | cons t ts => rw [hh] at hq; simp at hq; subst hq; simp [replaceToken]
      simp only [ne_eq, e3, List.map_cons]
      split <;> rfl
    · rw [h1, List.map_cons]

theorem add_replace (hg : Rewrites φ g) (T : Table) (p : Pattern)
    (hk : ∀ q ∈ T.parserLed, ∀ a b, p.pattern.head? = some (.parser a) → q.pattern.head? = some (.parser b) → φ b = φ a → b = a) :
    (replaceTable g T).add (g p) = replaceTable g (T.add p) := by
  unfold Table.add
  rw [hg.tokens p]
  cases hp : p.pattern with
  | nil => rfl
  | cons t ts =>
    cases t with
    | literal l =>
      simp only [List.map_cons, replaceToken]
      have := addLiteralLed_replace (g := g) T.rows l ts.isEmpty p
      rw [show (ts.map (replaceToken φ)).isEmpty = ts.isEmpty by cases ts <;> rfl]
      simp only [replaceTable, this]
    | parser a =>
      simp only [List.map_cons, replaceToken]
      have := addParserLed_replace hg hp T.parserLed (fun q hq b hb => hk q hq a b (by rw [hp]; rfl) hb)
      simp only [replaceTable, this]

theorem add_parserLed_mem (T : Table) (p : Pattern) : ∀ q ∈ (T.add p).parserLed, q = p ∨ q ∈ T.parserLed := by
  intro q hq
  unfold Table.add at hq
  split at hq
  · exact .inr hq
  · exact .inr hq
  · exact (addParserLed_mem hq).symm

theorem table_replace (hg : Rewrites φ g) (ps : List Pattern) (hk : KeepsApart φ ps) : Table.of (ps.map g) = replaceTable g (Table.of ps) := by
  have key : ∀ (qs : List Pattern) (T : Table), (∀ q ∈ T.parserLed, q ∈ ps) → (∀ q ∈ qs, q ∈ ps) →
      (qs.map g).foldl Table.add (replaceTable g T) = replaceTable g (qs.foldl Table.add T) := by
    intro qs
    induction qs with
    | nil => intro T _ _; rfl
    | cons p qs ih =>
      intro T h1 h2
      simp only [List.map_cons, List.foldl_cons]
      rw [add_replace hg T p (fun q hq a b ha hb e => hk b a ⟨q, h1 q hq, hb⟩ ⟨p, h2 p (by simp), ha⟩ e)]
      refine ih _ ?_ (fun q hq => h2 q (by simp [hq]))
      intro q hq
      rcases add_parserLed_mem T p q hq with rfl | h
      · exact h2 q (by simp)
      · exact h1 q h
  exact key ps ⟨[], []⟩ (by simp) (fun _ h => h)

theorem stopPoint_replace (rows : List Row) (b : Bytes) : StopPoint (rows.map (replaceRow g)) b ↔ StopPoint rows b := by
  unfold StopPoint
  have e1 : (∃ r ∈ rows.map (replaceRow g), r.text = b ∧ r.more ≠ none) ↔ ∃ r ∈ rows, r.text = b ∧ r.more ≠ none := by
    simp only [List.mem_map]
    constructor
    · rintro ⟨_, ⟨r, hr, rfl⟩, h1, h2⟩; exact ⟨r, hr, h1, by simpa [replaceRow] using h2⟩
    · rintro ⟨r, hr, h1, h2⟩; exact ⟨_, ⟨r, hr, rfl⟩, h1, by simpa [replaceRow] using h2⟩
  have e2 : (∃ r ∈ rows.map (replaceRow g), ∃ s ∈ rows.map (replaceRow g), r.text ≠ s.text ∧ CommonStart r.text s.text b) ↔
      ∃ r ∈ rows, ∃ s ∈ rows, r.text ≠ s.text ∧ CommonStart r.text s.text b := by
    simp only [List.mem_map]
    constructor
    · rintro ⟨_, ⟨r, hr, rfl⟩, _, ⟨s, hs, rfl⟩, h⟩; exact ⟨r, hr, s, hs, h⟩
    · rintro ⟨r, hr, s, hs, h⟩; exact ⟨_, ⟨r, hr, rfl⟩, _, ⟨s, hs, rfl⟩, h⟩
  rw [e1, e2]

theorem deepest_replace (rows : List Row) (x b : Bytes) : Deepest (rows.map (replaceRow g)) x b ↔ Deepest rows x b := by
  simp only [Deepest, stopPoint_replace]

theorem firstAnswer_replace (hg : Replaces φ g) {ps qs : List Pattern} (hs : ∀ p ∈ qs, p ∈ ps) {x : Bytes} {r r' : Option MatchResult}
    (h : FirstAnswer qs x r) (h' : FirstAnswer (qs.map g) x r') : SameBut Matches φ g ps x r r' := by
  rcases firstAnswer_cases qs x with hn | ⟨A, p, B, caps, e, hA, hp⟩
  · rw [h.2 hn, h'.2 (by
      intro q hq
      rw [List.mem_map] at hq
      obtain ⟨p, hp, rfl⟩ := hq
      rintro ⟨caps, hc⟩
      rw [hg.tokens p] at hc
      obtain ⟨c, h1, _⟩ := replace_strict_inv hg.alike hc
      exact hn p hp ⟨c, h1⟩)]
    trivial
  · obtain ⟨m, rfl, hm⟩ := h.1 A p B caps e hA hp
    obtain ⟨m', rfl, hm'⟩ := h'.1 (A.map g) (g p) (B.map g) (replaceCaps φ caps) (by rw [e]; simp) (by
      intro q hq
      rw [List.mem_map] at hq
      obtain ⟨a, ha, rfl⟩ := hq
      rintro ⟨caps, hc⟩
      rw [hg.tokens a] at hc
      obtain ⟨c, h1, _⟩ := replace_strict_inv hg.alike hc
      exact hA a ha ⟨c, h1⟩) (by rw [hg.tokens p]; exact replace_strict hg.alike hp)
    exact ⟨p, hs p (by rw [e]; simp), caps, matchesStrict_matches hp, hm, hm'⟩

theorem addLiteralLed_whole {rows : List Row} {l : Bytes} {alone : Bool} {p : Pattern} {r : Row} {q : Pattern}
    (h : r ∈ addLiteralLed rows l alone p) (hq : r.whole = some q) : (alone = true ∧ q = p ∧ r.text = l) ∨ ∃ s ∈ rows, s.text = r.text ∧ s.whole = some q := by
  have ht : (rowOf rows l).text = l := by
    unfold rowOf
    cases hf : rows.find? fun r => decide (r.text = l) with
    | none => rfl
    | some s => have := List.find?_some hf; simpa using this
  have hw : (rowOf rows l).whole = some q → ∃ s ∈ rows, s.text = l ∧ s.whole = some q := by
    unfold rowOf
    cases hf : rows.find? fun r => decide (r.text = l) with
    | none => simp
    | some s =>
      intro hs
      exact ⟨s, List.mem_of_find?_eq_some hf, by have := List.find?_some hf; simpa using this, hs⟩
  unfold addLiteralLed at h
  split at h
  · rename_i ha
    rw [List.mem_cons] at h
    rcases h with rfl | h
    · simp at hq
      exact .inl ⟨ha, hq.symm, ht⟩
    · exact .inr ⟨r, (List.mem_filter.mp h).1, rfl, hq⟩
  · split at h
    · rw [List.mem_cons] at h
      rcases h with rfl | h
      · obtain ⟨s, h1, h2, h3⟩ := hw hq
        exact .inr ⟨s, h1, h2.trans ht.symm, h3⟩
      · exact .inr ⟨r, (List.mem_filter.mp h).1, rfl, hq⟩
    · rw [List.mem_cons] at h
      rcases h with rfl | h
      · obtain ⟨s, h1, h2, h3⟩ := hw hq
        exact .inr ⟨s, h1, h2.trans ht.symm, h3⟩
      · exact .inr ⟨r, (List.mem_filter.mp h).1, rfl, hq⟩

theorem table_whole (ps : List Pattern) : ∀ r ∈ (Table.of ps).rows, ∀ q, r.whole = some q → q ∈ ps ∧ q.pattern = [.literal r.text] := by
  refine snoc_induction (P := fun ps => ∀ r ∈ (Table.of ps).rows, ∀ q, r.whole = some q → q ∈ ps ∧ q.pattern = [.literal r.text]) ?_ ?_ ps
  · rintro r ⟨⟩
  · intro ps p ih r hr q hq
    rw [table_snoc] at hr
    unfold Table.add at hr
    split at hr
    · have := ih r hr q hq
      exact ⟨by simp [this.1], this.2⟩
    · rename_i l rest hp
      rcases addLiteralLed_whole hr hq with ⟨h1, rfl, h2⟩ | ⟨s, h1, h2, h3⟩
      · refine ⟨by simp, ?_⟩
        rw [hp, h2, List.isEmpty_iff.mp h1]
      · have := ih s h1 q h3
        exact ⟨by simp [this.1], by rw [this.2, h2]⟩
    · have := ih r hr q hq
      exact ⟨by simp [this.1], this.2⟩

theorem isResult_literal (p : Pattern) : IsResult { pattern := { p with pattern := [] }, values := [] } p [] := by
  refine ⟨rfl, ?_, ?_⟩
  · exact List.Pairwise.nil
  · intro k v; simp [capture]

theorem answer_replace (hg : Replaces φ g) (ps : List Pattern) {x : Bytes} {r r' : Option MatchResult}
    (h : (Table.of ps).Answer x r) (h' : (replaceTable g (Table.of ps)).Answer x r') : SameBut Matches φ g ps x r r' := by
  by_cases hrow : ∃ row ∈ (Table.of ps).rows, row.text = x
  · obtain ⟨row, h1, h2⟩ := hrow
    rw [h.1 row h1 h2, h'.1 (replaceRow g row) (List.mem_map.mpr ⟨row, h1, rfl⟩) h2]
    cases hw : row.whole with
    | none => simp [replaceRow, hw, SameBut]
    | some p =>
      simp only [replaceRow, hw, Option.map_some, SameBut]
      obtain ⟨h3, h4⟩ := table_whole ps row h1 p hw
      refine ⟨p, h3, [], ?_, isResult_literal p, isResult_literal (g p)⟩
      rw [h4, h2]
      have := Matches.literal x [] [] [] .nil
      simpa using this
  · have hno : ∀ row ∈ (Table.of ps).rows, row.text ≠ x := fun row h1 h2 => hrow ⟨row, h1, h2⟩
    obtain ⟨b, d, p1, p2, p3⟩ := h.2 hno
    obtain ⟨b', d', q1, q2, q3⟩ := h'.2 (by
      intro row hr
      obtain ⟨row0, hr0, rfl⟩ := List.mem_map.mp hr
      exact hno row0 hr0)
    have := deepest_unique d ((deepest_replace _ x b').mp d')
    subst this
    by_cases hb : b = []
    · exact firstAnswer_replace hg (table_parserLed ps) (p1 hb) (q1 hb)
    · by_cases hm : ∃ row ∈ (Table.of ps).rows, row.text = b ∧ row.more ≠ none
      · obtain ⟨row, h1, h2, h3⟩ := hm
        cases hp : row.more with
        | none => exact absurd hp h3
        | some p =>
          have a1 := p2 hb row h1 h2 p hp
          have a2 := q2 hb (replaceRow g row) (List.mem_map.mpr ⟨row, h1, rfl⟩) h2 (g p) (by simp [replaceRow, hp])
          refine firstAnswer_replace hg (qs := [p]) ?_ a1 a2
          intro q hq
          simp at hq
          subst hq
          exact table_mem ps row h1 q hp
      · have hn : ∀ row ∈ (Table.of ps).rows, row.text = b → row.more = none := by
          intro row h1 h2
          cases hp : row.more with
          | none => rfl
          | some p => exact absurd ⟨row, h1, h2, by simp [hp]⟩ hm
        rw [p3 hb hn, q3 hb (by
          intro row hr hb'
          obtain ⟨row0, hr0, rfl⟩ := List.mem_map.mp hr
          simp [replaceRow, hn row0 hr0 hb'])]
        trivial

theorem lookupPanics_replace (rows : List Row) (x : Bytes) : LookupPanics (rows.map (replaceRow g)) x ↔ LookupPanics rows x := by
  simp only [LookupPanics, stopPoint_replace, extended_replace]
  have e : ∀ b : Bytes, (∃ r ∈ rows.map (replaceRow g), ∃ z, r.text = b ++ z ∧ NonAsciiFirst z) ↔ ∃ r ∈ rows, ∃ z, r.text = b ++ z ∧ NonAsciiFirst z := by
    intro b
    simp only [List.mem_map]
    constructor
    · rintro ⟨_, ⟨r, hr, rfl⟩, h⟩; exact ⟨r, hr, h⟩
    · rintro ⟨r, hr, h⟩; exact ⟨_, ⟨r, hr, rfl⟩, h⟩
  simp only [e]

theorem splitPanics_replace (rows : List Row) (x : Bytes) : SplitPanics (rows.map (replaceRow g)) x ↔ SplitPanics rows x := by
  simp only [SplitPanics, stopPoint_replace, List.mem_map]
  constructor
  · rintro ⟨_, ⟨r, hr, rfl⟩, h⟩; exact ⟨r, hr, h⟩
  · rintro ⟨r, hr, h⟩; exact ⟨_, ⟨r, hr, rfl⟩, h⟩

theorem firstPanics_replace (hg : Replaces φ g) (ps : List Pattern) (x : Bytes) : FirstPanics (ps.map g) x ↔ FirstPanics ps x := by
  have e : ∀ p, (RunsInto (g p).pattern x ↔ RunsInto p.pattern x) ∧
      ((∃ caps, MatchesStrict (g p).pattern x caps) ↔ ∃ caps, MatchesStrict p.pattern x caps) := by
    intro p
    rw [hg.tokens p]
    refine ⟨replace_runsInto hg.alike, ?_, ?_⟩
    · rintro ⟨c, hc⟩; obtain ⟨c', h1, _⟩ := replace_strict_inv hg.alike hc; exact ⟨c', h1⟩
    · rintro ⟨c, hc⟩; exact ⟨_, replace_strict hg.alike hc⟩
  constructor
  · rintro ⟨A, p, B, h1, h2, h3⟩
    obtain ⟨A0, B0, rfl, rfl, h4⟩ := List.map_eq_append_iff.mp h1
    obtain ⟨p0, B1, rfl, rfl, rfl⟩ := List.map_eq_cons_iff.mp h4
    refine ⟨A0, p0, B1, rfl, ?_, (e p0).1.mp h3⟩
    intro a ha
    have := h2 (g a) (List.mem_map.mpr ⟨a, ha, rfl⟩)
    rwa [(e a).1, (e a).2] at this
  · rintro ⟨A, p, B, rfl, h2, h3⟩
    refine ⟨A.map g, g p, B.map g, by simp, ?_, (e p).1.mpr h3⟩
    intro a ha
    obtain ⟨a0, ha0, rfl⟩ := List.mem_map.mp ha
    rw [(e a0).1, (e a0).2]
    exact h2 a0 ha0

theorem panics_replace (hg : Replaces φ g) (T : Table) (x : Bytes) : (replaceTable g T).Panics x ↔ T.Panics x := by
  unfold Table.Panics
  simp only [replaceTable, lookupPanics_replace, deepest_replace, firstPanics_replace hg]
  have e1 : (∀ row ∈ T.rows.map (replaceRow g), row.text ≠ x) ↔ ∀ row ∈ T.rows, row.text ≠ x := by
    simp only [List.mem_map]
    constructor
    · intro h row hr; exact h (replaceRow g row) ⟨row, hr, rfl⟩
    · rintro h _ ⟨row, hr, rfl⟩; exact h row hr
  have e2 : ∀ b, (∃ row ∈ T.rows.map (replaceRow g), row.text = b ∧ ∃ p, row.more = some p ∧ RunsInto p.pattern x) ↔
      ∃ row ∈ T.rows, row.text = b ∧ ∃ p, row.more = some p ∧ RunsInto p.pattern x := by
    intro b
    simp only [List.mem_map]
    constructor
    · rintro ⟨_, ⟨row, hr, rfl⟩, h1, p, h2, h3⟩
      simp only [replaceRow, Option.map_eq_some_iff] at h2
      obtain ⟨p0, h4, rfl⟩ := h2
      rw [hg.tokens p0] at h3
      exact ⟨row, hr, h1, p0, h4, (replace_runsInto hg.alike).mp h3⟩
    · rintro ⟨row, hr, h1, p, h2, h3⟩
      exact ⟨_, ⟨row, hr, rfl⟩, h1, g p, by simp [replaceRow, h2], by rw [hg.tokens p]; exact (replace_runsInto hg.alike).mpr h3⟩
  simp only [e1, e2]

theorem addPanics_replace (hg : Rewrites φ g) (T : Table) (p : Pattern) : (replaceTable g T).AddPanics (g p) ↔ T.AddPanics p := by
  unfold Table.AddPanics
  simp only [replaceTable, lookupPanics_replace, splitPanics_replace, hg.tokens p]
  constructor
  · rintro ⟨l, rest, h1, h2⟩
    obtain ⟨t, ts, h3, h4, rfl⟩ := List.map_eq_cons_iff.mp h1
    cases t with
    | literal l' => simp [replaceToken] at h4; subst h4; exact ⟨l', ts, h3, h2⟩
    | parser a => simp [replaceToken] at h4
  · rintro ⟨l, rest, h1, h2⟩
    exact ⟨l, rest.map (replaceToken φ), by rw [h1]; rfl, h2⟩

theorem replace_literal_mem (hg : Rewrites φ g) (p : Pattern) (l : Bytes) : Token.literal l ∈ (g p).pattern ↔ Token.literal l ∈ p.pattern := by
  rw [hg.tokens p, List.mem_map]
  constructor
  · rintro ⟨t, h1, h2⟩
    cases t with
    | literal l' => simp [replaceToken] at h2; subst h2; exact h1
    | parser a => simp [replaceToken] at h2
  · intro h; exact ⟨_, h, rfl⟩

theorem proper_replace (hg : Rewrites φ g) {sip : Bytes → UInt64} {ps : List Pattern} (h : Proper sip ps) (hcol : NoCollision sip (ps.map g)) :
    Proper sip (ps.map g) := by
  refine ⟨?_, ?_, ?_, hcol⟩
  · intro q hq l hl
    obtain ⟨p, hp, rfl⟩ := List.mem_map.mp hq
    exact h.utf8 p hp l ((replace_literal_mem hg p l).mp hl)
  · intro q hq l hl
    obtain ⟨p, hp, rfl⟩ := List.mem_map.mp hq
    exact h.nonempty p hp l ((replace_literal_mem hg p l).mp hl)
  · intro q hq l rest he l' hh
    obtain ⟨p, hp, rfl⟩ := List.mem_map.mp hq
    rw [hg.tokens p] at he
    obtain ⟨t, ts, h3, h4, rfl⟩ := List.map_eq_cons_iff.mp he
    cases t with
    | literal l0 => exact h.split p hp l0 ts h3 l' ((replace_head_literal ts l').mp hh)
    | parser a => simp [replaceToken] at h4

/-- Replacing parsers by parsers that match the same does not change what the trie matches. -/
theorem replace_trie (sip : Bytes → UInt64) (ps : List Pattern) (h : Proper sip ps) (φ : Parser → Parser) (g : Pattern → Pattern)
    (hg : Replaces φ g) (hk : KeepsApart φ ps) (hcol : NoCollision sip (ps.map g)) (text : Bytes) (hx : Utf8 text) :
    SameRun Matches φ g ps text (SuffixTree.build sip ps >>= fun t => t.parse text) (SuffixTree.build sip (ps.map g) >>= fun t => t.parse text) := by
  have h' := proper_replace hg.toRewrites h hcol
  have hB := C96_build_panics_iff sip ps h.utf8 h.nonempty h.split
  have hB' := C96_build_panics_iff sip (ps.map g) h'.utf8 h'.nonempty h'.split
  have hA : ∀ A p B, ps = A ++ p :: B → ((Table.of (A.map g)).AddPanics (g p) ↔ (Table.of A).AddPanics p) := by
    intro A p B e
    rw [table_replace hg.toRewrites A (fun a b ha hb => hk a b (by
      obtain ⟨q, h1, h2⟩ := ha; exact ⟨q, by rw [e]; simp [h1], h2⟩) (by obtain ⟨q, h1, h2⟩ := hb; exact ⟨q, by rw [e]; simp [h1], h2⟩))]
    exact addPanics_replace hg.toRewrites _ p
  by_cases hp : ∃ A p B, ps = A ++ p :: B ∧ (Table.of A).AddPanics p
  · rw [hB.1 hp, hB'.1 (by
      obtain ⟨A, p, B, e, h1⟩ := hp
      exact ⟨A.map g, g p, B.map g, by rw [e]; simp, (hA A p B e).mpr h1⟩)]
    exact rfl
  · obtain ⟨t, ht⟩ := hB.2 (fun A p B e h1 => hp ⟨A, p, B, e, h1⟩)
    obtain ⟨t', ht'⟩ := hB'.2 (by
      intro A p B e h1
      obtain ⟨A0, B0, e1, rfl, h4⟩ := List.map_eq_append_iff.mp e
      obtain ⟨p0, B1, rfl, rfl, rfl⟩ := List.map_eq_cons_iff.mp h4
      exact hp ⟨A0, p0, B1, e1, (hA A0 p0 B1 e1).mp h1⟩)
    rw [ht, ht']
    show SameRun Matches φ g ps text (t.parse text) (t'.parse text)
    have h1 := C66_panics_iff sip ps h.utf8 h.nonempty h.split h.hashes t ht text hx
    have h2 := C66_panics_iff sip (ps.map g) h'.utf8 h'.nonempty h'.split h'.hashes t' ht' text hx
    rw [table_replace hg.toRewrites ps hk, panics_replace hg] at h2
    by_cases hP : (Table.of ps).Panics text
    · rw [h1.1 hP, h2.1 hP]
      exact rfl
    · obtain ⟨r, e1, a1⟩ := h1.2 hP
      obtain ⟨r', e2, a2⟩ := h2.2 hP
      rw [e1, e2]
      exact answer_replace hg ps a1 a2

/-! ### The suffix array -/

theorem leads_replace (hg : Rewrites φ g) (ps : List Pattern) (l : Bytes) : Leads (ps.map g) l ↔ Leads ps l := by
  simp only [Leads, List.mem_map]
  constructor
  · rintro ⟨_, ⟨p, hp, rfl⟩, h⟩; rw [hg.tokens p] at h; exact ⟨p, hp, (replace_head_literal _ l).mp h⟩
  · rintro ⟨p, hp, h⟩; exact ⟨g p, ⟨p, hp, rfl⟩, by rw [hg.tokens p]; exact (replace_head_literal _ l).mpr h⟩

theorem firstLoose_replace (hg : Replaces φ g) {ps qs : List Pattern} (hs : ∀ p ∈ qs, p ∈ ps) {x : Bytes} {r r' : Option MatchResult}
    (h : FirstLoose qs x r) (h' : FirstLoose (qs.map g) x r') : SameBut LooseMatches φ g ps x r r' := by
  rcases firstLoose_cases qs x with hn | ⟨A, p, B, caps, e, hA, hp⟩
  · rw [h.2 hn, h'.2 (by
      intro q hq
      rw [List.mem_map] at hq
      obtain ⟨p, hp, rfl⟩ := hq
      rintro ⟨caps, hc⟩
      rw [hg.tokens p] at hc
      obtain ⟨c, h1, _⟩ := replace_loose_inv hg.alike hc
      exact hn p hp ⟨c, h1⟩)]
    trivial
  · obtain ⟨m, rfl, hm⟩ := h.1 A p B caps e hA hp
    obtain ⟨m', rfl, hm'⟩ := h'.1 (A.map g) (g p) (B.map g) (replaceCaps φ caps) (by rw [e]; simp) (by
      intro q hq
      rw [List.mem_map] at hq
      obtain ⟨a, ha, rfl⟩ := hq
      rintro ⟨caps, hc⟩
      rw [hg.tokens a] at hc
      obtain ⟨c, h1, _⟩ := replace_loose_inv hg.alike hc
      exact hA a ha ⟨c, h1⟩) (by rw [hg.tokens p]; exact replace_loose hg.alike hp)
    exact ⟨p, hs p (by rw [e]; simp), caps, hp, hm, hm'⟩

theorem lastWith_replace (hg : Rewrites φ g) {P : List Token → Prop} (hP : ∀ toks, P (toks.map (replaceToken φ)) ↔ P toks) {ps : List Pattern} {p : Pattern}
    (h : LastWith ps P p) : LastWith (ps.map g) P (g p) := by
  obtain ⟨A, B, e, h1, h2⟩ := h
  refine ⟨A.map g, B.map g, by rw [e]; simp, by rw [hg.tokens p, hP]; exact h1, ?_⟩
  intro q hq
  obtain ⟨q0, hq0, rfl⟩ := List.mem_map.mp hq
  rw [hg.tokens q0, hP]
  exact h2 q0 hq0

theorem lastWith_replace_inv (hg : Rewrites φ g) {P : List Token → Prop} (hP : ∀ toks, P (toks.map (replaceToken φ)) ↔ P toks) {ps : List Pattern}
    {q : Pattern} (h : LastWith (ps.map g) P q) : ∃ p, LastWith ps P p ∧ q = g p := by
  obtain ⟨A, B, e, h1, h2⟩ := h
  obtain ⟨A0, B0, e1, rfl, h4⟩ := List.map_eq_append_iff.mp e
  obtain ⟨p0, B1, rfl, rfl, rfl⟩ := List.map_eq_cons_iff.mp h4
  rw [hg.tokens p0, hP] at h1
  refine ⟨p0, ⟨A0, B1, e1, h1, ?_⟩, rfl⟩
  intro q hq
  have := h2 (g q) (List.mem_map.mpr ⟨q, hq, rfl⟩)
  rwa [hg.tokens q, hP] at this

theorem replace_alone (l : Bytes) (toks : List Token) : toks.map (replaceToken φ) = [.literal l] ↔ toks = [.literal l] := by
  constructor
  · intro h
    obtain ⟨t, ts, rfl, h4, h5⟩ := List.map_eq_cons_iff.mp h
    simp at h5
    cases t with
    | literal l' => simp [replaceToken] at h4; rw [h4, h5]
    | parser a => simp [replaceToken] at h4
  · rintro rfl; rfl

theorem replace_goesOn (l : Bytes) (toks : List Token) :
    (∃ rest, rest ≠ [] ∧ toks.map (replaceToken φ) = .literal l :: rest) ↔ ∃ rest, rest ≠ [] ∧ toks = .literal l :: rest := by
  constructor
  · rintro ⟨rest, h0, h⟩
    obtain ⟨t, ts, rfl, h4, rfl⟩ := List.map_eq_cons_iff.mp h
    cases t with
    | literal l' => simp [replaceToken] at h4; exact ⟨ts, by simpa using h0, by rw [h4]⟩
    | parser a => simp [replaceToken] at h4
  · rintro ⟨rest, h0, rfl⟩; exact ⟨_, by simpa using h0, rfl⟩

theorem lastWith_or {ps : List Pattern} (P : List Token → Prop) : (∃ p, LastWith ps P p) ∨ ∀ p ∈ ps, ¬ P p.pattern := by
  refine snoc_induction (P := fun ps => (∃ p, LastWith ps P p) ∨ ∀ p ∈ ps, ¬ P p.pattern) (.inr (by simp)) ?_ ps
  intro ps q ih
  by_cases hq : P q.pattern
  · exact .inl ⟨q, ps, [], by simp, hq, by simp⟩
  · rcases ih with ⟨p, A, B, e, h1, h2⟩ | h
    · refine .inl ⟨p, A, B ++ [q], by rw [e]; simp, h1, ?_⟩
      intro r hr
      simp at hr
      rcases hr with h | rfl
      · exact h2 r h
      · exact hq
    · refine .inr ?_
      intro p hp
      simp at hp
      rcases hp with h1 | rfl
      · exact h p h1
      · exact hq

theorem suffixAnswer_replace (hg : Replaces φ g) (ps : List Pattern) (hu : ∀ p ∈ ps, Utf8Lits p) (hk : KeepsApart φ ps) {x : Bytes} (hx : Utf8 x)
    {r r' : Option MatchResult} (h : SuffixAnswer ps x r) (h' : SuffixAnswer (ps.map g) x r') : SameBut LooseMatches φ g ps x r r' := by
  by_cases hl : ∃ l, Leads ps l
  · obtain ⟨l, hc, _⟩ := C73_chosen ps hu x hx hl
    have hc' : Chosen (ps.map g) x l := (chosen_congr (leads_replace hg.toRewrites ps)).mpr hc
    obtain ⟨a1, a2⟩ := h.2 l hc
    obtain ⟨b1, b2⟩ := h'.2 l hc'
    by_cases hp : x <+: l
    · obtain ⟨a3, a4⟩ := a1 hp
      obtain ⟨b3, b4⟩ := b1 hp
      rcases lastWith_or (ps := ps) (· = [.literal l]) with ⟨p, hw⟩ | hn
      · rw [a3 p hw, b3 (g p) (lastWith_replace hg.toRewrites (replace_alone l) hw)]
        obtain ⟨A, B, e, h1, _⟩ := hw
        exact ⟨p, by rw [e]; simp, [], by rw [h1]; exact .last l x hp, isResult_literal p, isResult_literal (g p)⟩
      · rw [a4 hn, b4 (by
          intro q hq
          obtain ⟨p, hp, rfl⟩ := List.mem_map.mp hq
          rw [hg.tokens p, ne_eq, replace_alone]
          exact hn p hp)]
        trivial
    · obtain ⟨a3, a4⟩ := a2 hp
      obtain ⟨b3, b4⟩ := b2 hp
      rcases lastWith_or (ps := ps) (fun toks => ∃ rest, rest ≠ [] ∧ toks = .literal l :: rest) with ⟨p, hw⟩ | hn
      · refine firstLoose_replace hg (qs := [p]) ?_ (a3 p hw) (b3 (g p) (lastWith_replace hg.toRewrites (replace_goesOn l) hw))
        obtain ⟨A, B, e, _, _⟩ := hw
        intro q hq
        simp at hq
        subst hq
        rw [e]; simp
      · rw [a4 (fun p hp rest h0 h1 => hn p hp ⟨rest, h0, h1⟩), b4 (by
          intro q hq rest h0 h1
          obtain ⟨p, hp, rfl⟩ := List.mem_map.mp hq
          rw [hg.tokens p] at h1
          exact hn p hp ((replace_goesOn l p.pattern).mp ⟨rest, h0, h1⟩))]
        trivial
  · have hn : ∀ l, ¬ Leads ps l := fun l h => hl ⟨l, h⟩
    have h1 := h.1 hn
    have h2 := h'.1 (fun l => by rw [leads_replace hg.toRewrites]; exact hn l)
    rw [table_replace hg.toRewrites ps hk] at h2
    exact firstLoose_replace hg (table_parserLed ps) h1 h2

theorem firstLooseTrouble_replace (hg : Replaces φ g) (ps : List Pattern) (x : Bytes) : FirstLooseTrouble (ps.map g) x ↔ FirstLooseTrouble ps x := by
  have e : ∀ p, (LooseTrouble (g p).pattern x ↔ LooseTrouble p.pattern x) ∧
      ((∃ caps, LooseMatches (g p).pattern x caps) ↔ ∃ caps, LooseMatches p.pattern x caps) := by
    intro p
    rw [hg.tokens p]
    refine ⟨replace_trouble hg.alike, ?_, ?_⟩
    · rintro ⟨c, hc⟩; obtain ⟨c', h1, _⟩ := replace_loose_inv hg.alike hc; exact ⟨c', h1⟩
    · rintro ⟨c, hc⟩; exact ⟨_, replace_loose hg.alike hc⟩
  constructor
  · rintro ⟨A, p, B, h1, h2, h3⟩
    obtain ⟨A0, B0, rfl, rfl, h4⟩ := List.map_eq_append_iff.mp h1
    obtain ⟨p0, B1, rfl, rfl, rfl⟩ := List.map_eq_cons_iff.mp h4
    refine ⟨A0, p0, B1, rfl, ?_, (e p0).1.mp h3⟩
    intro a ha
    have := h2 (g a) (List.mem_map.mpr ⟨a, ha, rfl⟩)
    rwa [(e a).1, (e a).2] at this
  · rintro ⟨A, p, B, rfl, h2, h3⟩
    refine ⟨A.map g, g p, B.map g, by simp, ?_, (e p).1.mpr h3⟩
    intro a ha
    obtain ⟨a0, ha0, rfl⟩ := List.mem_map.mp ha
    rw [(e a0).1, (e a0).2]
    exact h2 a0 ha0

theorem suffixTrouble_replace (hg : Replaces φ g) (ps : List Pattern) (hk : KeepsApart φ ps) (x : Bytes) :
    SuffixTrouble (ps.map g) x ↔ SuffixTrouble ps x := by
  unfold SuffixTrouble
  simp only [leads_replace hg.toRewrites, table_replace hg.toRewrites ps hk, replaceTable, firstLooseTrouble_replace hg, chosen_congr (leads_replace hg.toRewrites ps)]
  have e : ∀ l, (∃ p, LastWith (ps.map g) (fun toks => ∃ rest, rest ≠ [] ∧ toks = .literal l :: rest) p ∧ LooseTrouble p.pattern x) ↔
      ∃ p, LastWith ps (fun toks => ∃ rest, rest ≠ [] ∧ toks = .literal l :: rest) p ∧ LooseTrouble p.pattern x := by
    intro l
    constructor
    · rintro ⟨q, h1, h2⟩
      obtain ⟨p, h3, rfl⟩ := lastWith_replace_inv hg.toRewrites (replace_goesOn l) h1
      rw [hg.tokens p] at h2
      exact ⟨p, h3, (replace_trouble hg.alike).mp h2⟩
    · rintro ⟨p, h1, h2⟩
      exact ⟨g p, lastWith_replace hg.toRewrites (replace_goesOn l) h1, by rw [hg.tokens p]; exact (replace_trouble hg.alike).mpr h2⟩
  simp only [e]

/-- The same for the suffix array. -/
theorem replace_suffix (sip : Bytes → UInt64) (ps : List Pattern) (hu : ∀ p ∈ ps, Utf8Lits p) (hcol : NoCollision sip ps) (φ : Parser → Parser)
    (g : Pattern → Pattern) (hg : Replaces φ g) (hk : KeepsApart φ ps) (hcol' : NoCollision sip (ps.map g)) (text : Bytes) (hx : Utf8 text) :
    SameRun LooseMatches φ g ps text (SuffixTable.build sip ps >>= fun t => t.parse text)
      (SuffixTable.build sip (ps.map g) >>= fun t => t.parse text) := by
  have hu' : ∀ p ∈ ps.map g, Utf8Lits p := by
    intro q hq l hl
    obtain ⟨p, hp, rfl⟩ := List.mem_map.mp hq
    exact hu p hp l ((replace_literal_mem hg.toRewrites p l).mp hl)
  have h1 := C74_panics_iff sip ps hu hcol text hx
  have h2 := C74_panics_iff sip (ps.map g) hu' hcol' text hx
  rw [suffixTrouble_replace hg ps hk] at h2
  by_cases hP : SuffixTrouble ps text
  · rw [h1.1 hP, h2.1 hP]
    exact rfl
  · obtain ⟨r, e1, a1⟩ := h1.2 hP
    obtain ⟨r', e2, a2⟩ := h2.2 hP
    rw [e1, e2]
    exact suffixAnswer_replace hg ps hu hk hx a1 a2

end Verif
