import Verif.Spec.Rename
import Verif.Spec.Samples
import Verif.Props.C79_Change
import Verif.Proofs.Replace
import Verif.Model.SuffixTable
import Verif.Props.C65_Table
import Verif.Proofs.GrammarShow
/-! C135: the same patterns and messages written with other characters. -/
namespace Verif
open Spec

namespace Rename
variable {f : UInt8 → UInt8}

/-! ### Texts -/

theorem map_inj (h : Renaming f) {a b : Bytes} : a.map f = b.map f ↔ a = b :=
  ⟨fun e => (List.map_inj_right fun x y => h.injective x y).mp e, fun e => by rw [e]⟩

theorem prefix_of {a x : Bytes} (hp : a <+: x.map f) : ∃ b, a = b.map f ∧ b <+: x := by
  refine ⟨x.take a.length, ?_, List.take_prefix _ _⟩
  rw [List.map_take]
  exact (List.prefix_iff_eq_take.mp hp)

theorem prefix_iff (h : Renaming f) {a x : Bytes} : a.map f <+: x.map f ↔ a <+: x := by
  constructor
  · intro hp
    obtain ⟨b, e, hb⟩ := prefix_of hp
    rw [map_inj h] at e
    rwa [e]
  · intro hp
    exact hp.map f

theorem append_of {v y x : Bytes} (e : v ++ y = x.map f) : ∃ w z, v = w.map f ∧ y = z.map f ∧ x = w ++ z := by
  obtain ⟨w, z, h1, h2, h3⟩ := List.map_eq_append_iff.mp e.symm
  exact ⟨w, z, h2.symm, h3.symm, h1⟩

theorem mem_iff (h : Renaming f) {b : UInt8} {l : List UInt8} : f b ∈ l.map f ↔ b ∈ l := by
  constructor
  · intro hm
    obtain ⟨c, hc, e⟩ := List.mem_map.mp hm
    rwa [← h.injective c b e]
  · exact List.mem_map_of_mem

/-! ### Parsers -/

theorem setMatch_iff (h : Renaming f) {set set' : List UInt8} (hs : ∀ b, f b ∈ set' ↔ b ∈ set) {mn mx : Option Nat} {x v : Bytes} :
    SetMatch set' mn mx (x.map f) (v.map f) ↔ SetMatch set mn mx x v := by
  constructor
  · intro m
    refine ⟨(prefix_iff h).mp m.isPrefix, fun e => m.nonempty (by rw [e]; rfl), fun b hb => (hs b).mp (m.inSet _ (List.mem_map_of_mem hb)), ?_, ?_, ?_⟩
    · intro b rest e
      rw [← hs]
      exact m.maximal (f b) (rest.map f) (by rw [e]; simp)
    · simpa using m.atLeast
    · simpa using m.atMost
  · intro m
    refine ⟨(prefix_iff h).mpr m.isPrefix, fun e => m.nonempty (by simpa using e), ?_, ?_, ?_, ?_⟩
    · intro c hc
      obtain ⟨b, hb, rfl⟩ := List.mem_map.mp hc
      exact (hs b).mpr (m.inSet b hb)
    · intro c rest e
      obtain ⟨w, z, h1, h2, h3⟩ := append_of e.symm
      rw [map_inj h] at h1
      subst h1
      cases z with
      | nil => simp at h2
      | cons b z =>
        simp at h2
        rw [h2.1, hs]
        exact m.maximal b z h3
    · simpa using m.atLeast
    · simpa using m.atMost

theorem beforeFirst_iff (h : Renaming f) {e x v : Bytes} : BeforeFirst (e.map f) (x.map f) (v.map f) ↔ BeforeFirst e x v := by
  constructor
  · rintro ⟨⟨r, hr⟩, hm⟩
    obtain ⟨w, z, h1, h2, h3⟩ := append_of hr.symm
    obtain ⟨w1, w2, g1, g2, rfl⟩ := append_of h1
    rw [map_inj h] at g1 g2
    subst g1 g2
    refine ⟨⟨z, h3⟩, fun v' r' e' => ?_⟩
    have := hm (v'.map f) (r'.map f) (by rw [e']; simp)
    simpa using this
  · rintro ⟨⟨r, hr⟩, hm⟩
    refine ⟨⟨r.map f, by rw [hr]; simp⟩, fun v' r' e' => ?_⟩
    obtain ⟨w, z, h1, h2, h3⟩ := append_of e'.symm
    obtain ⟨w1, w2, g1, g2, rfl⟩ := append_of h1
    rw [map_inj h] at g2
    subst g2
    have := hm w1 z h3
    rw [g1]
    simpa using this

/-- As `ProperSets`, for one parser. -/
def Proper : Parser → Prop
  | .set a => StrictlySorted a.characterSet
  | .int a => ∀ b ∈ a.characterSet, IsDigit b
  | .greedy _ => True

theorem int_set (h : Renaming f) {set : List UInt8} (hd : ∀ b ∈ set, IsDigit b) (b : UInt8) : f b ∈ set ↔ b ∈ set := by
  constructor
  · intro hb
    have := h.digits _ (hd _ hb)
    rw [h.injective _ _ this] at hb
    exact hb
  · intro hb
    rwa [h.digits b (hd b hb)]

theorem set_set (h : Renaming f) (set : List UInt8) (b : UInt8) : f b ∈ SetParser.createSetFromStr (set.map f) ↔ b ∈ set := by
  rw [SetParser.createSetFromStr, mem_bsetFromIter, mem_iff h]

theorem parserMatch_iff (h : Renaming f) {a : Parser} (ha : Proper a) {x v : Bytes} :
    ParserMatch (Parser.rename f a) (x.map f) (v.map f) ↔ ParserMatch a x v := by
  cases a with
  | set p => exact setMatch_iff h (set_set h _)
  | int p => exact setMatch_iff h (int_set h ha)
  | greedy p =>
    simp only [Parser.rename, ParserMatch]
    cases p.endString with
    | none => exact map_inj h
    | some e => exact beforeFirst_iff h

theorem rename_inj (h : Renaming f) {a b : Parser} (ha : Proper a) (hb : Proper b) : Parser.rename f a = Parser.rename f b ↔ a = b := by
  refine ⟨fun e => ?_, fun e => by rw [e]⟩
  cases a with
  | set p =>
    cases b with
    | set q =>
      simp only [Parser.rename, Parser.set.injEq, SetParser.mk.injEq] at e
      obtain ⟨e1, e2, e3, e4⟩ := e
      have : p.characterSet = q.characterSet := sorted_eq ha hb fun x => by rw [← set_set h p.characterSet, ← set_set h q.characterSet, e2]
      cases p; cases q
      simp at e1 e3 e4 this
      simp [e1, e3, e4, this]
    | int q => simp [Parser.rename] at e
    | greedy q => simp [Parser.rename] at e
  | int p =>
    cases b with
    | set q => simp [Parser.rename] at e
    | int q => exact e
    | greedy q => simp [Parser.rename] at e
  | greedy p =>
    cases b with
    | set q => simp [Parser.rename] at e
    | int q => simp [Parser.rename] at e
    | greedy q =>
      simp only [Parser.rename, Parser.greedy.injEq, GreedyParser.mk.injEq] at e
      obtain ⟨e1, e2⟩ := e
      have : p.endString = q.endString := by
        revert e2
        cases p.endString <;> cases q.endString <;> simp
        intro e
        exact (map_inj h).mp e
      cases p; cases q
      simp at e1 this
      simp [e1, this]

/-! ### Patterns -/

def Proper' (toks : List Token) : Prop := ∀ a, Token.parser a ∈ toks → Proper a

theorem proper {p : Pattern} (h : ProperSets p) : Proper' p.pattern := by
  intro a ha
  cases a with
  | set a => exact h.1 a ha
  | int a => exact h.2 a ha
  | greedy a => trivial

def cap (f : UInt8 → UInt8) (c : Parser × Bytes) : Parser × Bytes := (Parser.rename f c.1, c.2.map f)

theorem matches_to (h : Renaming f) {toks : List Token} (hp : Proper' toks) {x : Bytes} {caps : List (Parser × Bytes)} (m : MatchesStrict toks x caps) :
    MatchesStrict (toks.map (Token.rename f)) (x.map f) (caps.map (cap f)) := by
  induction m with
  | nil => exact .nil
  | literal l toks x caps hx m ih =>
    rw [List.map_append]
    exact .literal _ _ _ _ (fun ht => by simpa using hx (by simpa using ht)) (ih fun a ha => hp a (by simp [ha]))
  | parser a toks v x caps hv m ih =>
    have := (parserMatch_iff h (hp a (by simp))).mpr hv
    rw [List.map_append] at this ⊢
    exact .parser _ _ _ _ _ this (ih fun a ha => hp a (by simp [ha]))

theorem matches_from (h : Renaming f) {toks : List Token} (hp : Proper' toks) {x : Bytes} {caps' : List (Parser × Bytes)}
    (m : MatchesStrict (toks.map (Token.rename f)) (x.map f) caps') : ∃ caps, caps' = caps.map (cap f) ∧ MatchesStrict toks x caps := by
  induction toks generalizing x caps' with
  | nil =>
    generalize hx : x.map f = y at m
    cases m
    simp at hx
    subst hx
    exact ⟨[], rfl, .nil⟩
  | cons tok toks ih =>
    have hp' : Proper' toks := fun a ha => hp a (by simp [ha])
    generalize hx : x.map f = y at m
    cases tok with
    | literal l =>
      simp only [List.map_cons, Token.rename] at m
      cases m with
      | literal _ _ z _ hz m =>
        obtain ⟨w, x', g1, rfl, rfl⟩ := append_of hx.symm
        rw [map_inj h] at g1
        subst g1
        obtain ⟨caps, rfl, m'⟩ := ih hp' m
        exact ⟨caps, rfl, .literal _ _ _ _ (fun ht => by simpa using hz (by simpa using ht)) m'⟩
    | parser a =>
      simp only [List.map_cons, Token.rename] at m
      cases m with
      | parser _ _ v z caps hv m =>
        obtain ⟨w, x', rfl, rfl, rfl⟩ := append_of hx.symm
        obtain ⟨caps, rfl, m'⟩ := ih hp' m
        rw [← List.map_append] at hv
        exact ⟨(a, w) :: caps, rfl, .parser _ _ _ _ _ ((parserMatch_iff h (hp a (by simp))).mp hv) m'⟩

theorem nameOf_rename (a : Parser) : nameOf (Parser.rename f a) = nameOf a := by cases a <;> rfl

theorem capture_rename (caps : List (Parser × Bytes)) (k : Bytes) : capture (caps.map (cap f)) k = (capture caps k).map fun v => v.map f := by
  unfold capture
  rw [List.find?_map]
  have : ((fun c : Parser × Bytes => decide (nameOf c.1 = some k)) ∘ cap f) = fun c : Parser × Bytes => decide (nameOf c.1 = some k) := by
    funext c
    simp [cap, nameOf_rename]
  rw [this]
  cases caps.find? fun c : Parser × Bytes => decide (nameOf c.1 = some k) <;> simp [cap]

theorem isResult_rename {r : MatchResult} {p : Pattern} {caps : List (Parser × Bytes)} (hr : IsResult r p caps) :
    IsResult (MatchResult.rename f r) (Pattern.rename f p) (caps.map (cap f)) := by
  refine ⟨hr.1, ?_, fun k v => ?_⟩
  · have := hr.2.1
    simp only [OrderedMap, MatchResult.rename, List.map_map] at this ⊢
    exact this
  · rw [capture_rename]
    simp only [MatchResult.rename, List.mem_map, Option.map_eq_some_iff, Prod.mk.injEq]
    constructor
    · rintro ⟨⟨k', v'⟩, hm, rfl, rfl⟩
      exact ⟨v', (hr.2.2 _ _).mp hm, rfl⟩
    · rintro ⟨v', hm, rfl⟩
      exact ⟨(k, v'), (hr.2.2 _ _).mpr hm, rfl, rfl⟩

theorem first_rename (h : Renaming f) {ps : List Pattern} (hp : ∀ p ∈ ps, Proper' p.pattern) {x : Bytes} {r : Option MatchResult} (ha : FirstAnswer ps x r) :
    FirstAnswer (ps.map (Pattern.rename f)) (x.map f) (r.map (MatchResult.rename f)) := by
  constructor
  · intro A' p' B' caps' e hA hm
    obtain ⟨A, s, rfl, rfl, e2⟩ := List.map_eq_append_iff.mp e
    obtain ⟨p, B, rfl, rfl, rfl⟩ := List.map_eq_cons_iff.mp e2
    obtain ⟨caps, rfl, m⟩ := matches_from h (hp p (by simp)) hm
    obtain ⟨res, rfl, hr⟩ := ha.1 A p B caps rfl (fun a haA => by
      rintro ⟨c, hc⟩
      exact hA (Pattern.rename f a) (List.mem_map_of_mem haA) ⟨_, matches_to h (hp a (by simp [haA])) hc⟩) m
    exact ⟨_, rfl, isResult_rename hr⟩
  · intro hn
    rw [ha.2 fun p hp' => ?_]
    · rfl
    · rintro ⟨c, hc⟩
      exact hn _ (List.mem_map_of_mem hp') ⟨_, matches_to h (hp p hp') hc⟩

/-! ### The table -/

def row (f : UInt8 → UInt8) (r : Row) : Row := ⟨r.text.map f, r.whole.map (Pattern.rename f), r.more.map (Pattern.rename f)⟩

theorem rowOf_rename (h : Renaming f) (rows : List Row) (l : Bytes) : rowOf (rows.map (row f)) (l.map f) = row f (rowOf rows l) := by
  unfold rowOf
  rw [List.find?_map]
  have : ((fun r : Row => decide (r.text = l.map f)) ∘ row f) = fun r : Row => decide (r.text = l) := by
    funext r
    simp [row, map_inj h]
  rw [this]
  cases rows.find? fun r => decide (r.text = l) <;> simp [row]

theorem extended_rename (h : Renaming f) (rows : List Row) (l : Bytes) : Extended (rows.map (row f)) (l.map f) ↔ Extended rows l := by
  unfold Extended
  constructor
  · rintro ⟨_, hr, h1, h2⟩
    obtain ⟨r, hr', rfl⟩ := List.mem_map.mp hr
    exact ⟨r, hr', (prefix_iff h).mp h1, fun e => h2 (by simp [row, e])⟩
  · rintro ⟨r, hr, h1, h2⟩
    exact ⟨_, List.mem_map.mpr ⟨r, hr, rfl⟩, (prefix_iff h).mpr h1, fun e => h2 ((map_inj h).mp e)⟩

theorem addLiteralLed_rename (h : Renaming f) (rows : List Row) (l : Bytes) (alone : Bool) (p : Pattern) :
    addLiteralLed (rows.map (row f)) (l.map f) alone (Pattern.rename f p) = (addLiteralLed rows l alone p).map (row f) := by
  have f1 : ((fun r : Row => decide (r.text ≠ l.map f)) ∘ row f) = fun r : Row => decide (r.text ≠ l) := by
    funext r
    simp [row, map_inj h]
  have f2 : ((fun r : Row => decide (¬ l.map f <+: r.text)) ∘ row f) = fun r : Row => decide (¬ l <+: r.text) := by
    funext r
    simp [row, prefix_iff h]
  have hm : (rowOf (rows.map (row f)) (l.map f)).more = none ↔ (rowOf rows l).more = none := by
    rw [rowOf_rename h]
    simp [row]
  unfold addLiteralLed
  by_cases ha : alone = true
  · rw [if_pos ha, if_pos ha, List.filter_map, f1, rowOf_rename h]
    simp [row]
  · rw [if_neg ha, if_neg ha]
    by_cases hc : (rowOf rows l).more = none ∧ Extended rows l
    · rw [if_pos hc, if_pos ⟨hm.mpr hc.1, (extended_rename h rows l).mpr hc.2⟩, List.filter_map, f1, rowOf_rename h]
      simp
    · rw [if_neg hc, if_neg (fun g => hc ⟨hm.mp g.1, (extended_rename h rows l).mp g.2⟩), List.filter_map, f2, rowOf_rename h]
      simp [row]

theorem head_rename (h : Renaming f) {q : Pattern} (hq : Proper' q.pattern) {a : Parser} (ha : Proper a) :
    (Pattern.rename f q).pattern.head? = some (.parser (Parser.rename f a)) ↔ q.pattern.head? = some (.parser a) := by
  simp only [Pattern.rename, List.head?_map]
  cases hh : q.pattern with
  | nil => simp
  | cons tok toks =>
    cases tok with
    | literal l => simp [Token.rename]
    | parser b =>
      have hb : Proper b := hq b (by rw [hh]; simp)
      simp [Token.rename, rename_inj h hb ha]

theorem alone_rename (h : Renaming f) {q : Pattern} (hq : Proper' q.pattern) {a : Parser} (ha : Proper a) :
    (Pattern.rename f q).pattern = [.parser (Parser.rename f a)] ↔ q.pattern = [.parser a] := by
  simp only [Pattern.rename]
  cases hh : q.pattern with
  | nil => simp
  | cons tok toks =>
    cases tok with
    | literal l => simp [Token.rename]
    | parser b =>
      have hb : Proper b := hq b (by rw [hh]; simp)
      simp [Token.rename, rename_inj h hb ha]

theorem addParserLed_rename (h : Renaming f) {a : Parser} (ha : Proper a) {p : Pattern} (hp : Proper' p.pattern) {qs : List Pattern}
    (hq : ∀ q ∈ qs, Proper' q.pattern) :
    addParserLed (Parser.rename f a) (Pattern.rename f p) (qs.map (Pattern.rename f)) = (addParserLed a p qs).map (Pattern.rename f) := by
  induction qs with
  | nil => rfl
  | cons q qs ih =>
    have hq0 := hq q (by simp)
    simp only [List.map_cons, addParserLed]
    by_cases h1 : q.pattern.head? = some (.parser a)
    · rw [if_pos h1, if_pos ((head_rename h hq0 ha).mpr h1)]
      by_cases h2 : p.pattern = [.parser a] ∧ q.pattern ≠ [.parser a]
      · rw [if_pos h2, if_pos ⟨(alone_rename h hp ha).mpr h2.1, fun e => h2.2 ((alone_rename h hq0 ha).mp e)⟩]
        rfl
      · rw [if_neg h2, if_neg (fun g => h2 ⟨(alone_rename h hp ha).mp g.1, fun e => g.2 ((alone_rename h hq0 ha).mpr e)⟩)]
        rfl
    · rw [if_neg h1, if_neg (fun g => h1 ((head_rename h hq0 ha).mp g)), ih fun q hq' => hq q (by simp [hq'])]
      rfl

theorem addParserLed_mem {a : Parser} {p q : Pattern} {qs : List Pattern} (h : q ∈ addParserLed a p qs) : q = p ∨ q ∈ qs := by
  induction qs with
  | nil => simpa [addParserLed] using h
  | cons q0 qs ih =>
    unfold addParserLed at h
    split at h
    · rcases List.mem_cons.mp h with h | h
      · split at h
        · exact .inr (by simp [h])
        · exact .inl h
      · exact .inr (by simp [h])
    · rcases List.mem_cons.mp h with h | h
      · exact .inr (by simp [h])
      · exact (ih h).imp id fun h => by simp [h]

theorem table_rename (h : Renaming f) (ps : List Pattern) (hp : ∀ p ∈ ps, Proper' p.pattern) :
    Table.of (ps.map (Pattern.rename f)) = ⟨(Table.of ps).rows.map (row f), (Table.of ps).parserLed.map (Pattern.rename f)⟩ ∧
    ∀ q ∈ (Table.of ps).parserLed, q ∈ ps := by
  refine snoc_induction (P := fun ps => (∀ p ∈ ps, Proper' p.pattern) →
    Table.of (ps.map (Pattern.rename f)) = ⟨(Table.of ps).rows.map (row f), (Table.of ps).parserLed.map (Pattern.rename f)⟩ ∧
    ∀ q ∈ (Table.of ps).parserLed, q ∈ ps) ?_ ?_ ps hp
  · intro _
    simp [Table.of]
  · intro ps q ih hp
    obtain ⟨h1, h2⟩ := ih fun p hp' => hp p (by simp [hp'])
    have hq := hp q (by simp)
    rw [List.map_append, List.map_singleton, table_snoc, table_snoc, h1]
    cases hh : q.pattern with
    | nil =>
      have : (Pattern.rename f q).pattern = [] := by simp [Pattern.rename, hh]
      simp only [Table.add, hh, this]
      exact ⟨trivial, fun q hq => by simp [h2 q hq]⟩
    | cons tok rest =>
      cases tok with
      | literal l =>
        have : (Pattern.rename f q).pattern = .literal (l.map f) :: rest.map (Token.rename f) := by simp [Pattern.rename, hh, Token.rename]
        simp only [Table.add, hh, this]
        refine ⟨?_, fun q hq => by simp [h2 q hq]⟩
        rw [show (rest.map (Token.rename f)).isEmpty = rest.isEmpty by simp, addLiteralLed_rename h]
      | parser a =>
        have : (Pattern.rename f q).pattern = .parser (Parser.rename f a) :: rest.map (Token.rename f) := by simp [Pattern.rename, hh, Token.rename]
        simp only [Table.add, hh, this]
        refine ⟨?_, fun q' hq' => ?_⟩
        · rw [addParserLed_rename h (hq a (by rw [hh]; simp)) hq fun q' hq' => hp q' (by simp [h2 q' hq'])]
        · rcases addParserLed_mem hq' with rfl | hq'
          · simp
          · simp [h2 q' hq']

theorem commonStart_rename (h : Renaming f) {a b c : Bytes} : CommonStart (a.map f) (b.map f) (c.map f) ↔ CommonStart a b c := by
  constructor
  · rintro ⟨h1, h2, h3⟩
    refine ⟨(prefix_iff h).mp h1, (prefix_iff h).mp h2, fun d g1 g2 => ?_⟩
    simpa using h3 (d.map f) ((prefix_iff h).mpr g1) ((prefix_iff h).mpr g2)
  · rintro ⟨h1, h2, h3⟩
    refine ⟨(prefix_iff h).mpr h1, (prefix_iff h).mpr h2, fun d g1 g2 => ?_⟩
    obtain ⟨e, rfl, he⟩ := prefix_of g1
    simpa using h3 e he ((prefix_iff h).mp g2)

theorem stop_rename (h : Renaming f) {rows : List Row} {b : Bytes} : StopPoint (rows.map (row f)) (b.map f) ↔ StopPoint rows b := by
  constructor
  · rintro (h1 | ⟨_, hr, h1, h2⟩ | ⟨_, hr, _, hs, h1, h2⟩)
    · exact .inl (by simpa using h1)
    · obtain ⟨r, hr', rfl⟩ := List.mem_map.mp hr
      exact .inr (.inl ⟨r, hr', (map_inj h).mp h1, fun e => h2 (by simp [row, e])⟩)
    · obtain ⟨r, hr', rfl⟩ := List.mem_map.mp hr
      obtain ⟨s, hs', rfl⟩ := List.mem_map.mp hs
      exact .inr (.inr ⟨r, hr', s, hs', fun e => h1 (by simp [row, e]), (commonStart_rename h).mp h2⟩)
  · rintro (rfl | ⟨r, hr, rfl, h2⟩ | ⟨r, hr, s, hs, h1, h2⟩)
    · exact .inl rfl
    · exact .inr (.inl ⟨_, List.mem_map.mpr ⟨r, hr, rfl⟩, rfl, by simpa [row] using h2⟩)
    · exact .inr (.inr ⟨_, List.mem_map.mpr ⟨r, hr, rfl⟩, _, List.mem_map.mpr ⟨s, hs, rfl⟩, fun e => h1 ((map_inj h).mp e), (commonStart_rename h).mpr h2⟩)

theorem deepest_rename (h : Renaming f) {rows : List Row} {x b : Bytes} (d : Deepest rows x b) : Deepest (rows.map (row f)) (x.map f) (b.map f) := by
  refine ⟨(stop_rename h).mpr d.1, (prefix_iff h).mpr d.2.1, fun b' h1 h2 => ?_⟩
  obtain ⟨c, rfl, hc⟩ := prefix_of h2
  simpa using d.2.2 c ((stop_rename h).mp h1) hc

theorem answer_rename (h : Renaming f) {T : Table} (hr : ∀ r ∈ T.rows, ∀ p, r.more = some p → Proper' p.pattern) (hq : ∀ q ∈ T.parserLed, Proper' q.pattern)
    {x : Bytes} {r : Option MatchResult} (ha : T.Answer x r) :
    Table.Answer ⟨T.rows.map (row f), T.parserLed.map (Pattern.rename f)⟩ (x.map f) (r.map (MatchResult.rename f)) := by
  constructor
  · intro r' hr' e
    obtain ⟨r0, h0, rfl⟩ := List.mem_map.mp hr'
    rw [ha.1 r0 h0 ((map_inj h).mp e)]
    cases hw : r0.whole <;> simp [row, hw, MatchResult.rename, Pattern.rename]
  · intro hn
    obtain ⟨b, d, p1, p2, p3⟩ := ha.2 fun r0 h0 e => hn _ (List.mem_map_of_mem h0) (by simp [row, e])
    refine ⟨b.map f, deepest_rename h d, ?_, ?_, ?_⟩
    · intro hb
      exact first_rename h hq (p1 (by simpa using hb))
    · intro hb r' hr' e p' hp'
      obtain ⟨r0, h0, rfl⟩ := List.mem_map.mp hr'
      obtain ⟨p, hp, rfl⟩ := Option.map_eq_some_iff.mp hp'
      exact first_rename (ps := [p]) h (by simpa using hr r0 h0 p hp) (p2 (by simpa using hb) r0 h0 ((map_inj h).mp e) p hp)
    · intro hb hm
      rw [p3 (by simpa using hb) fun r0 h0 e => ?_]
      · rfl
      · have := hm _ (List.mem_map_of_mem h0) (by simp [row, e])
        simpa [row] using this

theorem ascii_rename (h : Renaming f) {x : Bytes} (hx : Ascii x) : Ascii (x.map f) := by
  intro c hc
  obtain ⟨b, hb, rfl⟩ := List.mem_map.mp hc
  exact h.ascii b (hx b hb)

theorem literal_rename {p : Pattern} {l : Bytes} (hl : Token.literal l ∈ (Pattern.rename f p).pattern) : ∃ l0, l = l0.map f ∧ Token.literal l0 ∈ p.pattern := by
  obtain ⟨tok, ht, e⟩ := List.mem_map.mp hl
  cases tok with
  | literal l0 =>
    simp [Token.rename] at e
    exact ⟨l0, e.symm, ht⟩
  | parser a => simp [Token.rename] at e

theorem split_rename {p : Pattern} (hs : SplitLiterals p) : SplitLiterals (Pattern.rename f p) := by
  intro l rest e l' e'
  obtain ⟨tok, toks, h1, h2, rfl⟩ := List.map_eq_cons_iff.mp e
  cases tok with
  | parser a => simp [Token.rename] at h2
  | literal l0 =>
    cases toks with
    | nil => simp at e'
    | cons t toks =>
      cases t with
      | parser a => simp [Token.rename] at e'
      | literal l1 => exact hs l0 _ h1 l1 rfl

theorem proper_cons {tok : Token} {toks : List Token} (h : ∀ a, tok = .parser a → Proper a) (ht : Proper' toks) : Proper' (tok :: toks) := by
  intro a ha
  rcases List.mem_cons.mp ha with e | ha
  · exact h a e.symm
  · exact ht a ha

theorem proper_greedy (n e : Option Bytes) (a : Parser) (h : Token.parser (.greedy { name := n, endString := e }) = .parser a) : Proper a := by
  cases h
  trivial

theorem tokens_proper : ∀ es : List Elem, Proper' (tokens es)
  | [] => fun a ha => by simp [tokens] at ha
  | .greedy n :: .literal raw :: es => proper_cons (proper_greedy _ _) (proper_cons (fun a h => by simp at h) (tokens_proper es))
  | [.greedy n] => proper_cons (proper_greedy _ _) (tokens_proper [])
  | .greedy n :: .greedy m :: es => proper_cons (proper_greedy _ _) (tokens_proper (.greedy m :: es))
  | .greedy n :: .int os m :: es => proper_cons (proper_greedy _ _) (tokens_proper (.int os m :: es))
  | .greedy n :: .set cs os m :: es => proper_cons (proper_greedy _ _) (tokens_proper (.set cs os m :: es))
  | .literal raw :: es => proper_cons (fun a h => by simp at h) (tokens_proper es)
  | .int os n :: es => proper_cons (fun a h => by
      cases h
      have : ∀ b ∈ b!"0123456789", 48 ≤ b.toNat ∧ b.toNat ≤ 57 := by decide
      exact fun b hb => this b hb) (tokens_proper es)
  | .set cs os n :: es => proper_cons (fun a h => by cases h; exact bsetFromIter_sorted cs) (tokens_proper es)

end Rename

/-- C135: writing all patterns and a message with other characters changes nothing: the trie gives the same answer, its values written with the new characters
(ASCII patterns and messages, digits kept). -/
theorem C135_trie (sip : Bytes → UInt64) (f : UInt8 → UInt8) (hf : Renaming f) (ps : List Pattern) (ha : ∀ p ∈ ps, AsciiLits p) (hn : ∀ p ∈ ps, NonemptyLits p)
    (hs : ∀ p ∈ ps, SplitLiterals p) (hp : ∀ p ∈ ps, ProperSets p) (hc : NoCollision sip ps) (hc' : NoCollision sip (ps.map (Pattern.rename f)))
    (text : Bytes) (hx : Ascii text) :
    ∃ r, (SuffixTree.build sip ps >>= fun t => t.parse text) = .ok r ∧
      (SuffixTree.build sip (ps.map (Pattern.rename f)) >>= fun t => t.parse (text.map f)) = .ok (r.map (MatchResult.rename f)) := by
  have all : ∀ {Q : Pattern → Prop}, (∀ p ∈ ps, Q (Pattern.rename f p)) → ∀ q ∈ ps.map (Pattern.rename f), Q q := by
    intro Q h q hq
    obtain ⟨p, hp, rfl⟩ := List.mem_map.mp hq
    exact h p hp
  obtain ⟨r, h1, a1⟩ := C65_table_ascii sip ps ha hn hs hc text hx
  obtain ⟨r', h2, a2⟩ := C65_table_ascii sip _ (all fun p hp l hl => by
      obtain ⟨l0, rfl, h0⟩ := Rename.literal_rename hl
      exact Rename.ascii_rename hf (ha p hp l0 h0)) (all fun p hp l hl => by
      obtain ⟨l0, rfl, h0⟩ := Rename.literal_rename hl
      simpa using hn p hp l0 h0) (all fun p hp => Rename.split_rename (hs p hp)) hc' (text.map f) (Rename.ascii_rename hf hx)
  refine ⟨r, h1, ?_⟩
  obtain ⟨e1, e2⟩ := Rename.table_rename hf ps fun p hp' => Rename.proper (hp p hp')
  rw [e1] at a2
  rw [h2, C65_answer_unique _ _ _ _ a2 (Rename.answer_rename hf (fun row hrow p hp' => Rename.proper (hp p (table_mem ps row hrow p hp')))
    (fun q hq => Rename.proper (hp q (e2 q hq))) a1)]

/-- C135 for patterns compiled from ASCII strings: no condition on the patterns is needed. -/
theorem C135_compiled (sip : Bytes → UInt64) (f : UInt8 → UInt8) (hf : Renaming f) (ps : List Pattern) (hp : ∀ p ∈ ps, CompiledAscii p)
    (hc : NoCollision sip ps) (hc' : NoCollision sip (ps.map (Pattern.rename f))) (text : Bytes) (hx : Ascii text) :
    ∃ r, (SuffixTree.build sip ps >>= fun t => t.parse text) = .ok r ∧
      (SuffixTree.build sip (ps.map (Pattern.rename f)) >>= fun t => t.parse (text.map f)) = .ok (r.map (MatchResult.rename f)) := by
  refine C135_trie sip f hf ps (fun p h => (compiledAscii_lits (hp p h)).1) (fun p h => (compiledAscii_lits (hp p h)).2.1)
    (fun p h => (compiledAscii_lits (hp p h)).2.2) (fun p h => ?_) hc hc' text hx
  obtain ⟨s, hs, e⟩ := hp p h
  obtain ⟨es, -, -, e'⟩ := (compile_ok_iff (ascii_utf8 hs)).mp e
  have := Rename.tokens_proper es
  rw [e'] at this
  exact ⟨fun a h => this _ h, fun a h => this _ h⟩

/-- The characters `a` and `c` exchanged. -/
def swapAC (b : UInt8) : UInt8 := if b = 97 then 99 else if b = 99 then 97 else b

theorem swapAC_renaming : Renaming swapAC := by
  refine ⟨?_, ?_, ?_⟩
  · intro b c
    unfold swapAC
    repeat' split
    all_goals first | (intro e; simp_all; done) | (intro e; subst_vars; first | rfl | exact absurd e (by decide))
  · intro b hb
    unfold swapAC
    repeat' split
    · decide
    · decide
    · exact hb
  · intro b hb
    unfold swapAC
    rw [if_neg, if_neg]
    · rintro rfl
      exact absurd hb.2 (by decide)
    · rintro rfl
      exact absurd hb.2 (by decide)

/-- C135 does not hold for the suffix array: of the patterns `aa%{SET("b"):x}` and `ac%{SET("b"):y}` it takes the first for `ab`, with `a` and `c` exchanged the second. -/
theorem C135_suffix_array : ∃ (ps : List Pattern) (text : Bytes) (r r' : MatchResult),
    (SuffixTable.build Samples.sip ps >>= fun t => t.parse text) = .ok (some r) ∧
    (SuffixTable.build Samples.sip (ps.map (Pattern.rename swapAC)) >>= fun t => t.parse (text.map swapAC)) = .ok (some r') ∧
    r.pattern.uuid ≠ r'.pattern.uuid :=
  ⟨[Samples.pat 1 [.literal b!"aa", .parser (Samples.set b!"x" b!"b")], Samples.pat 2 [.literal b!"ac", .parser (Samples.set b!"y" b!"b")]], b!"ab",
    ⟨Samples.pat 1 [], [(b!"x", b!"b")]⟩, ⟨Samples.pat 2 [], [(b!"y", b!"b")]⟩, by decide +kernel, by decide +kernel, by decide⟩

/-- C135, why digits have to be kept: with `1` and `a` exchanged, `%{INT:x}` still answers `1` and not `a`. -/
theorem C135_digits : ∃ (f : UInt8 → UInt8) (r : MatchResult), (∀ b c, f b = f c → b = c) ∧
    (SuffixTree.build Samples.sip [Samples.pat 1 [.parser (Samples.int b!"x")]] >>= fun t => t.parse b!"1") = .ok (some r) ∧
    (SuffixTree.build Samples.sip ([Samples.pat 1 [.parser (Samples.int b!"x")]].map (Pattern.rename f)) >>= fun t => t.parse (b!"1".map f)) = .ok none := by
  refine ⟨fun b => if b = 49 then 97 else if b = 97 then 49 else b, ⟨Samples.pat 1 [], [(b!"x", b!"1")]⟩, ?_, by decide +kernel, by decide +kernel⟩
  intro b c
  simp only
  repeat' split
  all_goals first | (intro e; simp_all; done) | (intro e; subst_vars; first | rfl | exact absurd e (by decide))

end Verif
