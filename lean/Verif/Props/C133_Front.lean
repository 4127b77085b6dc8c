import Verif.Spec.Front
import Verif.Spec.SuffixPanics
import Verif.Spec.Samples
import Verif.Props.C79_Change
import Verif.Props.C73_C74_SuffixAnswer
import Verif.Proofs.Replace
import Verif.Props.C131_Looser
/-! C133: the same text in front of all patterns and messages. -/
namespace Verif
open Spec

namespace Front
open Loose (FirstBy)

theorem pattern_eq {P : Bytes} {p : Pattern} {l : Bytes} {rest : List Token} (h : p.pattern = .literal l :: rest) :
    (front P p).pattern = .literal (P ++ l) :: rest := by simp [front, h]

theorem strip_eq (P : Bytes) (p : Pattern) : ({ front P p with pattern := [] } : Pattern) = { p with pattern := [] } := rfl

theorem isResult_front {P : Bytes} {p : Pattern} {r : MatchResult} {caps : List (Parser × Bytes)} : IsResult r (front P p) caps ↔ IsResult r p caps := by
  unfold IsResult
  rw [strip_eq]

theorem led {ps : List Pattern} (h : ∀ p ∈ ps, StartsLiteral p) (sip : Bytes → UInt64) : NoCollision sip ps := by
  rintro a b ⟨p, hp, e⟩
  obtain ⟨l, rest, e'⟩ := h p hp
  simp [e'] at e

theorem front_led {P : Bytes} {ps : List Pattern} (h : ∀ p ∈ ps, StartsLiteral p) : ∀ p ∈ ps.map (front P), StartsLiteral p := by
  intro q hq
  obtain ⟨p, hp, rfl⟩ := List.mem_map.mp hq
  obtain ⟨l, rest, e⟩ := h p hp
  exact ⟨P ++ l, rest, pattern_eq e⟩

theorem front_utf8 {P : Bytes} (hP : Utf8 P) {p : Pattern} (hl : StartsLiteral p) (h : Utf8Lits p) : Utf8Lits (front P p) := by
  obtain ⟨l, rest, e⟩ := hl
  intro l' h'
  rw [pattern_eq e] at h'
  rcases List.mem_cons.mp h' with h' | h'
  · simp at h'
    rw [h']
    exact utf8_append hP (h l (by simp [e]))
  · exact h l' (by simp [e, h'])

theorem front_nonempty {P : Bytes} {p : Pattern} (hl : StartsLiteral p) (h : NonemptyLits p) : NonemptyLits (front P p) := by
  obtain ⟨l, rest, e⟩ := hl
  intro l' h'
  rw [pattern_eq e] at h'
  rcases List.mem_cons.mp h' with h' | h'
  · simp at h'
    have := h l (by simp [e])
    simp [h', this]
  · exact h l' (by simp [e, h'])

theorem front_split {P : Bytes} {p : Pattern} (hl : StartsLiteral p) (h : SplitLiterals p) : SplitLiterals (front P p) := by
  obtain ⟨l, rest, e⟩ := hl
  intro l' rest' h' l''
  rw [pattern_eq e] at h'
  simp at h'
  rw [← h'.2]
  exact h l rest e l''

theorem front_ascii {P : Bytes} (hP : Ascii P) {p : Pattern} (hl : StartsLiteral p) (h : AsciiLits p) : AsciiLits (front P p) := by
  obtain ⟨l, rest, e⟩ := hl
  intro l' h'
  rw [pattern_eq e] at h'
  rcases List.mem_cons.mp h' with h' | h'
  · simp at h'
    rw [h']
    intro c hc
    rcases List.mem_append.mp hc with hc | hc
    · exact hP c hc
    · exact h l (by simp [e]) c hc
  · exact h l' (by simp [e, h'])

/-! ### Matching -/

theorem strict_front {P l x : Bytes} {rest : List Token} {caps : List (Parser × Bytes)} :
    MatchesStrict (.literal (P ++ l) :: rest) (P ++ x) caps ↔ MatchesStrict (.literal l :: rest) x caps := by
  constructor
  · intro h
    generalize hy : P ++ x = y at h
    cases h with
    | literal _ _ z _ h1 h2 =>
      rw [List.append_assoc] at hy
      rw [List.append_cancel_left hy]
      exact .literal l rest z caps h1 h2
  · intro h
    cases h with
    | literal _ _ z _ h1 h2 =>
      rw [← List.append_assoc]
      exact .literal _ rest z caps h1 h2

theorem lcp_front {P : Bytes} (hP : Utf8 P) {a b c' : Bytes} :
    LongestCommonPrefix (P ++ a) (P ++ b) c' ↔ ∃ c, c' = P ++ c ∧ LongestCommonPrefix a b c := by
  constructor
  · rintro ⟨h1, h2, h3, h4⟩
    have h5 := h4 P hP (List.prefix_append _ _) (List.prefix_append _ _)
    obtain ⟨c, rfl⟩ := prefix_total (List.prefix_append P a) h2 h5
    refine ⟨c, rfl, utf8_cancel hP h1, (List.prefix_append_right_inj P).mp h2, (List.prefix_append_right_inj P).mp h3, fun d g1 g2 g3 => ?_⟩
    have := h4 (P ++ d) (utf8_append hP g1) ((List.prefix_append_right_inj P).mpr g2) ((List.prefix_append_right_inj P).mpr g3)
    simpa using this
  · rintro ⟨c, rfl, h1, h2, h3, h4⟩
    refine ⟨utf8_append hP h1, (List.prefix_append_right_inj P).mpr h2, (List.prefix_append_right_inj P).mpr h3, fun d g1 g2 g3 => ?_⟩
    by_cases hl : P.length ≤ d.length
    · obtain ⟨e, rfl⟩ := prefix_total (List.prefix_append P a) g2 hl
      have := h4 e (utf8_cancel hP g1) ((List.prefix_append_right_inj P).mp g2) ((List.prefix_append_right_inj P).mp g3)
      simpa using this
    · simp; omega

theorem loose_front {P l x : Bytes} (hP : Utf8 P) {rest : List Token} {caps : List (Parser × Bytes)} :
    LooseMatches (.literal (P ++ l) :: rest) (P ++ x) caps ↔ LooseMatches (.literal l :: rest) x caps := by
  constructor
  · intro h
    generalize hy : P ++ x = y at h
    cases h with
    | last _ _ h => subst hy; exact .last l x ((List.prefix_append_right_inj P).mp h)
    | literal _ c z _ _ h1 h2 h3 h4 =>
      rw [← hy] at h2
      obtain ⟨d, rfl, hd⟩ := (lcp_front hP).mp h2
      rw [List.append_assoc] at hy
      have := List.append_cancel_left hy
      subst this
      exact .literal l d z rest caps h1 hd h3 h4
  · intro h
    cases h with
    | last _ _ h => exact .last _ _ ((List.prefix_append_right_inj P).mpr h)
    | literal _ c z _ _ h1 h2 h3 h4 =>
      rw [← List.append_assoc]
      exact .literal _ (P ++ c) z rest caps h1 (by rw [List.append_assoc]; exact (lcp_front hP).mpr ⟨c, rfl, h2⟩) h3 h4

theorem trouble_front {P l x : Bytes} (hP : Utf8 P) {rest : List Token} :
    LooseTrouble (.literal (P ++ l) :: rest) (P ++ x) ↔ LooseTrouble (.literal l :: rest) x := by
  constructor
  · intro h
    generalize hy : P ++ x = y at h
    cases h with
    | literal _ c z _ h1 h2 h3 h4 =>
      rw [← hy] at h2
      obtain ⟨d, rfl, hd⟩ := (lcp_front hP).mp h2
      rw [List.append_assoc] at hy
      have := List.append_cancel_left hy
      subst this
      exact .literal l d z rest h1 hd h3 h4
  · intro h
    cases h with
    | literal _ c z _ h1 h2 h3 h4 =>
      rw [← List.append_assoc]
      exact .literal _ (P ++ c) z rest h1 (by rw [List.append_assoc]; exact (lcp_front hP).mpr ⟨c, rfl, h2⟩) h3 h4

theorem first_front {M : List Token → Bytes → List (Parser × Bytes) → Prop} {P x : Bytes} {p : Pattern}
    (hM : ∀ caps, M (front P p).pattern (P ++ x) caps ↔ M p.pattern x caps) {r : Option MatchResult} (h : FirstBy M [p] x r) :
    FirstBy M [front P p] (P ++ x) r := by
  constructor
  · intro A q B caps e hA hq
    cases A with
    | nil =>
      simp at e
      obtain ⟨rfl, rfl⟩ := e
      obtain ⟨res, h1, h2⟩ := h.1 [] p [] caps rfl (by simp) ((hM caps).mp hq)
      exact ⟨res, h1, isResult_front.mpr h2⟩
    | cons a A => simp at e
  · intro hn
    refine h.2 fun q hq => ?_
    rw [List.mem_singleton.mp hq]
    rintro ⟨caps, hc⟩
    exact hn (front P p) (by simp) ⟨caps, (hM caps).mpr hc⟩

/-! ### The trie -/

def frontRow (P : Bytes) (r : Row) : Row := ⟨P ++ r.text, r.whole.map (front P), r.more.map (front P)⟩

theorem rowOf_front (P : Bytes) (rows : List Row) (l : Bytes) : rowOf (rows.map (frontRow P)) (P ++ l) = frontRow P (rowOf rows l) := by
  unfold rowOf
  rw [List.find?_map]
  have : ((fun r : Row => decide (r.text = P ++ l)) ∘ frontRow P) = fun r : Row => decide (r.text = l) := by
    funext r
    simp [frontRow]
  rw [this]
  cases rows.find? fun r => decide (r.text = l) <;> simp [frontRow]

theorem extended_front (P : Bytes) (rows : List Row) (l : Bytes) : Extended (rows.map (frontRow P)) (P ++ l) ↔ Extended rows l := by
  unfold Extended
  constructor
  · rintro ⟨_, hr, h1, h2⟩
    obtain ⟨r, hr', rfl⟩ := List.mem_map.mp hr
    exact ⟨r, hr', (List.prefix_append_right_inj P).mp h1, fun e => h2 (by simp [frontRow, e])⟩
  · rintro ⟨r, hr, h1, h2⟩
    exact ⟨_, List.mem_map.mpr ⟨r, hr, rfl⟩, (List.prefix_append_right_inj P).mpr h1, fun e => h2 (List.append_cancel_left e)⟩

theorem addLiteralLed_front (P : Bytes) (rows : List Row) (l : Bytes) (alone : Bool) (p : Pattern) :
    addLiteralLed (rows.map (frontRow P)) (P ++ l) alone (front P p) = (addLiteralLed rows l alone p).map (frontRow P) := by
  have f1 : ((fun r : Row => decide (r.text ≠ P ++ l)) ∘ frontRow P) = fun r : Row => decide (r.text ≠ l) := by
    funext r
    simp [frontRow]
  have f2 : ((fun r : Row => decide (¬ P ++ l <+: r.text)) ∘ frontRow P) = fun r : Row => decide (¬ l <+: r.text) := by
    funext r
    simp [frontRow, List.prefix_append_right_inj]
  have hm : (rowOf (rows.map (frontRow P)) (P ++ l)).more = none ↔ (rowOf rows l).more = none := by
    rw [rowOf_front]
    simp [frontRow]
  unfold addLiteralLed
  by_cases ha : alone = true
  · rw [if_pos ha, if_pos ha, List.filter_map, f1, rowOf_front]
    simp [frontRow]
  · rw [if_neg ha, if_neg ha]
    by_cases hc : (rowOf rows l).more = none ∧ Extended rows l
    · rw [if_pos hc, if_pos ⟨hm.mpr hc.1, (extended_front P rows l).mpr hc.2⟩, List.filter_map, f1, rowOf_front]
      simp
    · rw [if_neg hc, if_neg (fun h => hc ⟨hm.mp h.1, (extended_front P rows l).mp h.2⟩), List.filter_map, f2, rowOf_front]
      simp [frontRow]

theorem table_front (P : Bytes) (ps : List Pattern) (h : ∀ p ∈ ps, StartsLiteral p) :
    Table.of (ps.map (front P)) = ⟨(Table.of ps).rows.map (frontRow P), []⟩ ∧ (Table.of ps).parserLed = [] := by
  refine snoc_induction (P := fun ps => (∀ p ∈ ps, StartsLiteral p) →
    Table.of (ps.map (front P)) = ⟨(Table.of ps).rows.map (frontRow P), []⟩ ∧ (Table.of ps).parserLed = []) ?_ ?_ ps h
  · intro _
    simp [Table.of]
  · intro ps q ih h
    obtain ⟨h1, h2⟩ := ih fun p hp => h p (by simp [hp])
    obtain ⟨l, rest, e⟩ := h q (by simp)
    rw [List.map_append, List.map_singleton, table_snoc, table_snoc, h1]
    simp only [Table.add, e, pattern_eq e, addLiteralLed_front, h2, and_self]

theorem commonStart_front {P a b c' : Bytes} : CommonStart (P ++ a) (P ++ b) c' ↔ ∃ c, c' = P ++ c ∧ CommonStart a b c := by
  constructor
  · rintro ⟨h2, h3, h4⟩
    have h5 := h4 P (List.prefix_append _ _) (List.prefix_append _ _)
    obtain ⟨c, rfl⟩ := prefix_total (List.prefix_append P a) h2 h5
    refine ⟨c, rfl, (List.prefix_append_right_inj P).mp h2, (List.prefix_append_right_inj P).mp h3, fun d g2 g3 => ?_⟩
    have := h4 (P ++ d) ((List.prefix_append_right_inj P).mpr g2) ((List.prefix_append_right_inj P).mpr g3)
    simpa using this
  · rintro ⟨c, rfl, h2, h3, h4⟩
    refine ⟨(List.prefix_append_right_inj P).mpr h2, (List.prefix_append_right_inj P).mpr h3, fun d g2 g3 => ?_⟩
    by_cases hl : P.length ≤ d.length
    · obtain ⟨e, rfl⟩ := prefix_total (List.prefix_append P a) g2 hl
      have := h4 e ((List.prefix_append_right_inj P).mp g2) ((List.prefix_append_right_inj P).mp g3)
      simpa using this
    · simp; omega

theorem stop_front {P : Bytes} {rows : List Row} {b' : Bytes} (h : StopPoint (rows.map (frontRow P)) b') :
    b' = [] ∨ ∃ b, b' = P ++ b ∧ StopPoint rows b := by
  rcases h with rfl | ⟨_, hr, h1, h2⟩ | ⟨_, hr, _, hs, h1, h2⟩
  · exact .inl rfl
  · obtain ⟨r, hr', rfl⟩ := List.mem_map.mp hr
    exact .inr ⟨r.text, h1.symm, .inr (.inl ⟨r, hr', rfl, fun e => h2 (by simp [frontRow, e])⟩)⟩
  · obtain ⟨r, hr', rfl⟩ := List.mem_map.mp hr
    obtain ⟨s, hs', rfl⟩ := List.mem_map.mp hs
    obtain ⟨c, rfl, hc⟩ := commonStart_front.mp h2
    exact .inr ⟨c, rfl, .inr (.inr ⟨r, hr', s, hs', fun e => h1 (by simp [frontRow, e]), hc⟩)⟩

theorem stop_front' {P : Bytes} {rows : List Row} {b : Bytes} (hb : b ≠ []) (h : StopPoint rows b) : StopPoint (rows.map (frontRow P)) (P ++ b) := by
  rcases h with h | ⟨r, hr, rfl, h2⟩ | ⟨r, hr, s, hs, h1, h2⟩
  · exact absurd h hb
  · exact .inr (.inl ⟨_, List.mem_map.mpr ⟨r, hr, rfl⟩, rfl, by simpa [frontRow] using h2⟩)
  · exact .inr (.inr ⟨_, List.mem_map.mpr ⟨r, hr, rfl⟩, _, List.mem_map.mpr ⟨s, hs, rfl⟩, fun e => h1 (List.append_cancel_left e),
      commonStart_front.mpr ⟨b, rfl, h2⟩⟩)

theorem answer_front {P : Bytes} {rows : List Row} (hne : ∀ r ∈ rows, r.text ≠ []) (hl : ∀ r ∈ rows, ∀ p, r.more = some p → StartsLiteral p)
    {x : Bytes} {r r' : Option MatchResult} (h : Table.Answer ⟨rows, []⟩ x r) (h' : Table.Answer ⟨rows.map (frontRow P), []⟩ (P ++ x) r') : r' = r := by
  have noparser : ∀ {y : Bytes} {r : Option MatchResult}, FirstAnswer [] y r → r = none := fun h => h.2 (by simp)
  by_cases hrow : ∃ row ∈ rows, row.text = x
  · obtain ⟨row, g1, g2⟩ := hrow
    rw [h.1 row g1 g2, h'.1 (frontRow P row) (List.mem_map.mpr ⟨row, g1, rfl⟩) (by simp [frontRow, g2])]
    cases hw : row.whole <;> simp [frontRow, hw, strip_eq]
  · obtain ⟨b, d, p1, p2, p3⟩ := h.2 fun row g1 g2 => hrow ⟨row, g1, g2⟩
    obtain ⟨b', d', q1, q2, q3⟩ := h'.2 (by
      intro _ hr e
      obtain ⟨row, g1, rfl⟩ := List.mem_map.mp hr
      exact hrow ⟨row, g1, List.append_cancel_left e⟩)
    by_cases hb : b = []
    · rw [noparser (p1 hb)]
      by_cases hb' : b' = []
      · exact noparser (q1 hb')
      · rcases stop_front d'.1 with h1 | ⟨b0, rfl, h1⟩
        · exact absurd h1 hb'
        · have h2 := d.2.2 b0 h1 ((List.prefix_append_right_inj P).mp d'.2.1)
          rw [hb] at h2
          have : b0 = [] := List.length_eq_zero_iff.mp (by simpa using h2)
          subst this
          refine q3 hb' fun _ hr e => ?_
          obtain ⟨row, g1, rfl⟩ := List.mem_map.mp hr
          exact absurd (List.append_cancel_left e) (hne row g1)
    · have hb' : b' = P ++ b := by
        have h1 := d'.2.2 (P ++ b) (stop_front' hb d.1) ((List.prefix_append_right_inj P).mpr d.2.1)
        have hpos := List.length_pos_iff.mpr hb
        rcases stop_front d'.1 with h2 | ⟨b0, rfl, h2⟩
        · rw [h2] at h1
          simp at h1
          exact absurd h1.2 hb
        · have h3 := d.2.2 b0 h2 ((List.prefix_append_right_inj P).mp d'.2.1)
          have h4 : b.length ≤ b0.length := by simpa using h1
          rw [prefix_eq (prefix_total ((List.prefix_append_right_inj P).mp d'.2.1) d.2.1 h3) h4]
      subst hb'
      have hbn : P ++ b ≠ [] := by simp [hb]
      by_cases hm : ∃ row ∈ rows, row.text = b ∧ row.more ≠ none
      · obtain ⟨row, g1, g2, g3⟩ := hm
        cases hp : row.more with
        | none => exact absurd hp g3
        | some p =>
          obtain ⟨l, rest, e⟩ := hl row g1 p hp
          have h1 := p2 hb row g1 g2 p hp
          have h2 := q2 hbn (frontRow P row) (List.mem_map.mpr ⟨row, g1, rfl⟩) (by simp [frontRow, g2]) (front P p) (by simp [frontRow, hp])
          exact firstAnswer_unique h2 (first_front (M := MatchesStrict) (fun caps => by rw [pattern_eq e, e]; exact strict_front) h1)
      · have n1 : ∀ row ∈ rows, row.text = b → row.more = none := by
          intro row g1 g2
          cases hp : row.more with
          | none => rfl
          | some p => exact absurd ⟨row, g1, g2, by simp [hp]⟩ hm
        rw [p3 hb n1, q3 hbn]
        intro _ hr e
        obtain ⟨row, g1, rfl⟩ := List.mem_map.mp hr
        simp [frontRow, n1 row g1 (List.append_cancel_left e)]

/-! ### The suffix array -/

theorem leads_front {P : Bytes} {ps : List Pattern} (h : ∀ p ∈ ps, StartsLiteral p) (l' : Bytes) :
    Leads (ps.map (front P)) l' ↔ ∃ l, l' = P ++ l ∧ Leads ps l := by
  constructor
  · rintro ⟨_, hq, e⟩
    obtain ⟨p, hp, rfl⟩ := List.mem_map.mp hq
    obtain ⟨l, rest, e'⟩ := h p hp
    rw [pattern_eq e'] at e
    simp at e
    exact ⟨l, e.symm, p, hp, by simp [e']⟩
  · rintro ⟨l, rfl, p, hp, e⟩
    obtain ⟨l0, rest, e'⟩ := h p hp
    rw [e'] at e
    simp at e
    exact ⟨_, List.mem_map.mpr ⟨p, hp, rfl⟩, by simp [pattern_eq e', e]⟩

theorem nearer_front {P x l l' : Bytes} (hP : Utf8 P) : Nearer (P ++ x) (P ++ l) (P ++ l') ↔ Nearer x l l' := by
  constructor
  · intro h c c' h1 h2
    have := h (P ++ c) (P ++ c') ((lcp_front hP).mpr ⟨c, rfl, h1⟩) ((lcp_front hP).mpr ⟨c', rfl, h2⟩)
    simpa using this
  · intro h c c' h1 h2
    obtain ⟨d, rfl, h3⟩ := (lcp_front hP).mp h1
    obtain ⟨d', rfl, h4⟩ := (lcp_front hP).mp h2
    simpa using h d d' h3 h4

theorem before_front {P a b : Bytes} : Before (P ++ a) (P ++ b) ↔ Before a b := by
  induction P with
  | nil => rfl
  | cons c P ih =>
    rw [← ih]
    unfold Before
    constructor
    · intro h
      cases h with
      | rel h => omega
      | cons h => exact h
    · exact fun h => .cons h

theorem chosen_front {P x l : Bytes} (hP : Utf8 P) {ps : List Pattern} (h : ∀ p ∈ ps, StartsLiteral p) :
    Chosen (ps.map (front P)) (P ++ x) (P ++ l) ↔ Chosen ps x l := by
  have hl : ∀ l, Leads (ps.map (front P)) (P ++ l) ↔ Leads ps l := by
    intro l
    rw [leads_front h]
    exact ⟨fun ⟨m, e, hm⟩ => by rw [List.append_cancel_left e]; exact hm, fun hl => ⟨l, rfl, hl⟩⟩
  unfold Chosen
  rw [hl, hl]
  have e1 : (P ++ l = P ++ x) ↔ l = x := ⟨List.append_cancel_left, fun e => by rw [e]⟩
  rw [e1]
  constructor
  · rintro ⟨h1, h2 | ⟨h2, h3⟩⟩
    · exact ⟨h1, .inl h2⟩
    · refine ⟨h1, .inr ⟨h2, fun l' hl' hne => ?_⟩⟩
      have := h3 (P ++ l') ((hl l').mpr hl') (fun e => hne (List.append_cancel_left e))
      simpa only [nearer_front hP, before_front] using this
  · rintro ⟨h1, h2 | ⟨h2, h3⟩⟩
    · exact ⟨h1, .inl h2⟩
    · refine ⟨h1, .inr ⟨h2, fun l' hl' hne => ?_⟩⟩
      obtain ⟨m, rfl, hm⟩ := (leads_front h l').mp hl'
      have := h3 m hm (fun e => hne (by rw [e]))
      simpa only [nearer_front hP, before_front] using this

theorem lastWith_front {P : Bytes} {ps : List Pattern} {Q Q' : List Token → Prop} (hQ : ∀ p ∈ ps, Q' (front P p).pattern ↔ Q p.pattern) {q : Pattern}
    (h : LastWith (ps.map (front P)) Q' q) : ∃ p ∈ ps, q = front P p ∧ LastWith ps Q p := by
  obtain ⟨A', B', e, h1, h2⟩ := h
  obtain ⟨A, C, rfl, rfl, h3⟩ := List.map_eq_append_iff.mp e
  obtain ⟨p, B, rfl, rfl, rfl⟩ := List.map_eq_cons_iff.mp h3
  refine ⟨p, by simp, rfl, A, B, rfl, (hQ p (by simp)).mp h1, fun b hb hq => ?_⟩
  exact h2 (front P b) (List.mem_map.mpr ⟨b, hb, rfl⟩) ((hQ b (by simp [hb])).mpr hq)

theorem lastWith_front' {P : Bytes} {ps : List Pattern} {Q Q' : List Token → Prop} (hQ : ∀ p ∈ ps, Q' (front P p).pattern ↔ Q p.pattern) {p : Pattern}
    (h : LastWith ps Q p) : LastWith (ps.map (front P)) Q' (front P p) := by
  obtain ⟨A, B, rfl, h1, h2⟩ := h
  refine ⟨A.map (front P), B.map (front P), by simp, (hQ p (by simp)).mpr h1, fun q hq => ?_⟩
  obtain ⟨b, hb, rfl⟩ := List.mem_map.mp hq
  exact fun hq => h2 b hb ((hQ b (by simp [hb])).mp hq)

theorem alone_front {P l : Bytes} {p : Pattern} (h : StartsLiteral p) : (front P p).pattern = [.literal (P ++ l)] ↔ p.pattern = [.literal l] := by
  obtain ⟨l0, rest, e⟩ := h
  rw [pattern_eq e, e]
  simp

theorem goesOn_front {P l : Bytes} {p : Pattern} (h : StartsLiteral p) :
    (∃ rest, rest ≠ [] ∧ (front P p).pattern = .literal (P ++ l) :: rest) ↔ ∃ rest, rest ≠ [] ∧ p.pattern = .literal l :: rest := by
  obtain ⟨l0, rest, e⟩ := h
  rw [pattern_eq e, e]
  simp

theorem suffixAnswer_front {P : Bytes} (hP : Utf8 P) {ps : List Pattern} (h : ∀ p ∈ ps, StartsLiteral p) {x : Bytes} {r : Option MatchResult}
    (ha : SuffixAnswer ps x r) : SuffixAnswer (ps.map (front P)) (P ++ x) r := by
  constructor
  · intro hn
    rw [(table_front P ps h).1]
    have h1 := ha.1 fun l hl => hn (P ++ l) ((leads_front h _).mpr ⟨l, rfl, hl⟩)
    rw [(table_front P ps h).2] at h1
    have : r = none := h1.2 (by simp)
    subst this
    exact ⟨fun A p B caps e => by simp at e, fun _ => rfl⟩
  · intro l' hc
    obtain ⟨l, rfl, -⟩ := (leads_front h l').mp hc.1
    obtain ⟨h1, h2⟩ := ha.2 l ((chosen_front hP h).mp hc)
    rw [List.prefix_append_right_inj]
    refine ⟨fun hp => ?_, fun hp => ?_⟩
    · obtain ⟨h3, h4⟩ := h1 hp
      refine ⟨fun q hq => ?_, fun hn => h4 fun p hp e => hn (front P p) (List.mem_map.mpr ⟨p, hp, rfl⟩) ((alone_front (h p hp)).mpr e)⟩
      obtain ⟨p, hp, rfl, hw⟩ := lastWith_front (Q := (· = [.literal l])) (fun p hp => alone_front (h p hp)) hq
      exact h3 p hw
    · obtain ⟨h3, h4⟩ := h2 hp
      refine ⟨fun q hq => ?_, fun hn => h4 fun p hp rest hne e => hn (front P p) (List.mem_map.mpr ⟨p, hp, rfl⟩) rest hne (pattern_eq e)⟩
      obtain ⟨p, hp, rfl, hw⟩ := lastWith_front (Q := fun toks => ∃ rest, rest ≠ [] ∧ toks = .literal l :: rest) (fun p hp => goesOn_front (h p hp)) hq
      obtain ⟨l0, rest, e⟩ := h p hp
      exact first_front (M := LooseMatches) (fun caps => by rw [pattern_eq e, e]; exact loose_front hP) (h3 p hw)

theorem suffixTrouble_front {P : Bytes} (hP : Utf8 P) {ps : List Pattern} (h : ∀ p ∈ ps, StartsLiteral p) {x : Bytes} :
    SuffixTrouble (ps.map (front P)) (P ++ x) ↔ SuffixTrouble ps x := by
  have no : ∀ y, ¬ FirstLooseTrouble [] y := by
    rintro y ⟨A, p, B, e, -⟩
    simp at e
  unfold SuffixTrouble
  rw [(table_front P ps h).1, (table_front P ps h).2]
  constructor
  · rintro (⟨-, h1⟩ | ⟨l', hc, h1, q, hq, h2⟩)
    · exact absurd h1 (no _)
    · obtain ⟨l, rfl, -⟩ := (leads_front h l').mp hc.1
      obtain ⟨p, hp, rfl, hw⟩ := lastWith_front (Q := fun toks => ∃ rest, rest ≠ [] ∧ toks = .literal l :: rest) (fun p hp => goesOn_front (h p hp)) hq
      obtain ⟨l0, rest, e⟩ := h p hp
      rw [pattern_eq e, trouble_front hP, ← e] at h2
      exact .inr ⟨l, (chosen_front hP h).mp hc, fun hx => h1 ((List.prefix_append_right_inj P).mpr hx), p, hw, h2⟩
  · rintro (⟨-, h1⟩ | ⟨l, hc, h1, p, hw, h2⟩)
    · exact absurd h1 (no _)
    · have hp : p ∈ ps := by obtain ⟨A, B, e, -⟩ := hw; rw [e]; simp
      obtain ⟨l0, rest, e⟩ := h p hp
      refine .inr ⟨P ++ l, (chosen_front hP h).mpr hc, fun hx => h1 ((List.prefix_append_right_inj P).mp hx), front P p,
        lastWith_front' (fun p hp => goesOn_front (h p hp)) hw, ?_⟩
      rw [pattern_eq e, trouble_front hP, ← e]
      exact h2

end Front

/-- C133: if all patterns of a trie begin with literals, putting the same text in front of all of them, and of the messages, changes no answer. -/
theorem C133_trie (sip : Bytes → UInt64) (ps : List Pattern) (hl : ∀ p ∈ ps, StartsLiteral p) (hu : ∀ p ∈ ps, Utf8Lits p) (hn : ∀ p ∈ ps, NonemptyLits p)
    (hs : ∀ p ∈ ps, SplitLiterals p) (P : Bytes) (hP : Utf8 P) (text : Bytes) (hx : Utf8 text) (r r' : Option MatchResult)
    (hr : (SuffixTree.build sip ps >>= fun t => t.parse text) = .ok r)
    (hr' : (SuffixTree.build sip (ps.map (front P)) >>= fun t => t.parse (P ++ text)) = .ok r') : r' = r := by
  cases hb : SuffixTree.build sip ps with
  | error e => rw [hb] at hr; simp [bind, Except.bind] at hr
  | ok t =>
    cases hb' : SuffixTree.build sip (ps.map (front P)) with
    | error e => rw [hb'] at hr'; simp [bind, Except.bind] at hr'
    | ok t' =>
      rw [hb] at hr
      rw [hb'] at hr'
      have all : ∀ {Q : Pattern → Prop}, (∀ p ∈ ps, Q (front P p)) → ∀ q ∈ ps.map (front P), Q q := by
        intro Q h q hq
        obtain ⟨p, hp, rfl⟩ := List.mem_map.mp hq
        exact h p hp
      have a1 := C65_table sip ps hu hn hs (Front.led hl sip) t hb text hx _ hr
      have a2 := C65_table sip _ (all fun p hp => Front.front_utf8 hP (hl p hp) (hu p hp)) (all fun p hp => Front.front_nonempty (hl p hp) (hn p hp))
        (all fun p hp => Front.front_split (hl p hp) (hs p hp)) (Front.led (Front.front_led hl) sip) t' hb' (P ++ text) (utf8_append hP hx) _ hr'
      obtain ⟨e1, e2⟩ := Front.table_front P ps hl
      rw [e1] at a2
      have e3 : Table.of ps = ⟨(Table.of ps).rows, []⟩ := by rw [← e2]
      rw [e3] at a1
      refine Front.answer_front ?_ ?_ a1 a2
      · intro row hrow
        obtain ⟨p, hp, e⟩ := table_texts ps row hrow
        obtain ⟨l, rest, e'⟩ := hl p hp
        rw [e'] at e
        simp at e
        rw [← e]
        exact hn p hp l (by simp [e'])
      · intro row hrow p hp
        exact hl p (table_mem ps row hrow p hp)

/-- C133 for ASCII patterns and messages, where nothing panics. -/
theorem C133_ascii (sip : Bytes → UInt64) (ps : List Pattern) (hl : ∀ p ∈ ps, StartsLiteral p) (ha : ∀ p ∈ ps, AsciiLits p) (hn : ∀ p ∈ ps, NonemptyLits p)
    (hs : ∀ p ∈ ps, SplitLiterals p) (P : Bytes) (hP : Ascii P) (text : Bytes) (hx : Ascii text) :
    (SuffixTree.build sip (ps.map (front P)) >>= fun t => t.parse (P ++ text)) = (SuffixTree.build sip ps >>= fun t => t.parse text) := by
  have run : ∀ (qs : List Pattern), (∀ p ∈ qs, AsciiLits p) → ∀ x, Ascii x → ∃ r, (SuffixTree.build sip qs >>= fun t => t.parse x) = .ok r := by
    intro qs hq x hx
    obtain ⟨t, hb, -, hp⟩ := C13_ascii_never_panics sip qs hq
    obtain ⟨r, hr⟩ := hp x hx
    exact ⟨r, by rw [hb]; exact hr⟩
  obtain ⟨r, h1⟩ := run ps ha text hx
  obtain ⟨r', h2⟩ := run (ps.map (front P)) (by
    intro q hq
    obtain ⟨p, hp, rfl⟩ := List.mem_map.mp hq
    exact Front.front_ascii hP (hl p hp) (ha p hp)) (P ++ text) (by
    intro c hc
    rcases List.mem_append.mp hc with hc | hc
    · exact hP c hc
    · exact hx c hc)
  rw [h1, h2, C133_trie sip ps hl (fun p hp => asciiLits_utf8 (ha p hp)) hn hs P (ascii_utf8 hP) text (ascii_utf8 hx) r r' h1 h2]

/-- C133 for the suffix array, where also the panics are the same. -/
theorem C133_suffix_array (sip : Bytes → UInt64) (ps : List Pattern) (hl : ∀ p ∈ ps, StartsLiteral p) (hu : ∀ p ∈ ps, Utf8Lits p) (P : Bytes) (hP : Utf8 P)
    (text : Bytes) (hx : Utf8 text) :
    (SuffixTable.build sip (ps.map (front P)) >>= fun t => t.parse (P ++ text)) = (SuffixTable.build sip ps >>= fun t => t.parse text) := by
  have hu' : ∀ q ∈ ps.map (front P), Utf8Lits q := by
    intro q hq
    obtain ⟨p, hp, rfl⟩ := List.mem_map.mp hq
    exact Front.front_utf8 hP (hl p hp) (hu p hp)
  have h1 := C74_panics_iff sip ps hu (Front.led hl sip) text hx
  have h2 := C74_panics_iff sip _ hu' (Front.led (Front.front_led hl) sip) (P ++ text) (utf8_append hP hx)
  rw [Front.suffixTrouble_front hP hl] at h2
  by_cases ht : SuffixTrouble ps text
  · rw [h1.1 ht, h2.1 ht]
  · obtain ⟨r, e1, a1⟩ := h1.2 ht
    obtain ⟨r', e2, a2⟩ := h2.2 ht
    rw [e1, e2, C73_answer_unique _ hu' _ (utf8_append hP hx) r' r a2 (Front.suffixAnswer_front hP hl a1)]

/-- C133: with the text in front, no message that does not begin with it is answered by the trie. -/
theorem C133_other (sip : Bytes → UInt64) (ps : List Pattern) (hl : ∀ p ∈ ps, StartsLiteral p) (hu : ∀ p ∈ ps, Utf8Lits p) (P : Bytes) (hP : Utf8 P)
    (text : Bytes) (hx : Utf8 text) (hp : ¬ P <+: text) (r : Option MatchResult)
    (hr : (SuffixTree.build sip (ps.map (front P)) >>= fun t => t.parse text) = .ok r) : r = none := by
  cases hb : SuffixTree.build sip (ps.map (front P)) with
  | error e => rw [hb] at hr; simp [bind, Except.bind] at hr
  | ok t =>
    rw [hb] at hr
    cases r with
    | none => rfl
    | some m =>
      obtain ⟨q, hq, caps, hm, -⟩ := C11_trie_sound sip _ (by
        intro q hq
        obtain ⟨p, hp, rfl⟩ := List.mem_map.mp hq
        exact Front.front_utf8 hP (hl p hp) (hu p hp)) (Front.led (Front.front_led hl) sip) t hb text hx m hr
      obtain ⟨p, hp', rfl⟩ := List.mem_map.mp hq
      obtain ⟨l, rest, e⟩ := hl p hp'
      rw [Front.pattern_eq e] at hm
      cases hm with
      | literal _ _ y _ h => exact absurd (by rw [List.append_assoc]; exact List.prefix_append _ _) hp

/-- C133, patterns that begin with a parser cannot be treated like this: `%{INT:x}` answers `5` beside `alma`; with `a ` in front of both, in whichever way it is
written, `a 5` is not answered. -/
theorem C133_parser_led : ∃ (ps qs : List Pattern) (P text : Bytes) (m : MatchResult), ps.map (·.pattern) = [[.literal b!"alma"], [.parser (Samples.int b!"x")]] ∧
    qs.map (·.pattern) = [[.literal (P ++ b!"alma")], [.literal P, .parser (Samples.int b!"x")]] ∧
    (SuffixTree.build Samples.sip ps >>= fun t => t.parse text) = .ok (some m) ∧ (SuffixTree.build Samples.sip qs >>= fun t => t.parse (P ++ text)) = .ok none :=
  ⟨[Samples.pat 1 [.literal b!"alma"], Samples.pat 2 [.parser (Samples.int b!"x")]],
    [Samples.pat 1 [.literal b!"a alma"], Samples.pat 2 [.literal b!"a ", .parser (Samples.int b!"x")]], b!"a ", b!"5",
    ⟨Samples.pat 2 [], [(b!"x", b!"5")]⟩, rfl, rfl, by decide +kernel, by decide +kernel⟩

/-- C133, why the panics of the trie are left out: with a text in front a panic can go away (`é` and the message `á`, with `x` in front), and a new one can appear
(`ab` and the message `ac`, with `é` in front). -/
theorem C133_trie_panics : ∃ (l x P l' x' P' : Bytes), Utf8 P ∧ Utf8 P' ∧
    (SuffixTree.build Samples.sip [Samples.pat 1 [.literal l]] >>= fun t => t.parse x) = .error .slice ∧
    (SuffixTree.build Samples.sip ([Samples.pat 1 [.literal l]].map (front P)) >>= fun t => t.parse (P ++ x)) = .ok none ∧
    (SuffixTree.build Samples.sip [Samples.pat 1 [.literal l']] >>= fun t => t.parse x') = .ok none ∧
    (SuffixTree.build Samples.sip ([Samples.pat 1 [.literal l']].map (front P')) >>= fun t => t.parse (P' ++ x')) = .error .slice :=
  ⟨b!"é", b!"á", b!"x", b!"ab", b!"ac", b!"é", ascii_utf8 (by decide), ⟨['é'], by decide +kernel⟩, by decide +kernel, by decide +kernel, by decide +kernel,
    by decide +kernel⟩

end Verif
