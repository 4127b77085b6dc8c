import Verif.Proofs.TableAnswer
import Verif.Props.C73_C74_SuffixAnswer
/-! How the answer of the suffix array for a text changes when a pattern is added; every history has an answer for every text. -/
namespace Verif
open Spec

/-- The result is that of the pattern `q` loosely matching the text. -/
def LooseMatchOf (q : Pattern) (x : Bytes) (r : Option MatchResult) : Prop := ∃ res caps, r = some res ∧ LooseMatches q.pattern x caps ∧ IsResult res q caps

theorem lcp_length {l x c c' : Bytes} (h : LongestCommonPrefix l x c) (h' : LongestCommonPrefix l x c') : c = c' := by
  have h1 := h.2.2.2 c' h'.1 h'.2.1 h'.2.2.1
  have h2 := h'.2.2.2 c h.1 h.2.1 h.2.2.1
  exact prefix_eq (prefix_total h.2.2.1 h'.2.2.1 h2) h1

theorem looseMatches_unique {toks : List Token} {x : Bytes} {c1 c2} (h1 : LooseMatches toks x c1) (h2 : LooseMatches toks x c2) : c1 = c2 := by
  induction toks generalizing x c1 c2 with
  | nil => rw [(loose_nil_inv h1).2, (loose_nil_inv h2).2]
  | cons tok toks ih =>
    cases tok with
    | literal l =>
      generalize ht : (Token.literal l :: toks) = ts at h1 h2
      cases h1 with
      | nil => simp at ht
      | parser => simp at ht
      | last l1 _ g1 =>
        simp at ht
        obtain ⟨rfl, rfl⟩ := ht
        rcases h2 with _ | _ | ⟨_, _, _, _, _, hne, _⟩
        · rfl
        · exact absurd rfl hne
      | literal l1 c y toks1 caps hne hc hy hm =>
        simp at ht
        obtain ⟨rfl, rfl⟩ := ht
        generalize hx : c ++ y = x at h2
        cases h2 with
        | last => exact absurd rfl hne
        | literal _ c' y' _ caps' _ hc' hy' hm' =>
          rw [hx] at hc
          have e := lcp_length hc hc'
          subst e
          have := List.append_cancel_left hx
          subst this
          exact ih hm hm'
    | parser a =>
      obtain ⟨v, y, k, e, rfl, hp, hm⟩ := loose_par_inv h1
      obtain ⟨v', y', k', e', rfl, hp', hm'⟩ := loose_par_inv h2
      subst e
      have := parserMatch_unique hp hp'
      subst this
      have := List.append_cancel_left e'
      subst this
      rw [ih hm hm']

theorem firstLoose_cases (ps : List Pattern) (x : Bytes) :
    (∀ p ∈ ps, ¬∃ caps, LooseMatches p.pattern x caps) ∨
    ∃ A p B caps, ps = A ++ p :: B ∧ (∀ a ∈ A, ¬∃ caps, LooseMatches a.pattern x caps) ∧ LooseMatches p.pattern x caps := by
  induction ps with
  | nil => simp
  | cons q ps ih =>
    by_cases hq : ∃ caps, LooseMatches q.pattern x caps
    · obtain ⟨caps, hq⟩ := hq
      exact .inr ⟨[], q, ps, caps, rfl, by simp, hq⟩
    · rcases ih with h | ⟨A, p, B, caps, h1, h2, h3⟩
      · left
        intro p hp
        rcases List.mem_cons.mp hp with rfl | hp
        · exact hq
        · exact h p hp
      · refine .inr ⟨q :: A, p, B, caps, by simp [h1], ?_, h3⟩
        intro a ha
        rcases List.mem_cons.mp ha with rfl | ha
        · exact hq
        · exact h2 a ha

theorem split_firstLoose {A A' B B' : List Pattern} {p p' : Pattern} {x : Bytes} (e : A ++ p :: B = A' ++ p' :: B')
    (hA : ∀ a ∈ A, ¬∃ caps, LooseMatches a.pattern x caps) (hp : ∃ caps, LooseMatches p.pattern x caps)
    (hA' : ∀ a ∈ A', ¬∃ caps, LooseMatches a.pattern x caps) (hp' : ∃ caps, LooseMatches p'.pattern x caps) : p = p' := by
  induction A generalizing A' with
  | nil =>
    cases A' with
    | nil => simp at e; exact e.1
    | cons a A' => simp at e; exact absurd (e.1 ▸ hp) (hA' a (by simp))
  | cons b A ih =>
    cases A' with
    | nil => simp at e; exact absurd (e.1 ▸ hp') (hA b (by simp))
    | cons a A' =>
      simp at e
      exact ih e.2 (fun a ha => hA a (by simp [ha])) (fun a ha => hA' a (by simp [ha]))

theorem firstLoose_exists (ps : List Pattern) (x : Bytes) : ∃ r, FirstLoose ps x r := by
  rcases firstLoose_cases ps x with h | ⟨A, p, B, caps, e, hA, hp⟩
  · refine ⟨none, ?_, fun _ => rfl⟩
    intro A p B caps e _ hp
    exact absurd ⟨caps, hp⟩ (h p (by rw [e]; simp))
  · obtain ⟨res, hr⟩ := result_exists p caps
    refine ⟨some res, ?_, fun h => absurd ⟨caps, hp⟩ (h p (by rw [e]; simp))⟩
    intro A' p' B' caps' e' hA' hp'
    have := split_firstLoose (e ▸ e') hA ⟨caps, hp⟩ hA' ⟨caps', hp'⟩
    subst this
    rw [looseMatches_unique hp' hp]
    exact ⟨res, rfl, hr⟩

theorem suffixAnswer_exists {ps : List Pattern} (hu : ∀ p ∈ ps, Utf8Lits p) {x : Bytes} (hx : Utf8 x) : ∃ r, SuffixAnswer ps x r := by
  by_cases hno : ∀ l, ¬ Leads ps l
  · obtain ⟨r, hr⟩ := firstLoose_exists (Table.of ps).parserLed x
    exact ⟨r, fun _ => hr, fun l h => absurd h.1 (hno l)⟩
  · obtain ⟨l, hc, hun⟩ := C73_chosen ps hu x hx (Classical.not_forall_not.mp hno)
    have key : ∃ r : Option MatchResult, (x <+: l →
      (∀ p, LastWith ps (· = [.literal l]) p → r = some { pattern := { p with pattern := [] }, values := [] }) ∧
      ((∀ p ∈ ps, p.pattern ≠ [.literal l]) → r = none)) ∧
      (¬ x <+: l →
      (∀ p, LastWith ps (fun toks => ∃ rest, rest ≠ [] ∧ toks = .literal l :: rest) p → FirstLoose [p] x r) ∧
      ((∀ p ∈ ps, ∀ rest, rest ≠ [] → p.pattern ≠ .literal l :: rest) → r = none)) := by
      by_cases hp : x <+: l
      · refine ⟨(wholeFor ps l).map fun p => { pattern := { p with pattern := [] }, values := [] }, fun _ => ⟨?_, ?_⟩, fun h => absurd hp h⟩
        · intro p h
          rw [lastWhole_iff.mp h]
          rfl
        · intro h
          cases hw : wholeFor ps l with
          | none => rfl
          | some p =>
            obtain ⟨A, B, rfl, h2, _⟩ := lastWhole_iff.mpr hw
            exact absurd h2 (h p (by simp))
      · cases hw : moreFor ps l with
        | none =>
          refine ⟨none, fun h => absurd h hp, fun _ => ⟨?_, fun _ => rfl⟩⟩
          intro p h
          rw [lastMore_iff.mp h] at hw
          simp at hw
        | some p =>
          obtain ⟨r, hr⟩ := firstLoose_exists [p] x
          refine ⟨r, fun h => absurd h hp, fun _ => ⟨?_, ?_⟩⟩
          · intro p' h
            rw [lastMore_iff.mp h] at hw
            simp at hw
            exact hw ▸ hr
          · intro h
            obtain ⟨A, B, rfl, ⟨rest, h2, h3⟩, _⟩ := lastMore_iff.mpr hw
            exact absurd h3 (h p (by simp) rest h2)
    obtain ⟨r, hr⟩ := key
    refine ⟨r, fun h => absurd hc.1 (h l), ?_⟩
    intro l' h'
    have := hun l' h'
    subst this
    exact hr

/-! ### Adding a pattern -/

theorem leads_append {ps qs : List Pattern} {l : Bytes} : Leads (ps ++ qs) l ↔ Leads ps l ∨ Leads qs l := by
  simp only [Leads, List.mem_append]
  constructor
  · rintro ⟨p, hp | hp, h⟩
    · exact .inl ⟨p, hp, h⟩
    · exact .inr ⟨p, hp, h⟩
  · rintro (⟨p, hp, h⟩ | ⟨p, hp, h⟩)
    · exact ⟨p, .inl hp, h⟩
    · exact ⟨p, .inr hp, h⟩

theorem leads_one {q : Pattern} {l : Bytes} : Leads [q] l ↔ q.pattern.head? = some (.literal l) := by simp [Leads]

theorem chosen_congr {ps qs : List Pattern} (h : ∀ l, Leads ps l ↔ Leads qs l) {x l : Bytes} : Chosen ps x l ↔ Chosen qs x l := by
  simp only [Chosen, h]

/-- What is chosen when there are more leading literals was chosen before, if it is not new. -/
theorem chosen_fewer {ps qs : List Pattern} (h : ∀ l, Leads ps l → Leads qs l) {x m : Bytes} (hm : Leads ps m) (hc : Chosen qs x m) : Chosen ps x m := by
  refine ⟨hm, ?_⟩
  rcases hc.2 with e | ⟨h1, h2⟩
  · exact .inl e
  · exact .inr ⟨fun hx => h1 (h x hx), fun l' hl' hne => h2 l' (h l' hl') hne⟩

theorem lastWith_snoc {ps : List Pattern} {P : List Token → Prop} {q p : Pattern} (hq : ¬ P q.pattern) : LastWith (ps ++ [q]) P p ↔ LastWith ps P p := by
  constructor
  · rintro ⟨A, B, h1, h2, h3⟩
    rcases List.eq_nil_or_concat B with rfl | ⟨B', b, rfl⟩
    · have := List.append_inj_right' h1 rfl
      simp at this
      exact absurd (this ▸ h2) hq
    · rw [List.concat_eq_append] at h1 h3
      have e : ps ++ [q] = (A ++ p :: B') ++ [b] := by rw [h1]; simp
      exact ⟨A, B', List.append_inj_left' e rfl, h2, fun x hx => h3 x (by simp [hx])⟩
  · rintro ⟨A, B, rfl, h2, h3⟩
    refine ⟨A, B ++ [q], by simp, h2, ?_⟩
    intro x hx
    rcases List.mem_append.mp hx with hx | hx
    · exact h3 x hx
    · simp at hx; exact hx ▸ hq

theorem lastWith_own {ps : List Pattern} {P : List Token → Prop} {q : Pattern} (hq : P q.pattern) : LastWith (ps ++ [q]) P q :=
  ⟨ps, [], rfl, hq, by simp⟩

theorem firstLoose_single {q : Pattern} {x : Bytes} {r : Option MatchResult} (h : FirstLoose [q] x r) : r = none ∨ LooseMatchOf q x r := by
  by_cases hm : ∃ caps, LooseMatches q.pattern x caps
  · obtain ⟨caps, hm⟩ := hm
    obtain ⟨res, e, hr⟩ := h.1 [] q [] caps rfl (by simp) hm
    exact .inr ⟨res, caps, e, hm, hr⟩
  · exact .inl (h.2 (by simpa using hm))

/-- The clause of `SuffixAnswer` for the chosen literal. -/
def AnswerAt (ps : List Pattern) (x l : Bytes) (r : Option MatchResult) : Prop :=
  (x <+: l →
      (∀ p, LastWith ps (· = [.literal l]) p → r = some { pattern := { p with pattern := [] }, values := [] }) ∧
      ((∀ p ∈ ps, p.pattern ≠ [.literal l]) → r = none)) ∧
  (¬ x <+: l →
      (∀ p, LastWith ps (fun toks => ∃ rest, rest ≠ [] ∧ toks = .literal l :: rest) p → FirstLoose [p] x r) ∧
      ((∀ p ∈ ps, ∀ rest, rest ≠ [] → p.pattern ≠ .literal l :: rest) → r = none))

theorem answer_of_at {ps : List Pattern} {x l : Bytes} {r : Option MatchResult} (hc : Chosen ps x l) (h : AnswerAt ps x l r) : SuffixAnswer ps x r := by
  refine ⟨fun hn => absurd hc.1 (hn l), fun l' hc' => ?_⟩
  have := chosen_unique hc' hc
  subst this
  exact h

/-- A pattern that is not about the literal does not matter to its clause. -/
theorem answerAt_snoc {ps : List Pattern} {q : Pattern} {x l : Bytes} {r : Option MatchResult} (hq : q.pattern.head? ≠ some (.literal l)) :
    AnswerAt (ps ++ [q]) x l r ↔ AnswerAt ps x l r := by
  have n1 : ¬ q.pattern = [.literal l] := fun e => hq (by rw [e]; rfl)
  have n2 : ¬ ∃ rest, rest ≠ [] ∧ q.pattern = .literal l :: rest := fun ⟨_, _, e⟩ => hq (by rw [e]; rfl)
  have f1 : (∀ p ∈ ps ++ [q], p.pattern ≠ [.literal l]) ↔ ∀ p ∈ ps, p.pattern ≠ [.literal l] :=
    ⟨fun h p hp => h p (by simp [hp]), fun h p hp => by
      rcases List.mem_append.mp hp with hp | hp
      · exact h p hp
      · simp at hp; exact hp ▸ n1⟩
  have f2 : (∀ p ∈ ps ++ [q], ∀ rest, rest ≠ [] → p.pattern ≠ .literal l :: rest) ↔ ∀ p ∈ ps, ∀ rest, rest ≠ [] → p.pattern ≠ .literal l :: rest :=
    ⟨fun h p hp => h p (by simp [hp]), fun h p hp => by
      rcases List.mem_append.mp hp with hp | hp
      · exact h p hp
      · simp at hp; subst hp; exact fun rest g1 g2 => n2 ⟨rest, g1, g2⟩⟩
  unfold AnswerAt
  rw [f1, f2]
  simp only [lastWith_snoc (P := (· = [.literal l])) n1, lastWith_snoc (P := fun toks => ∃ rest, rest ≠ [] ∧ toks = .literal l :: rest) n2]

theorem suffix_literal_led {ps : List Pattern} {q : Pattern} (hu : ∀ p ∈ ps ++ [q], Utf8Lits p) {l : Bytes} {rest : List Token}
    (hq : q.pattern = .literal l :: rest) {x : Bytes} (hx : Utf8 x) {r r' : Option MatchResult} (h : SuffixAnswer ps x r)
    (h' : SuffixAnswer (ps ++ [q]) x r') :
    ((∃ m, m ≠ l ∧ Leads ps m ∧ Chosen (ps ++ [q]) x m) ∨ (Leads ps l ∧ Chosen ps x l)) ∧ r' = r ∨
      Chosen (ps ++ [q]) x l ∧ (r' = none ∨ LooseMatchOf q x r') := by
  have hhead : ∀ m, q.pattern.head? = some (.literal m) ↔ m = l := by
    intro m; rw [hq]; simp [eq_comm]
  have hlq : Leads (ps ++ [q]) l := leads_append.mpr (.inr (leads_one.mpr ((hhead l).mpr rfl)))
  obtain ⟨m, hm, _⟩ := C73_chosen (ps ++ [q]) hu x hx ⟨l, hlq⟩
  have hat := h'.2 m hm
  by_cases e : m = l
  · subst e
    by_cases hl : Leads ps m
    · have hsame : ∀ l', Leads (ps ++ [q]) l' ↔ Leads ps l' := by
        intro l'
        rw [leads_append, leads_one, hhead]
        exact ⟨fun g => g.elim id (fun e => e ▸ hl), .inl⟩
      have hch : Chosen ps x m := (chosen_congr hsame).mp hm
      have hold := h.2 m hch
      by_cases hp : x <+: m
      · by_cases ha : rest = []
        · subst ha
          refine .inr ⟨hm, .inr ⟨_, [], (hat.1 hp).1 q (lastWith_own hq), ?_, rfl, ?_⟩⟩
          · rw [hq]; exact .last m x hp
          · exact ⟨by simp [OrderedMap], fun k v => by simp [capture]⟩
        · left
          refine ⟨.inr ⟨hl, hch⟩, ?_⟩
          have n1 : ¬ q.pattern = [.literal m] := by rw [hq]; simpa using ha
          cases hw : wholeFor ps m with
          | some p =>
            have hlw := lastWhole_iff.mpr hw
            rw [(hat.1 hp).1 p ((lastWith_snoc (P := (· = [.literal m])) n1).mpr hlw), (hold.1 hp).1 p hlw]
          | none =>
            have hn : ∀ p ∈ ps, p.pattern ≠ [.literal m] := by
              intro p hp e
              have := List.find?_eq_none.mp hw p (by simpa using hp)
              simp [e] at this
            rw [(hold.1 hp).2 hn, (hat.1 hp).2 (fun p hp' => by
              rcases List.mem_append.mp hp' with g | g
              · exact hn p g
              · simp at g; exact g ▸ n1)]
      · by_cases ha : rest = []
        · left
          refine ⟨.inr ⟨hl, hch⟩, ?_⟩
          have n2 : ¬ ∃ rest, rest ≠ [] ∧ q.pattern = .literal m :: rest := by rw [hq, ha]; simp
          cases hw : moreFor ps m with
          | some p =>
            have hlw := lastMore_iff.mpr hw
            exact firstLoose_unique ((hat.2 hp).1 p ((lastWith_snoc (P := fun toks => ∃ rest, rest ≠ [] ∧ toks = .literal m :: rest) n2).mpr hlw))
              ((hold.2 hp).1 p hlw)
          | none =>
            have hn : ∀ p ∈ ps, ∀ rest, rest ≠ [] → p.pattern ≠ .literal m :: rest := by
              intro p hp rest hr e
              have := List.find?_eq_none.mp hw p (by simpa using hp)
              simp [e, hr] at this
            rw [(hold.2 hp).2 hn, (hat.2 hp).2 (fun p hp' => by
              rcases List.mem_append.mp hp' with g | g
              · exact hn p g
              · simp at g; subst g; exact fun rest g1 g2 => n2 ⟨rest, g1, g2⟩)]
        · exact .inr ⟨hm, firstLoose_single ((hat.2 hp).1 q (lastWith_own ⟨rest, ha, hq⟩))⟩
    · have hno : ∀ p ∈ ps, p.pattern.head? ≠ some (.literal m) := fun p hp e => hl ⟨p, hp, e⟩
      refine .inr ⟨hm, ?_⟩
      by_cases hp : x <+: m
      · by_cases ha : rest = []
        · subst ha
          refine .inr ⟨_, [], (hat.1 hp).1 q (lastWith_own hq), ?_, rfl, ?_⟩
          · rw [hq]; exact .last m x hp
          · exact ⟨by simp [OrderedMap], fun k v => by simp [capture]⟩
        · left
          refine (hat.1 hp).2 (fun p hp' e => ?_)
          rcases List.mem_append.mp hp' with g | g
          · exact hno p g (by rw [e]; rfl)
          · simp at g; subst g; rw [hq] at e; simp at e; exact ha e
      · by_cases ha : rest = []
        · left
          refine (hat.2 hp).2 (fun p hp' rest' g1 e => ?_)
          rcases List.mem_append.mp hp' with g | g
          · exact hno p g (by rw [e]; rfl)
          · simp at g; subst g; rw [hq, ha] at e; simp at e; exact g1 e
        · exact firstLoose_single ((hat.2 hp).1 q (lastWith_own ⟨rest, ha, hq⟩))
  · left
    have hl : Leads ps m := by
      rcases leads_append.mp hm.1 with g | g
      · exact g
      · exact absurd ((hhead m).mp (leads_one.mp g)) e
    refine ⟨.inl ⟨m, e, hl, hm⟩, ?_⟩
    have hc := chosen_fewer (fun l h => leads_append.mpr (.inl h)) hl hm
    have ha : AnswerAt ps x m r' := (answerAt_snoc (fun g => e ((hhead m).mp g))).mp hat
    have := C73_answer_unique ps (fun p hp => hu p (by simp [hp])) x hx r' r (answer_of_at hc ha) h
    exact this

/-! ### Patterns that begin with a parser -/

theorem firstLoose_cons_match {p : Pattern} {ps : List Pattern} {x : Bytes} {r : Option MatchResult} (h : FirstLoose (p :: ps) x r)
    (hm : ∃ caps, LooseMatches p.pattern x caps) : LooseMatchOf p x r := by
  obtain ⟨caps, hm⟩ := hm
  obtain ⟨res, e, hr⟩ := h.1 [] p ps caps rfl (by simp) hm
  exact ⟨res, caps, e, hm, hr⟩

theorem firstLoose_cons_skip {p : Pattern} {ps : List Pattern} {x : Bytes} {r : Option MatchResult} (h : FirstLoose (p :: ps) x r)
    (hm : ¬∃ caps, LooseMatches p.pattern x caps) : FirstLoose ps x r := by
  refine ⟨?_, ?_⟩
  · intro A q B caps e hA hq
    refine h.1 (p :: A) q B caps (by simp [e]) ?_ hq
    intro a ha
    rcases List.mem_cons.mp ha with rfl | ha
    · exact hm
    · exact hA a ha
  · intro hn
    refine h.2 ?_
    intro a ha
    rcases List.mem_cons.mp ha with rfl | ha
    · exact hm
    · exact hn a ha

theorem firstLoose_addParserLed {a : Parser} {q : Pattern} {ps : List Pattern} {x : Bytes} {r r' : Option MatchResult} (h : FirstLoose ps x r)
    (h' : FirstLoose (addParserLed a q ps) x r') :
    r' = r ∨ LooseMatchOf q x r' ∧ r = none ∨ ∃ p ∈ ps, p.pattern.head? = some (.parser a) ∧ (LooseMatchOf p x r ∨ LooseMatchOf q x r') := by
  induction ps with
  | nil =>
    rw [addParserLed] at h'
    rcases firstLoose_single h' with e | e
    · left; rw [e, h.2 (by simp)]
    · exact .inr (.inl ⟨e, h.2 (by simp)⟩)
  | cons p ps ih =>
    rw [addParserLed] at h'
    by_cases hp : p.pattern.head? = some (.parser a)
    · rw [if_pos hp] at h'
      by_cases hm : ∃ caps, LooseMatches p.pattern x caps
      · exact .inr (.inr ⟨p, by simp, hp, .inl (firstLoose_cons_match h hm)⟩)
      · have h1 := firstLoose_cons_skip h hm
        by_cases hc : p.pattern ≠ [.parser a] ∧ q.pattern = [.parser a]
        · rw [if_pos ⟨hc.2, hc.1⟩] at h'
          exact .inl (firstLoose_unique (firstLoose_cons_skip h' hm) h1)
        · rw [if_neg (fun hh => hc ⟨hh.2, hh.1⟩)] at h'
          by_cases hmq : ∃ caps, LooseMatches q.pattern x caps
          · exact .inr (.inr ⟨p, by simp, hp, .inr (firstLoose_cons_match h' hmq)⟩)
          · exact .inl (firstLoose_unique (firstLoose_cons_skip h' hmq) h1)
    · rw [if_neg hp] at h'
      by_cases hm : ∃ caps, LooseMatches p.pattern x caps
      · obtain ⟨caps, hm⟩ := hm
        obtain ⟨res, e, hr⟩ := h.1 [] p ps caps rfl (by simp) hm
        obtain ⟨res', e', hr'⟩ := h'.1 [] p _ caps rfl (by simp) hm
        left; rw [e, e', isResult_unique hr hr']
      · rcases ih (firstLoose_cons_skip h hm) (firstLoose_cons_skip h' hm) with g | g | ⟨p', g1, g2⟩
        · exact .inl g
        · exact .inr (.inl g)
        · exact .inr (.inr ⟨p', by simp [g1], g2⟩)

theorem head_not_literal {q : Pattern} {a : Parser} (hq : q.pattern.head? = some (.parser a)) (l : Bytes) : q.pattern.head? ≠ some (.literal l) := by
  rw [hq]; simp

theorem leads_parser {ps : List Pattern} {q : Pattern} {a : Parser} (hq : q.pattern.head? = some (.parser a)) (l : Bytes) :
    Leads (ps ++ [q]) l ↔ Leads ps l := by
  rw [leads_append, leads_one]
  exact ⟨fun g => g.elim id (fun e => absurd e (head_not_literal hq l)), .inl⟩

/-- Next to a pattern that begins with a literal, one that begins with a parser does not matter. -/
theorem suffix_parser_led {ps : List Pattern} {q : Pattern} {a : Parser} (hq : q.pattern.head? = some (.parser a)) (hl : ∃ l, Leads ps l)
    {x : Bytes} (r : Option MatchResult) : SuffixAnswer (ps ++ [q]) x r ↔ SuffixAnswer ps x r := by
  obtain ⟨l0, hl0⟩ := hl
  constructor
  · intro h
    refine ⟨fun hn => absurd hl0 (hn l0), fun l hc => ?_⟩
    exact (answerAt_snoc (head_not_literal hq l)).mp (h.2 l ((chosen_congr (leads_parser hq)).mpr hc))
  · intro h
    refine ⟨fun hn => absurd ((leads_parser hq l0).mpr hl0) (hn l0), fun l hc => ?_⟩
    exact (answerAt_snoc (head_not_literal hq l)).mpr (h.2 l ((chosen_congr (leads_parser hq)).mp hc))

theorem suffixTrouble_parser_led {ps : List Pattern} {q : Pattern} {a : Parser} (hq : q.pattern.head? = some (.parser a)) (hl : ∃ l, Leads ps l)
    {x : Bytes} : SuffixTrouble (ps ++ [q]) x ↔ SuffixTrouble ps x := by
  obtain ⟨l0, hl0⟩ := hl
  have n2 : ∀ l, ¬ ∃ rest, rest ≠ [] ∧ q.pattern = .literal l :: rest := fun l ⟨_, _, e⟩ => head_not_literal hq l (by rw [e]; rfl)
  unfold SuffixTrouble
  simp only [lastWith_snoc (P := fun toks => ∃ rest, rest ≠ [] ∧ toks = .literal _ :: rest) (n2 _), chosen_congr (leads_parser hq)]
  constructor
  · rintro (⟨h, _⟩ | h)
    · exact absurd ((leads_parser hq l0).mpr hl0) (h l0)
    · exact .inr h
  · rintro (⟨h, _⟩ | h)
    · exact absurd hl0 (h l0)
    · exact .inr h

end Verif
