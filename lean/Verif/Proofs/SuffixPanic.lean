import Verif.Proofs.SuffixTableAnswer
import Verif.Proofs.TriePanic
import Verif.Spec.SuffixPanics
/-! Exactly when the suffix-array matcher panics. -/
namespace Verif
open Spec

theorem trouble_par {a : Parser} {toks : List Token} {v y : Bytes} (hv : Utf8 v) (hm : ParserMatch a (v ++ y) v)
    (h : LooseTrouble (.parser a :: toks) (v ++ y)) : LooseTrouble toks y := by
  generalize hx : v ++ y = x at h hm
  cases h with
  | cut _ _ w _ h1 h2 => exact absurd (parserMatch_unique h1 hm ▸ hv) h2
  | parser _ _ w z h1 h2 =>
    have := parserMatch_unique h1 hm
    subst this
    rw [List.append_cancel_left hx]; exact h2

theorem trouble_par_match {a : Parser} {toks : List Token} {x : Bytes} (h : LooseTrouble (.parser a :: toks) x) : ∃ v, ParserMatch a x v := by
  cases h with
  | cut _ _ w _ h1 _ => exact ⟨w, h1⟩
  | parser _ _ w z h1 _ => exact ⟨w, h1⟩

theorem trouble_nil {x : Bytes} : ¬LooseTrouble [] x := by intro h; cases h

theorem trouble_lit {l : Bytes} (hl : Utf8 l) {rest : List Token} {x : Bytes} (hx : Utf8 x) :
    LooseTrouble (.literal l :: rest) x ↔
      rest ≠ [] ∧ commonPrefixLen l x ≠ x.length ∧ LooseTrouble rest (x.drop (commonPrefixLen l x)) := by
  have hle := cpl_le l x
  have hsplit : x.take (commonPrefixLen l x) ++ x.drop (commonPrefixLen l x) = x := List.take_append_drop _ _
  constructor
  · intro h
    generalize hz : x = z at h
    cases h with
    | literal _ c y _ h1 h2 h3 h4 =>
      rw [← hz, lcp_iff hl hx] at h2
      have hy : y = x.drop (commonPrefixLen l x) := by
        have h5 := hz
        rw [← hsplit, h2] at h5
        exact (List.append_cancel_left (by rw [hsplit] at h5; rw [hsplit]; exact h5)).symm
      rw [← hz]
      refine ⟨h1, ?_, ?_⟩
      · intro hk
        rw [hk] at hy
        exact h3 (by rw [hy]; simp)
      · rw [← hy]; exact h4
  · rintro ⟨h1, h2, h3⟩
    have := LooseTrouble.literal l (x.take (commonPrefixLen l x)) (x.drop (commonPrefixLen l x)) rest h1
      (by rw [hsplit, lcp_iff hl hx]) (by intro h; rw [List.drop_eq_nil_iff] at h; omega) h3
    rwa [hsplit] at this

theorem parserE_outcome {rest : List Token} {q : Pattern} {m : ParserE} (hpat : rest = [] → m.child = none)
    (hchild : rest ≠ [] → m.child = some (ssingle rest q)) {x : Bytes} (hx : Utf8 x)
    (ih : rest ≠ [] → ∀ y, Utf8 y → Outcome (LooseTrouble rest y) ((ssingle rest q).parse y)) :
    Outcome (LooseTrouble (.parser m.parser :: rest) x) (m.parse x) := by
  rcases parser_exact m.parser hx with ⟨v, y, rfl, hv, hy, hm, hp⟩ | ⟨v, hm, hv, hp⟩ | ⟨hno, hp⟩
  · have ht : ltrunc (v ++ y) v.length = .ok y := by
      rw [ltrunc, sliceFrom_ok (isCharBoundary_append_right hy)]; simp
    have hiff : LooseTrouble rest y ↔ LooseTrouble (.parser m.parser :: rest) (v ++ y) :=
      ⟨fun h => .parser _ _ _ _ hm h, fun h => trouble_par hv hm h⟩
    refine outcome_congr hiff ?_
    rw [ParserE.parse, hp]
    simp only [ht]
    by_cases hr : rest = []
    · subst hr
      split
      · rename_i d hd; rw [hpat rfl] at hd; simp at hd
      · split
        · exact outcome_ok trouble_nil rfl
        · exact outcome_ok trouble_nil rfl
    · split
      · rename_i d hd
        rw [hchild hr] at hd; simp at hd; subst hd
        obtain ⟨h1, h2⟩ := ih hr y hy
        refine ⟨fun h => ?_, fun h => ?_⟩
        · rw [h1 h]
        · obtain ⟨r, hr⟩ := h2 h
          rw [hr]
          cases r <;> exact ⟨_, rfl⟩
      · rename_i hd; rw [hchild hr] at hd; simp at hd
  · refine outcome_error (.cut _ _ v _ hm hv) ?_
    rw [ParserE.parse, hp]
  · refine outcome_ok (fun h => hno (trouble_par_match h)) (r := none) ?_
    rw [ParserE.parse, hp]

theorem ssingle_outcome {toks : List Token} {q : Pattern} (hu : LitsP Utf8 toks) {x : Bytes} (hx : Utf8 x) :
    Outcome (LooseTrouble toks x) ((ssingle toks q).parse x) := by
  induction toks generalizing x with
  | nil =>
    refine outcome_ok trouble_nil (r := none) ?_
    rw [sparse_nolit (lcp_nil rfl x)]
    simp [ssingle, SuffixTable.new, sparseWithParsers]
  | cons tok rest ih =>
    have hu' : LitsP Utf8 rest := fun l hl => hu l (by simp [hl])
    cases tok with
    | literal l =>
      have hl := hu l (by simp)
      obtain ⟨e, he1, he2, he3⟩ : ∃ e : LiteralE, e.literal = l ∧ (ssingle (.literal l :: rest) q).longestCommonPrefix x = .ok (some e) ∧
          e = ⟨if rest.isEmpty then some q else none, l, if rest.isEmpty then none else some (ssingle rest q)⟩ := by
        rcases lcp_spec (t := ssingle (.literal l :: rest) q) (by simp [ssingle, SSorted])
          (by intro e he; simp [ssingle] at he; rw [he]; exact hl) hx with ⟨h1, _⟩ | ⟨e, h1, h2, _⟩
        · simp [ssingle] at h1
        · simp [ssingle] at h1
          exact ⟨e, by rw [h1], h2, by simpa using h1⟩
      rw [sparse_lit hx (by rw [he1]; exact hl) he2, he1]
      by_cases hk : commonPrefixLen l x = x.length
      · rw [if_pos hk]
        exact outcome_ok (fun h => ((trouble_lit hl hx).mp h).2.1 hk) rfl
      · rw [if_neg hk]
        by_cases hr : rest = []
        · subst hr
          rw [he3]
          exact outcome_ok (fun h => ((trouble_lit hl hx).mp h).1 rfl) rfl
        · rw [he3]
          simp only [List.isEmpty_iff, hr, if_false]
          refine outcome_congr ?_ (ih hu' (boundary_split hx (cpl_boundary_right hl hx)).2)
          rw [trouble_lit hl hx]
          exact ⟨fun h => ⟨hr, hk, h⟩, fun h => h.2.2⟩
    | parser a =>
      rw [sparse_nolit (lcp_nil rfl x)]
      have e : (ssingle (.parser a :: rest) q).parserEntries =
        [⟨if rest.isEmpty then some q else none, a, if rest.isEmpty then none else some (ssingle rest q)⟩] := by simp [ssingle]
      have key := parserE_outcome (rest := rest) (q := q) (x := x)
        (m := ⟨if rest.isEmpty then some q else none, a, if rest.isEmpty then none else some (ssingle rest q)⟩)
        (by rintro rfl; rfl) (by intro h; simp [h]) hx (fun _ y hy => ih hu' hy)
      rw [e]
      refine ⟨fun hr => ?_, fun hr => ?_⟩
      · rw [sparseWithParsers, key.1 hr]
      · obtain ⟨r, hr⟩ := key.2 hr
        rw [sparseWithParsers, hr]
        cases r with
        | none => rw [sparseWithParsers]; exact ⟨_, rfl⟩
        | some r => exact ⟨_, rfl⟩

theorem sparRel_outcome {ns : List ParserE} {ps : List Pattern} (h : SParRel ns ps) (hu : ∀ p ∈ ps, Utf8Lits p) {x : Bytes} (hx : Utf8 x) :
    Outcome (FirstLooseTrouble ps x) (sparseWithParsers ns x) := by
  induction h with
  | nil =>
    refine outcome_ok (r := none) ?_ (by rw [sparseWithParsers])
    rintro ⟨A, p, B, h, _⟩
    simp at h
  | cons n p ns ps hst hrel ih =>
    obtain ⟨rest, hp, hpat, hchild⟩ := hst
    have hu' : LitsP Utf8 rest := fun l hl => hu p (by simp) l (by rw [hp]; simp [hl])
    have ho : Outcome (LooseTrouble p.pattern x) (n.parse x) := by
      rw [hp]
      exact parserE_outcome (fun h => (hpat h).2) hchild hx fun _ y hy => ssingle_outcome hu' hy
    have ih := ih (fun p hp => hu p (by simp [hp]))
    by_cases hr : LooseTrouble p.pattern x
    · refine outcome_error ⟨[], p, ps, rfl, by simp, hr⟩ ?_
      rw [sparseWithParsers, ho.1 hr]
    · obtain ⟨r, hres⟩ := ho.2 hr
      have hans : SAnswers p.pattern p.strip x r := by
        rw [hp]
        exact parserE_answers rfl hpat hchild hx (fun h y hy r hr => ssingle_answers h hu' hy hr) hres
      cases r with
      | some r =>
        refine outcome_ok ?_ (r := some r) (by rw [sparseWithParsers, hres])
        rintro ⟨A, p', B, he, hA, hp'⟩
        cases A with
        | nil => simp at he; rw [← he.1] at hp'; exact hr hp'
        | cons a A =>
          simp at he
          have := hans.2 (by rw [he.1]; exact (hA a (by simp)).2)
          simp at this
      | none =>
        have hno : ¬∃ caps, LooseMatches p.pattern x caps := by
          rintro ⟨caps, hm⟩
          obtain ⟨res', e, _⟩ := hans.1 caps hm
          simp at e
        have e : sparseWithParsers (n :: ns) x = sparseWithParsers ns x := by rw [sparseWithParsers, hres]
        rw [e]
        refine outcome_congr ?_ ih
        constructor
        · rintro ⟨A, p', B, he, hA, hp'⟩
          refine ⟨p :: A, p', B, by simp [he], ?_, hp'⟩
          intro a ha
          rcases List.mem_cons.mp ha with rfl | ha
          · exact ⟨hr, hno⟩
          · exact hA a ha
        · rintro ⟨A, p', B, he, hA, hp'⟩
          cases A with
          | nil => simp at he; rw [← he.1] at hp'; exact absurd hp' hr
          | cons a A =>
            simp at he
            exact ⟨A, p', B, he.2, fun a ha => hA a (by simp [ha]), hp'⟩

theorem suffix_outcome {sip : Bytes → UInt64} {ps : List Pattern} {t : SuffixTable} (hb : SuffixTable.build sip ps = .ok t)
    (hu : ∀ p ∈ ps, Utf8Lits p) (hcol : NoCollision sip ps) {x : Bytes} (hx : Utf8 x) : Outcome (SuffixTrouble ps x) (t.parse x) := by
  have h := reach_of_build hb
  obtain ⟨hpar, hmem⟩ := sbuild_parsers hb hcol
  have hus := reach_utf8 h hu
  by_cases hno : ∀ l, ¬ Leads ps l
  · have he : t.literalEntries = [] := by
      cases hl : t.literalEntries with
      | nil => rfl
      | cons e es => exact absurd ((reach_has h e.literal).mp ⟨e, by rw [hl]; simp, rfl⟩) (hno _)
    rw [sparse_nolit (lcp_nil he x)]
    refine outcome_congr ?_ (sparRel_outcome hpar (fun p hp => hu p (hmem p hp)) hx)
    constructor
    · intro h; exact .inl ⟨hno, h⟩
    · rintro (⟨_, h⟩ | ⟨l, hl, _⟩)
      · exact h
      · exact absurd hl.1 (hno l)
  · have hex : ∃ l, Leads ps l := Classical.not_forall_not.mp hno
    obtain ⟨e, he, h1, hch⟩ := lcp_chosen h hu hx hex
    rw [sparse_lit hx (hus e he) h1]
    have hent := (reach_entry h).mp he
    unfold entryFor at hent
    rw [if_pos (show ∃ p, p ∈ ps ∧ p.pattern.head? = some (.literal e.literal) from hch.1)] at hent
    simp at hent
    have hchild : e.child = (moreFor ps e.literal).map fun p => ssingle p.pattern.tail p.strip := by conv => lhs; rw [← hent]
    have hiff : SuffixTrouble ps x ↔ commonPrefixLen e.literal x ≠ x.length ∧ ∃ p, moreFor ps e.literal = some p ∧ LooseTrouble p.pattern x := by
      constructor
      · rintro (⟨h, _⟩ | ⟨l, hl, h2, p, h3, h4⟩)
        · exact absurd hex (by simpa using h)
        · obtain rfl := chosen_unique hch hl
          exact ⟨fun hk => h2 ((cpl_eq_length_right (hus e he) hx).mp hk), p, lastMore_iff.mp h3, h4⟩
      · rintro ⟨hk, p, h3, h4⟩
        exact .inr ⟨_, hch, fun h2 => hk ((cpl_eq_length_right (hus e he) hx).mpr h2), p, lastMore_iff.mpr h3, h4⟩
    refine outcome_congr hiff.symm ?_
    by_cases hk : commonPrefixLen e.literal x = x.length
    · rw [if_pos hk]
      exact outcome_ok (fun h => h.1 hk) rfl
    · rw [if_neg hk]
      cases hw : moreFor ps e.literal with
      | none =>
        rw [hw] at hchild; simp at hchild; rw [hchild]
        exact outcome_ok (by rintro ⟨_, p, h, _⟩; simp at h) rfl
      | some p =>
        rw [hw] at hchild; simp at hchild; rw [hchild]
        obtain ⟨hm, rest, hrest, e1⟩ := moreFor_some hw
        have htail : p.pattern.tail = rest := by rw [e1]; rfl
        rw [htail]
        refine outcome_congr ?_ (ssingle_outcome (fun l hl => hu p hm l (by rw [e1]; simp [hl]))
          (boundary_split hx (cpl_boundary_right (hus e he) hx)).2)
        constructor
        · intro h5
          exact ⟨hk, p, rfl, by rw [e1, trouble_lit (hus e he) hx]; exact ⟨hrest, hk, h5⟩⟩
        · rintro ⟨_, q, hq, h5⟩
          simp at hq; subst hq
          rw [e1, trouble_lit (hus e he) hx] at h5
          exact h5.2.2

end Verif
