import Verif.Proofs.TrieClash
/-! Exactly when the trie matcher panics, for any UTF-8 literals and texts. -/
namespace Verif
open Spec

/-! ### parsers -/

theorem parser_error (p : Parser) {x : Bytes} {e : Panic} (h : p.parse x = .error e) : e = .slice := by
  cases p with
  | set p =>
    simp only [Parser.parse, SetParser.parse] at h
    split at h
    · unfold sliceTo at h
      split at h <;> rename_i h2 <;> split at h2 <;> simp at h h2
      · rw [← h, ← h2]
    · simp at h
  | int p =>
    simp only [Parser.parse, SetParser.parse] at h
    split at h
    · unfold sliceTo at h
      split at h <;> rename_i h2 <;> split at h2 <;> simp at h h2
      · rw [← h, ← h2]
    · simp at h
  | greedy p =>
    simp only [Parser.parse, GreedyParser.parse] at h
    split at h
    · split at h
      · simp at h
      · unfold sliceTo at h
        split at h <;> rename_i h2 <;> split at h2 <;> simp at h h2
        · rw [← h, ← h2]
    · simp at h

/-- A parser applied to a text, panics included. -/
theorem parser_exact (p : Parser) {x : Bytes} (hx : Utf8 x) :
    (∃ v y, x = v ++ y ∧ Utf8 v ∧ Utf8 y ∧ ParserMatch p x v ∧ p.parse x = .ok (some v)) ∨
    (∃ v, ParserMatch p x v ∧ ¬Utf8 v ∧ p.parse x = .error .slice) ∨
    ((¬∃ v, ParserMatch p x v) ∧ p.parse x = .ok none) := by
  by_cases h : ∃ v, ParserMatch p x v
  · obtain ⟨v, hv⟩ := h
    obtain ⟨y, rfl⟩ := parserMatch_prefix hv
    by_cases hu : Utf8 v
    · have hy : Utf8 y := utf8_cancel hu hx
      exact .inl ⟨v, y, rfl, hu, hy, hv, (parse_some p _ v).mpr ⟨hv, isCharBoundary_append_right hy⟩⟩
    · refine .inr (.inl ⟨v, hv, hu, ?_⟩)
      cases hp : p.parse (v ++ y) with
      | error e => rw [parser_error p hp]
      | ok r =>
        cases r with
        | none => exact absurd ⟨v, hv⟩ ((parse_none p _).mp hp)
        | some w =>
          obtain ⟨h1, h2⟩ := (parse_some p _ w).mp hp
          have := parserMatch_unique hv h1
          subst this
          exact absurd (by simpa using (boundary_split hx h2).1) hu
  · exact .inr (.inr ⟨h, (parse_none p x).mpr h⟩)

/-! ### patterns -/

theorem runsInto_nil {toks : List Token} (hne : LitsNe toks) : ¬RunsInto toks [] := by
  intro h
  generalize hx : ([] : Bytes) = x at h
  induction h with
  | here l toks x h _ => exact h hx.symm
  | cut a toks v x h hv =>
    subst hx
    have := parserMatch_prefix h
    simp at this; subst this
    exact hv utf8_nil
  | literal l toks x h ih =>
    simp at hx
    exact hne l (by simp) hx.1
  | parser a toks v x h1 h2 ih =>
    simp at hx
    exact ih (fun l hl => hne l (by simp [hl])) hx.2.symm

theorem nonAsciiFirst_of_append {l y : Bytes} (h0 : l ≠ []) (h : NonAsciiFirst (l ++ y)) : NonAsciiFirst l := by
  obtain ⟨b, t, e, hb⟩ := h
  cases l with
  | nil => exact absurd rfl h0
  | cons a l => simp at e; exact ⟨a, l, rfl, by rw [e.1]; exact hb⟩

theorem runsInto_lit {l y : Bytes} {toks : List Token} (hl : ¬NonAsciiFirst l) (h0 : l ≠ []) (h : RunsInto (.literal l :: toks) (l ++ y)) :
    RunsInto toks y := by
  generalize hx : l ++ y = x at h
  cases h with
  | here _ _ _ _ hf =>
    rcases hf with hf | hf
    · rw [← hx] at hf; exact absurd (nonAsciiFirst_of_append h0 hf) hl
    · exact absurd hf hl
  | literal _ _ x' h =>
    have := List.append_cancel_left hx
    rw [this]; exact h

theorem runsInto_lit_start {l x : Bytes} {toks : List Token} (h : RunsInto (.literal l :: toks) x) :
    (x ≠ [] ∧ (NonAsciiFirst x ∨ NonAsciiFirst l)) ∨ l <+: x := by
  cases h with
  | here _ _ _ h1 hf => exact .inl ⟨h1, hf⟩
  | literal _ _ x' h => exact .inr (List.prefix_append _ _)

theorem runsInto_par {a : Parser} {toks : List Token} {v y : Bytes} (hv : Utf8 v) (hm : ParserMatch a (v ++ y) v)
    (h : RunsInto (.parser a :: toks) (v ++ y)) : RunsInto toks y := by
  generalize hx : v ++ y = x at h hm
  cases h with
  | cut _ _ w _ h1 h2 => exact absurd (parserMatch_unique h1 hm ▸ hv) h2
  | parser _ _ w z h1 h2 =>
    have := parserMatch_unique h1 hm
    subst this
    rw [List.append_cancel_left hx]; exact h2

theorem runsInto_par_match {a : Parser} {toks : List Token} {x : Bytes} (h : RunsInto (.parser a :: toks) x) : ∃ v, ParserMatch a x v := by
  cases h with
  | cut _ _ w _ h1 _ => exact ⟨w, h1⟩
  | parser _ _ w z h1 _ => exact ⟨w, h1⟩

/-- A parser node that belongs to one pattern. -/
theorem parserNode_outcome {rest : List Token} {q : Pattern} {m : ParserNode} (hpat : rest = [] → m.pattern = some q)
    (hnode : m.node = restNode rest q) {x : Bytes} (hx : Utf8 x)
    (ih : rest ≠ [] → ∀ y, Utf8 y → Outcome (RunsInto rest y) ((single rest q).parse y)) :
    Outcome (RunsInto (.parser m.parser :: rest) x) (m.parse x) := by
  rcases parser_exact m.parser hx with ⟨v, y, rfl, hv, hy, hm, hp⟩ | ⟨v, hm, hv, hp⟩ | ⟨hno, hp⟩
  · have ht : ltrunc (v ++ y) v.length = .ok y := by
      rw [ltrunc, sliceFrom_ok (isCharBoundary_append_right hy)]; simp
    have hiff : RunsInto rest y ↔ RunsInto (.parser m.parser :: rest) (v ++ y) :=
      ⟨fun h => .parser _ _ _ _ hm h, fun h => runsInto_par hv hm h⟩
    refine outcome_congr hiff ?_
    rw [ParserNode.parse, hp]
    simp only [ht]
    cases rest with
    | nil =>
      have hn : m.node = none := hnode
      have hr : ¬RunsInto [] y := by intro h; cases h
      split
      · rename_i d hd; rw [hn] at hd; simp at hd
      · unfold ParserNode.pushLastKvpair
        rw [hpat rfl]
        cases y with
        | nil => exact outcome_ok hr (by simp [unwrap, bind, Except.bind, pure, Except.pure]; rfl)
        | cons b y => exact outcome_ok hr (by simp [pure, Except.pure]; rfl)
    | cons tok rest =>
      have hn : m.node = some (single (tok :: rest) q) := hnode
      split
      · rename_i d hd
        rw [hn] at hd; simp at hd; subst hd
        obtain ⟨h1, h2⟩ := ih (by simp) y hy
        refine ⟨fun hr => ?_, fun hr => ?_⟩
        · rw [parseThenPushKvpair, h1 hr]
        · obtain ⟨r, hr⟩ := h2 hr
          rw [parseThenPushKvpair, hr]
          cases r <;> exact ⟨_, rfl⟩
      · rename_i hd; rw [hn] at hd; simp at hd
  · refine outcome_error (.cut _ _ v _ hm hv) ?_
    rw [ParserNode.parse, hp]
  · refine outcome_ok (fun h => hno (runsInto_par_match h)) (r := none) ?_
    rw [ParserNode.parse, hp]

/-- At most one literal at the top: the comparison panics iff the text is not empty and one of them begins with a character outside ASCII. -/
theorem single_outcome {toks : List Token} {q : Pattern} (hu : LitsP Utf8 toks) (hl : LitsNe toks) {x : Bytes} (hx : Utf8 x) :
    Outcome (RunsInto toks x) ((single toks q).parse x) := by
  induction toks generalizing x with
  | nil =>
    refine outcome_ok (by intro h; cases h) (r := none) ?_
    have := (parse_exact (inv_single (P := Utf8) [] q hu) (sepTree_single [] q) hx).2 (by
      rw [troubled_iff]
      rintro (⟨_, ⟨n, hn, _⟩, _⟩ | ⟨n, hn, _⟩) <;> simp [single, SuffixTree.new] at hn)
    rw [walk_none (by simp [single, hit?, SuffixTree.new])] at this
    rw [this]
    simp [single, SuffixTree.new, parseWithParsers]
  | cons tok rest ih =>
    have hu' : LitsP Utf8 rest := fun l hl => hu l (by simp [hl])
    have hl' : LitsNe rest := fun l h => hl l (by simp [h])
    have pe := parse_exact (inv_single (P := Utf8) (tok :: rest) q hu) (sepTree_single (tok :: rest) q) hx
    cases tok with
    | parser a =>
      have pe := pe.2 (by
        rw [troubled_iff]
        rintro (⟨_, ⟨n, hn, _⟩, _⟩ | ⟨n, hn, _⟩) <;> simp [single] at hn)
      rw [walk_none (by simp [single, hit?])] at pe
      rw [pe]
      have key := parserNode_outcome (rest := rest) (q := q) (m := ⟨a, restPat rest q, restNode rest q⟩) (by rintro rfl; rfl) rfl hx
        (fun _ y hy => ih hu' hl' hy)
      have e : (single (.parser a :: rest) q).parserChildren = [⟨a, restPat rest q, restNode rest q⟩] := rfl
      rw [e]
      refine ⟨fun hr => ?_, fun hr => ?_⟩
      · rw [parseWithParsers, key.1 hr]
      · obtain ⟨r, hr⟩ := key.2 hr
        rw [parseWithParsers, hr]
        cases r with
        | none => exact ⟨none, by simp [parseWithParsers]⟩
        | some r => exact ⟨_, rfl⟩
    | literal l =>
      have hul : Utf8 l := hu l (by simp)
      have h0 : l ≠ [] := hl l (by simp)
      have elits : (single (.literal l :: rest) q).literalChildren = [⟨l, true, restPat rest q, restNode rest q⟩] := rfl
      have epars : (single (.literal l :: rest) q).parserChildren = [] := rfl
      have hclash : Clash (single (.literal l :: rest) q) x ↔ x ≠ [] ∧ (NonAsciiFirst x ∨ NonAsciiFirst l) := by
        unfold Clash
        rw [elits]
        simp [h0]
      by_cases hc : Clash (single (.literal l :: rest) q) x
      · exact outcome_error (.here _ _ _ (hclash.mp hc).1 (hclash.mp hc).2) (pe.1 (troubled_iff.mpr (.inl hc)))
      · have hcx := fun h => hc (hclash.mpr h)
        by_cases hpx : l <+: x
        · obtain ⟨y, rfl⟩ := hpx
          have hnl : ¬NonAsciiFirst l := fun h => hcx ⟨by simp [h0], .inr h⟩
          have hy : Utf8 y := utf8_cancel hul hx
          have hh : hit? (single (.literal l :: rest) q).literalChildren (l ++ y) = some ⟨l, true, restPat rest q, restNode rest q⟩ := by
            rw [elits, hit_cons, if_pos (prefix_rk (List.prefix_append _ _) h0)]
          have hiff : RunsInto rest y ↔ RunsInto (.literal l :: rest) (l ++ y) :=
            ⟨fun h => .literal _ _ _ h, fun h => runsInto_lit hnl h0 h⟩
          refine outcome_congr hiff ?_
          have htr : Troubled (single (.literal l :: rest) q) (l ++ y) → ∃ c, restNode rest q = some c ∧ Troubled c y := by
            rw [troubled_iff]
            rintro (h | ⟨n, hn, _, c, z, hnc, he, h⟩)
            · exact absurd h hc
            · rw [elits] at hn
              simp at hn
              subst hn
              simp at he
              subst he
              exact ⟨c, hnc, h⟩
          by_cases hy0 : y = []
          · subst hy0
            have pe := pe.2 (fun h => by obtain ⟨c, _, h⟩ := htr h; exact troubled_nil h)
            have hw : walk (single (.literal l :: rest) q) (l ++ []) = .found ⟨l, true, restPat rest q, restNode rest q⟩ := by
              rw [walk_some hh]
              cases restNode rest q <;> simp
            rw [hw] at pe
            exact outcome_ok (runsInto_nil hl') pe
          · cases rest with
            | nil =>
              have pe := pe.2 (fun h => by obtain ⟨c, h1, _⟩ := htr h; simp [restNode] at h1)
              have hw := walk_some hh
              simp only [restNode, List.isEmpty_nil, if_true] at hw
              rw [if_neg (by simpa using hy0)] at hw
              rw [hw] at pe
              refine outcome_ok (by intro h; cases h) (r := none) ?_
              rw [pe, epars, parseWithParsers]
            | cons tok rest =>
              have hne : ¬((⟨l, true, restPat (tok :: rest) q, restNode (tok :: rest) q⟩ : LiteralNode).hasValue = true ∧ l = l ++ y) := by
                simpa using hy0
              have hw := walk_down hh (c := single (tok :: rest) q) rfl (List.prefix_append _ _) hne
              simp only [List.drop_left] at hw
              have pe' := parse_exact (inv_single (P := Utf8) (tok :: rest) q hu') (sepTree_single (tok :: rest) q) hy
              have this : (single (.literal l :: tok :: rest) q).parse (l ++ y) = (single (tok :: rest) q).parse y := by
                by_cases ht : Troubled (single (tok :: rest) q) y
                · rw [pe'.1 ht]
                  refine pe.1 (troubled_iff.mpr (.inr ⟨⟨l, true, restPat (tok :: rest) q, restNode (tok :: rest) q⟩, by rw [elits]; simp, h0, _, y, rfl, rfl, ht⟩))
                · have pe' := pe'.2 ht
                  have pe := pe.2 (fun h => by
                    obtain ⟨c, h1, h2⟩ := htr h
                    have e : restNode (tok :: rest) q = some (single (tok :: rest) q) := rfl
                    rw [e] at h1
                    simp at h1
                    rw [← h1] at h2; exact ht h2)
                  rw [hw] at pe
                  cases hw' : walk (single (tok :: rest) q) y with
                  | found n => rw [hw'] at pe pe'; rw [pe, pe']
                  | stuck c z => rw [hw'] at pe pe'; rw [pe, pe']
              rw [this]
              exact ih hu' hl' hy
        · have hst : walk (single (.literal l :: rest) q) x = .stuck (single (.literal l :: rest) q) x := by
            cases hh : hit? (single (.literal l :: rest) q).literalChildren x with
            | none => exact walk_none hh
            | some n =>
              have hn := hit_mem hh
              rw [elits] at hn
              simp at hn
              have hlit : n.literal = l := by rw [hn]
              rw [walk_some hh]
              cases n.node with
              | none => simp only; rw [if_neg]; rw [hlit]; rintro rfl; exact hpx (List.prefix_refl _)
              | some c => simp only; rw [if_pos (by rw [hlit]; exact hpx)]
          have pe := pe.2 (by
            rw [troubled_iff]
            rintro (h | ⟨n, hn, _, c, z, hnc, he, h⟩)
            · exact hc h
            · rw [elits] at hn
              simp at hn
              subst hn
              exact hpx (by rw [he]; exact List.prefix_append _ _))
          rw [hst] at pe
          refine outcome_ok (fun h => ?_) (r := none) ?_
          · rcases runsInto_lit_start h with h | h
            · exact hcx h
            · exact hpx h
          · rw [pe, epars, parseWithParsers]

theorem stands_outcome {n : ParserNode} {p : Pattern} (h : Stands n p) (hu : Utf8Lits p) (hne : NonemptyLits p) {x : Bytes} (hx : Utf8 x) :
    Outcome (RunsInto p.pattern x) (n.parse x) := by
  obtain ⟨rest, hp, h1, h2⟩ := h
  rw [hp]
  refine parserNode_outcome h1 h2 hx (fun _ y hy => single_outcome ?_ ?_ hy)
  · intro l hl; exact hu l (by rw [hp]; simp [hl])
  · intro l hl; exact hne l (by rw [hp]; simp [hl])

theorem parRel_outcome {ns : List ParserNode} {ps : List Pattern} (h : ParRel ns ps) (hu : ∀ p ∈ ps, Utf8Lits p)
    (hne : ∀ p ∈ ps, NonemptyLits p) {x : Bytes} (hx : Utf8 x) : Outcome (FirstPanics ps x) (parseWithParsers ns x) := by
  induction h with
  | nil =>
    refine outcome_ok (r := none) ?_ (by rw [parseWithParsers])
    rintro ⟨A, p, B, h, _⟩
    simp at h
  | cons n p ns ps hst hrel ih =>
    have ho := stands_outcome hst (hu p (by simp)) (hne p (by simp)) hx
    have ih := ih (fun p hp => hu p (by simp [hp])) (fun p hp => hne p (by simp [hp]))
    by_cases hr : RunsInto p.pattern x
    · refine outcome_error ⟨[], p, ps, rfl, by simp, hr⟩ ?_
      rw [parseWithParsers, ho.1 hr]
    · obtain ⟨r, hres⟩ := ho.2 hr
      have hans := stands_answers hst (hu p (by simp)) (hne p (by simp)) hx hres
      cases r with
      | some r =>
        refine outcome_ok ?_ (r := some r) (by rw [parseWithParsers, hres])
        rintro ⟨A, p', B, he, hA, hp'⟩
        cases A with
        | nil => simp at he; rw [← he.1] at hp'; exact hr hp'
        | cons a A =>
          simp at he
          have := hans.2 (by rw [he.1]; exact (hA a (by simp)).2)
          simp at this
      | none =>
        have hno : ¬∃ caps, MatchesStrict p.pattern x caps := by
          rintro ⟨caps, hm⟩
          obtain ⟨res', e, _⟩ := hans.1 caps hm
          simp at e
        have e : parseWithParsers (n :: ns) x = parseWithParsers ns x := by rw [parseWithParsers, hres]
        rw [e]
        refine outcome_congr ?_ ih
        constructor
        · rintro ⟨A, p', B, he, hA, hp'⟩
          refine ⟨p :: A, p', B, by simp [he], ?_, hp'⟩
          intro a ha
          rcases List.mem_cons.mp ha with rfl | ha
          · exact ⟨hr, hno⟩
          · exact hA a ha
        · rintro ⟨A, p', B, he, hA, hp'⟩
          cases A with
          | nil => simp at he; rw [← he.1] at hp'; exact absurd hp' hr
          | cons a A =>
            simp at he
            exact ⟨A, p', B, he.2, fun a ha => hA a (by simp [ha]), hp'⟩

/-! ### the table -/

theorem treeAt_entry {t : SuffixTree} {pre : Bytes} {c : SuffixTree} (h : TreeAt t pre c) (hi : Inv P t) {z : Bytes} (hz : z ≠ [])
    {w : Option Pattern} {ps : List ParserNode} : EntryAt t (pre ++ z) w ps ↔ EntryAt c z w ps := by
  induction h with
  | here => rfl
  | down t n c pre d hn h0 hc h ih =>
    rw [← ih (hi.child n hn c hc)]
    constructor
    · intro he
      rw [List.append_assoc] at he
      have := entryAt_node hi.lits hn (prefix_rk (List.prefix_append _ _) h0) he
      rcases this with ⟨_, h1, _⟩ | ⟨_, c', x', h2, h3, h4⟩
      · simp at h1; exact absurd h1.2 hz
      · rw [hc] at h2; simp at h2; subst h2
        rw [List.append_cancel_left h3]; exact h4
    · intro he
      rw [List.append_assoc]
      exact .down t n c _ _ _ hn h0 hc he

theorem treeAt_shape {t : SuffixTree} {pre : Bytes} {c : SuffixTree} (h : TreeAt t pre c) (hi : Inv P t) (hs : TShape t) : Inv P c ∧ TShape c := by
  induction h with
  | here => exact ⟨hi, hs⟩
  | down t n c pre d hn h0 hc h ih => exact ih (hi.child n hn c hc) (hs.child n hn h0 c hc)

/-- The part of `TableRel` that is about literals. -/
structure LitRel (rows : List Row) (t : SuffixTree) : Prop where
  shape : TShape t
  rows : RowsRel rows t

theorem TableRel.lits {T : Table} {t : SuffixTree} (h : TableRel T t) : LitRel T.rows t := ⟨h.shape, h.rows⟩

section
variable {rows : List Row} {t : SuffixTree}

/-- The entries below a node are the rows whose texts go on after it. -/
theorem below_iff (hi : Inv P t) (h : LitRel rows t) {pre : Bytes} {c : SuffixTree} (hc : TreeAt t pre c) (Q : Bytes → Prop) :
    (∃ n ∈ c.literalChildren, n.literal ≠ [] ∧ ∃ x w ps, NEntry n x w ps ∧ Q x) ↔ ∃ r ∈ rows, ∃ z, z ≠ [] ∧ r.text = pre ++ z ∧ Q z := by
  constructor
  · rintro ⟨n, hn, h0, x, w, ps, he, hq⟩
    have hx0 : x ≠ [] := by
      rcases he with ⟨_, rfl, _⟩ | ⟨_, _, x', _, rfl, _⟩
      · exact h0
      · simp [h0]
    have := (treeAt_entry hc hi hx0).mpr (entryAt_iff.mpr ⟨n, hn, he⟩)
    obtain ⟨r, hr, he, _⟩ := (h.rows.entries _ _ _).mp this
    exact ⟨r, hr, x, hx0, he, hq⟩
  · rintro ⟨r, hr, z, hz0, hz, hq⟩
    have he := (h.rows.entries _ _ _).mpr ⟨r, hr, rfl, rfl, rfl⟩
    rw [hz] at he
    have he := (treeAt_entry hc hi hz0).mp he
    obtain ⟨n, hn, h1⟩ := entryAt_iff.mp he
    refine ⟨n, hn, ?_, z, _, _, h1, hq⟩
    intro h0
    have := nentry_rk h1
    rw [h0] at this
    exact hz0 (rk_eq_nil.mp this)

theorem extended_iff (hi : Inv P t) (h : LitRel rows t) {pre : Bytes} {c : SuffixTree} (hc : TreeAt t pre c) :
    (∃ n ∈ c.literalChildren, n.literal ≠ []) ↔ Extended rows pre := by
  obtain ⟨hic, hsc⟩ := treeAt_shape hc hi h.shape
  have := below_iff hi h hc (fun _ => True)
  constructor
  · rintro ⟨n, hn, h0⟩
    obtain ⟨x, w, ps, he⟩ := nentry_exists hsc hic hn
    obtain ⟨r, hr, z, hz0, hz, _⟩ := this.mp ⟨n, hn, h0, x, w, ps, he, trivial⟩
    exact ⟨r, hr, by rw [hz]; exact List.prefix_append _ _, by rw [hz]; simpa using hz0⟩
  · rintro ⟨r, hr, ⟨z, hz⟩, hne⟩
    obtain ⟨n, hn, h0, _⟩ := this.mpr ⟨r, hr, z, by rintro rfl; simp at hz; exact hne hz.symm, hz.symm, trivial⟩
    exact ⟨n, hn, h0⟩

theorem nentry_nonAscii {n : LiteralNode} {x : Bytes} {w : Option Pattern} {ps : List ParserNode} (h : NEntry n x w ps) :
    NonAsciiFirst x ↔ NonAsciiFirst n.literal := by
  have hr := nentry_rk h
  constructor
  · rintro ⟨b, s, rfl, hb⟩
    cases hl : n.literal with
    | nil => rw [hl] at hr; simp [rk] at hr
    | cons a l => rw [hl] at hr; simp [rk] at hr; exact ⟨a, l, rfl, by omega⟩
  · rintro ⟨b, s, hl, hb⟩
    cases x with
    | nil => rw [hl] at hr; simp [rk] at hr
    | cons a l => rw [hl] at hr; simp [rk] at hr; exact ⟨a, l, rfl, by omega⟩

theorem nonAscii_iff (hi : Inv P t) (h : LitRel rows t) {pre : Bytes} {c : SuffixTree} (hc : TreeAt t pre c) :
    (∃ n ∈ c.literalChildren, NonAsciiFirst n.literal) ↔ ∃ r ∈ rows, ∃ z, r.text = pre ++ z ∧ NonAsciiFirst z := by
  obtain ⟨hic, hsc⟩ := treeAt_shape hc hi h.shape
  have := below_iff hi h hc NonAsciiFirst
  constructor
  · rintro ⟨n, hn, hf⟩
    obtain ⟨x, w, ps, he⟩ := nentry_exists hsc hic hn
    obtain ⟨r, hr, z, _, hz, hf⟩ := this.mp ⟨n, hn, nonAsciiFirst_ne hf, x, w, ps, he, (nentry_nonAscii he).mpr hf⟩
    exact ⟨r, hr, z, hz, hf⟩
  · rintro ⟨r, hr, z, hz, hf⟩
    obtain ⟨n, hn, _, x, w, ps, he, hf⟩ := this.mpr ⟨r, hr, z, nonAsciiFirst_ne hf, hz, hf⟩
    exact ⟨n, hn, (nentry_nonAscii he).mp hf⟩

/-- The nodes of the trie stand at the stop points. -/
theorem treeAt_iff (hi : Inv P t) (h : LitRel rows t) {b : Bytes} : (∃ c, TreeAt t b c) ↔ StopPoint rows b := by
  constructor
  · rintro ⟨c, htree⟩
    by_cases hpre : b = []
    · exact .inl hpre
    · rcases treeAt_stop htree hi h.shape hpre with ⟨h1, w, h2⟩ | ⟨_, _, x1, w1, p1, x2, w2, p2, n1, n2, hxx, hcs⟩
      · obtain ⟨row, hrow, h3, _, h4⟩ := (h.rows.entries _ _ _).mp h2
        refine .inr (.inl ⟨row, hrow, h3, ?_⟩)
        intro h5
        rw [h4] at h1
        exact h1 ((morePs_nil (h.rows.ok row hrow)).mpr h5)
      · obtain ⟨r1, hr1, rfl, _⟩ := (h.rows.entries _ _ _).mp n1
        obtain ⟨r2, hr2, rfl, _⟩ := (h.rows.entries _ _ _).mp n2
        exact .inr (.inr ⟨r1, hr1, r2, hr2, hxx, hcs⟩)
  · rintro (rfl | ⟨row, hrow, rfl, hm⟩ | ⟨r1, hr1, r2, hr2, hne, hcs⟩)
    · exact ⟨t, .here t⟩
    · have he := (h.rows.entries row.text _ _).mpr ⟨row, hrow, rfl, rfl, rfl⟩
      exact entry_treeAt he (fun h0 => hm ((morePs_nil (h.rows.ok row hrow)).mp h0))
    · have he1 := (h.rows.entries r1.text _ _).mpr ⟨r1, hr1, rfl, rfl, rfl⟩
      have he2 := (h.rows.entries r2.text _ _).mpr ⟨r2, hr2, rfl, rfl, rfl⟩
      exact parting_treeAt hi he1 he2 hne hcs

theorem clash_iff (hi : Inv P t) (h : LitRel rows t) {pre y : Bytes} {c : SuffixTree} (hc : TreeAt t pre c) :
    Clash c y ↔ y ≠ [] ∧ Extended rows pre ∧ (NonAsciiFirst y ∨ ∃ r ∈ rows, ∃ z, r.text = pre ++ z ∧ NonAsciiFirst z) := by
  unfold Clash
  rw [extended_iff hi h hc, nonAscii_iff hi h hc]

theorem troubled_table (hi : Inv P t) (h : LitRel rows t) {x : Bytes} : Troubled t x ↔ LookupPanics rows x := by
  constructor
  · rintro ⟨pre, c, y, hx, htree, hc⟩
    obtain ⟨h1, h2, h3⟩ := (clash_iff hi h htree).mp hc
    exact ⟨pre, y, hx, h1, (treeAt_iff hi h).mp ⟨c, htree⟩, h2, h3⟩
  · rintro ⟨pre, y, hx, h1, hs, h2, h3⟩
    obtain ⟨c, htree⟩ := (treeAt_iff hi h).mpr hs
    exact ⟨pre, c, y, hx, htree, (clash_iff hi h htree).mpr ⟨h1, h2, h3⟩⟩

theorem stuck_deepest {c : SuffixTree} {pre y : Bytes} (hi : Inv P t) (h : LitRel rows t) (htree : TreeAt t pre c)
    (hmax : ∀ pre' c', TreeAt t pre' c' → pre' <+: pre ++ y → pre'.length ≤ pre.length) : Deepest rows (pre ++ y) pre := by
  refine ⟨(treeAt_iff hi h).mp ⟨c, htree⟩, List.prefix_append _ _, ?_⟩
  intro b' hstop hpb
  obtain ⟨c', hc'⟩ := (treeAt_iff hi h).mpr hstop
  exact hmax _ _ hc' hpb

end

theorem deepest_unique {rows : List Row} {x b b' : Bytes} (h : Deepest rows x b) (h' : Deepest rows x b') : b = b' := by
  have h1 := h.2.2 b' h'.1 h'.2.1
  have h2 := h'.2.2 b h.1 h.2.1
  exact (List.prefix_of_prefix_length_le h.2.1 h'.2.1 h2).eq_of_length (by omega)

theorem addLiteralLed_more {rows : List Row} {l : Bytes} {alone : Bool} {p : Pattern} {r : Row} {q : Pattern}
    (h : r ∈ addLiteralLed rows l alone p) (hq : r.more = some q) : q = p ∨ ∃ s ∈ rows, s.more = some q := by
  have old : (rowOf rows l).more = some q → ∃ s ∈ rows, s.more = some q := by
    intro h1
    rcases rowOf_cases rows l with h2 | ⟨h2, _⟩
    · exact ⟨_, h2, h1⟩
    · rw [h2] at h1; simp at h1
  unfold addLiteralLed at h
  split at h
  · rw [List.mem_cons, List.mem_filter] at h
    rcases h with rfl | h
    · exact .inr (old hq)
    · exact .inr ⟨r, h.1, hq⟩
  · split at h
    · rw [List.mem_cons, List.mem_filter] at h
      rcases h with rfl | h
      · exact .inr (old hq)
      · exact .inr ⟨r, h.1, hq⟩
    · rw [List.mem_cons, List.mem_filter] at h
      rcases h with rfl | h
      · simp at hq; exact .inl hq.symm
      · exact .inr ⟨r, h.1, hq⟩

/-- The patterns in the table were added. -/
theorem table_mem (ps : List Pattern) : ∀ r ∈ (Table.of ps).rows, ∀ q, r.more = some q → q ∈ ps := by
  suffices ∀ (ps : List Pattern) (T : Table), ∀ r ∈ (ps.foldl Table.add T).rows, ∀ q, r.more = some q →
      q ∈ ps ∨ ∃ s ∈ T.rows, s.more = some q by
    intro r hr q hq
    rcases this ps ⟨[], []⟩ r hr q hq with h | ⟨s, hs, _⟩
    · exact h
    · simp at hs
  intro ps
  induction ps with
  | nil => intro T r hr q hq; exact .inr ⟨r, hr, hq⟩
  | cons p ps ih =>
    intro T r hr q hq
    rcases ih (T.add p) r hr q hq with h | ⟨s, hs, h⟩
    · exact .inl (by simp [h])
    · unfold Table.add at hs
      split at hs
      · exact .inr ⟨s, hs, h⟩
      · rcases addLiteralLed_more hs h with h | h
        · exact .inl (by simp [h])
        · exact .inr h
      · exact .inr ⟨s, hs, h⟩

/-- A trie that implements a table panics exactly where the table says. -/
theorem table_outcome {T : Table} {t : SuffixTree} (hi : Inv Utf8 t) (hsep : SepTree t) (h : TableRel T t) (hu : ∀ p ∈ T.parserLed, Utf8Lits p)
    (hne : ∀ p ∈ T.parserLed, NonemptyLits p) {x : Bytes} (hx : Utf8 x) : Outcome (T.Panics x) (t.parse x) := by
  have pe := parse_exact hi hsep hx
  have htt : Troubled t x ↔ LookupPanics T.rows x := troubled_table hi h.lits
  by_cases htr : Troubled t x
  · exact outcome_error (.inl (htt.mp htr)) (pe.1 htr)
  have pe := pe.2 htr
  have hnl : ¬LookupPanics T.rows x := fun h => htr (htt.mpr h)
  have hw := walk_spec hi x
  cases hwx : walk t x with
  | found n =>
    rw [hwx] at pe hw
    obtain ⟨row, h1, h2, _⟩ := (h.rows.entries _ _ _).mp hw
    refine outcome_ok ?_ pe
    rintro (hp | hp)
    · exact hnl hp
    · exact hp.1 row h1 h2
  | stuck c y =>
    rw [hwx] at pe hw
    obtain ⟨pre, rfl, htree, hmax⟩ := hw
    have hut := walk_stuck labelPred_utf8 hi hx hwx
    have hno : ∀ row ∈ T.rows, row.text ≠ pre ++ y := by
      intro row h1 h2
      have he := (h.rows.entries (pre ++ y) _ _).mpr ⟨row, h1, h2, rfl, rfl⟩
      obtain ⟨n, h3, _⟩ := walk_entry he hi h.shape
      rw [h3] at hwx; simp at hwx
    have hdeep := stuck_deepest hi h.lits htree hmax
    have hiff : T.Panics (pre ++ y) ↔ (pre = [] ∧ FirstPanics T.parserLed (pre ++ y)) ∨
        (pre ≠ [] ∧ ∃ row ∈ T.rows, row.text = pre ∧ ∃ p, row.more = some p ∧ RunsInto p.pattern (pre ++ y)) := by
      constructor
      · rintro (hp | ⟨_, b, hd, h3⟩)
        · exact absurd hp hnl
        · have := deepest_unique hd hdeep
          subst this
          exact h3
      · intro h3
        exact .inr ⟨hno, pre, hdeep, h3⟩
    refine outcome_congr hiff.symm ?_
    rw [pe]
    by_cases hpre : pre = []
    · subst hpre
      have := treeAt_nil htree
      subst this
      refine outcome_congr ?_ (parRel_outcome h.pars hu hne hut.2.1)
      constructor
      · intro h1; exact .inl ⟨rfl, h1⟩
      · rintro (⟨_, h1⟩ | ⟨h1, _⟩)
        · exact h1
        · exact absurd rfl h1
    · have hiff2 : ∀ row ∈ T.rows, row.text = pre → ((∃ p, row.more = some p ∧ RunsInto p.pattern (pre ++ y)) ↔
          (pre = [] ∧ FirstPanics T.parserLed (pre ++ y)) ∨
          (pre ≠ [] ∧ ∃ row ∈ T.rows, row.text = pre ∧ ∃ p, row.more = some p ∧ RunsInto p.pattern (pre ++ y))) := by
        intro row h1 h2
        constructor
        · intro h3; exact .inr ⟨hpre, row, h1, h2, h3⟩
        · rintro (⟨h3, _⟩ | ⟨_, row', h3, h4, h5⟩)
          · exact absurd h3 hpre
          · rw [h.rows.uniq row h1 row' h3 (h2.trans h4.symm)]; exact h5
      rcases treeAt_stop htree hi h.shape hpre with ⟨h1, w, h2⟩ | ⟨h1, h2, _⟩
      · obtain ⟨row, hrow, h3, _, h4⟩ := (h.rows.entries _ _ _).mp h2
        refine outcome_congr (hiff2 row hrow h3) ?_
        cases hmore : row.more with
        | none => rw [h4, (morePs_nil (h.rows.ok row hrow)).mpr hmore] at h1; exact absurd rfl h1
        | some p =>
          obtain ⟨hpa, hpne, a, rest, hpp⟩ := (h.rows.ok row hrow).2 p hmore
          rw [h3] at hpp
          have hnpre : ¬NonAsciiFirst pre := by
            intro hf
            refine hnl ⟨[], pre ++ y, rfl, by simp [hpre], .inl rfl, ⟨row, hrow, List.nil_prefix, by rw [h3]; exact hpre⟩, .inr ⟨row, hrow, pre, by simpa using h3, hf⟩⟩
          have hmp : morePs row = [⟨a, if rest.isEmpty then some p.strip else none, if rest.isEmpty then none else some (single rest p.strip)⟩] := by
            simp [morePs, hmore, hpp, single]
          rw [h4, hmp]
          have hst : Stands ⟨a, if rest.isEmpty then some p.strip else none, if rest.isEmpty then none else some (single rest p.strip)⟩
              { p with pattern := .parser a :: rest } := by
            refine ⟨rest, rfl, ?_, rfl⟩
            intro h0; simp [h0]; rfl
          have ho := stands_outcome hst (p := { p with pattern := .parser a :: rest })
            (fun l hl => hpa l (by rw [hpp]; simp at hl; simp [hl])) (fun l hl => hpne l (by rw [hpp]; simp at hl; simp [hl])) hut.2.1
          have : RunsInto (.parser a :: rest) y ↔ ∃ p', some p = some p' ∧ RunsInto p'.pattern (pre ++ y) := by
            constructor
            · intro h5; exact ⟨p, rfl, by rw [hpp]; exact .literal _ _ _ h5⟩
            · rintro ⟨p', e, h5⟩
              simp at e; subst e
              rw [hpp] at h5
              exact runsInto_lit hnpre hpre h5
          refine outcome_congr this ?_
          refine ⟨fun hr => ?_, fun hr => ?_⟩
          · rw [parseWithParsers, ho.1 hr]
          · obtain ⟨r, hr⟩ := ho.2 hr
            rw [parseWithParsers, hr]
            cases r with
            | none => exact ⟨none, by simp [parseWithParsers]⟩
            | some r => exact ⟨_, rfl⟩
      · refine outcome_ok (r := none) ?_ (by rw [h1, parseWithParsers])
        rintro (⟨h3, _⟩ | ⟨_, row, h3, h4, p, h5, _⟩)
        · exact hpre h3
        · have he := (h.rows.entries pre _ _).mpr ⟨row, h3, h4, rfl, rfl⟩
          have := (morePs_nil (h.rows.ok row h3)).mp (h2 _ _ he)
          rw [h5] at this; simp at this

end Verif
