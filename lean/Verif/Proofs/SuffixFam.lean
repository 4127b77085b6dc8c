import Verif.Spec.SuffixAnswer
import Verif.Proofs.SuffixParse
import Verif.Proofs.TrieMore
/-! Families of patterns in the suffix-array matcher, and comparison with the trie. -/
namespace Verif
open Spec

/-! ### stored literals -/

theorem reach_literal {sip : Bytes → UInt64} {ps : List Pattern} {t : SuffixTable} (h : Reach sip ps t) {L : Bytes} (hL : Utf8 L)
    (hex : ∃ p ∈ ps, p.pattern.head? = some (.literal L)) : t.parse L = .ok ((wholeFor ps L).map fun p => MatchResult.new p.strip) := by
  have hl := h.lit L
  unfold entryFor at hl
  rw [if_pos hex] at hl
  have hm := List.mem_of_find?_eq_some hl
  have hlcp := lcp_exact h.sorted hm
  simp only at hlcp
  rw [sparse_lit hL hL hlcp]
  simp only [cpl_self, if_true, Option.map_map]
  rfl

/-! ### incomparable leading literals -/

theorem reach_incomparable {sip : Bytes → UInt64} {ps : List Pattern} {t : SuffixTable} (h : Reach sip ps t) (hu : ∀ p ∈ ps, Utf8Lits p)
    (hinc : Incomparable ps) {x : Bytes} (hx : Utf8 x) {r : Option MatchResult} (hr : t.parse x = .ok r) {p : Pattern} (hp : p ∈ ps) {caps}
    (hm : MatchesStrict p.pattern x caps) : ∃ res, r = some res ∧ IsResult res p caps := by
  have hus := reach_utf8 h hu
  obtain ⟨l, rest, hpl⟩ := hinc.1 p hp
  have hul : Utf8 l := hu p hp l (by rw [hpl]; simp)
  rw [hpl] at hm
  obtain ⟨y, rfl, hy, hs⟩ := strict_lit_inv hm
  have huniq : ∀ q ∈ ps, ∀ l' rest', q.pattern = .literal l' :: rest' → l <+: l' → q = p := by
    intro q hq l' rest' hql hpre
    by_cases hqp : q = p
    · exact hqp
    · exfalso
      obtain ⟨A, B, rfl⟩ := List.append_of_mem hp
      have hpw := hinc.2
      rw [List.pairwise_append, List.pairwise_cons] at hpw
      simp only [List.mem_append, List.mem_cons, hqp, false_or] at hq
      rcases hq with hq | hq
      · exact (hpw.2.2 q hq p (by simp) l' rest' l rest hql hpl).2 hpre
      · exact (hpw.2.1.1 q hq l rest l' rest' hpl hql).1 hpre
  obtain ⟨e0, he0, hel0⟩ := (reach_has h l).mpr ⟨p, hp, by rw [hpl]; rfl⟩
  have hcpl : commonPrefixLen l (l ++ y) = l.length := cpl_eq_length_left.mpr (List.prefix_append _ _)
  rcases lcp_spec h.sorted hus hx with ⟨h1, _⟩ | ⟨e, he, h1, h2⟩
  · rw [h1] at he0; simp at he0
  · have h3 := h2 e0 he0
    rw [hel0, hcpl] at h3
    have hpre : l <+: e.literal := by
      have h4 := cpl_take e.literal (l ++ y)
      have h5 : e.literal.take l.length = l := by
        have := congrArg (List.take l.length) h4
        rw [List.take_take, List.take_take, Nat.min_eq_left h3] at this
        simpa using this
      rw [← h5]; exact List.take_prefix _ _
    have hel : e.literal = l := by
      obtain ⟨q, hq, hqe⟩ := (reach_has h e.literal).mp ⟨e, he, rfl⟩
      cases hqp : q.pattern with
      | nil => rw [hqp] at hqe; simp at hqe
      | cons tok rest' =>
        rw [hqp] at hqe; simp at hqe; subst hqe
        have := huniq q hq _ _ hqp hpre
        subst this
        rw [hpl] at hqp; simp at hqp
        exact hqp.1.symm
    have hent := (reach_entry h).mp he
    rw [hel] at hent
    unfold entryFor at hent
    rw [if_pos ⟨p, hp, by rw [hpl]; rfl⟩] at hent
    simp at hent
    rw [sparse_lit hx (hus e he) h1, hel, hcpl] at hr
    by_cases hrest : rest = []
    · subst hrest
      obtain ⟨rfl, rfl⟩ := strict_nil_inv hs
      rw [if_pos (by simp)] at hr
      have hw : wholeFor ps l = some p := by
        cases hw : wholeFor ps l with
        | none =>
          unfold wholeFor at hw
          rw [List.find?_eq_none] at hw
          have := hw p (by simpa using hp)
          simp [hpl] at this
        | some q =>
          obtain ⟨hq, hqp⟩ := wholeFor_some hw
          rw [huniq q hq l [] hqp (List.prefix_refl _)]
      rw [← hent, hw] at hr
      simp at hr; subst hr
      exact ⟨_, rfl, rfl, hasCaptures_nil _⟩
    · have hy0 := hy hrest
      rw [if_neg (by simpa using hy0)] at hr
      have hw : moreFor ps l = some p := by
        cases hw : moreFor ps l with
        | none =>
          unfold moreFor at hw
          rw [List.find?_eq_none] at hw
          have := hw p (by simpa using hp)
          simp [hpl, hrest] at this
        | some q =>
          obtain ⟨hq, rest', hr', hqp⟩ := moreFor_some hw
          rw [huniq q hq l rest' hqp (List.prefix_refl _)]
      rw [← hent, hw] at hr
      simp [hpl] at hr
      have hu' : LitsP Utf8 rest := fun l' hl' => hu p hp l' (by rw [hpl]; simp [hl'])
      have := (ssingle_answers hrest hu' (utf8_cancel hul hx) hr).1 caps (strict_loose hs hu')
      obtain ⟨res, h4, h5, h6⟩ := this
      exact ⟨res, h4, h5, h6⟩

/-! ### parser-led families -/

/-- the parser entry of one pattern -/
def sparE? (p : Pattern) : Option ParserE :=
  match p.pattern with
  | .parser a :: rest => some (supdP rest p.strip (ParserE.new a))
  | _ => none

theorem putPar_append {sip : Bytes → UInt64} {a : Parser} {f : ParserE → ParserE} {es : List ParserE}
    (h : ∀ e ∈ es, e.parser.hashOs sip ≠ a.hashOs sip) : putPar sip a f es = es ++ [f (ParserE.new a)] := by
  induction es with
  | nil => rfl
  | cons e es ih =>
    unfold putPar
    rw [if_neg (by simpa using h e (by simp)), ih fun e he => h e (by simp [he])]; rfl

theorem sfold_parserLed {sip : Bytes → UInt64} (qs : List Pattern) (ps : List Pattern) (t : SuffixTable)
    (hled : ∀ p ∈ ps ++ qs, ∃ a rest, p.pattern = .parser a :: rest)
    (hd : (ps ++ qs).Pairwise fun p q => ∀ a rest b rest', p.pattern = .parser a :: rest → q.pattern = .parser b :: rest' →
      a.hashOs sip ≠ b.hashOs sip)
    (h1 : t.literalEntries = []) (h2 : t.parserEntries = ps.filterMap sparE?) :
    ∃ t', qs.foldlM (fun t p => t.addPattern sip p) t = .ok t' ∧ t'.literalEntries = [] ∧ t'.parserEntries = (ps ++ qs).filterMap sparE? := by
  induction qs generalizing ps t with
  | nil => exact ⟨t, rfl, h1, by simpa using h2⟩
  | cons q qs ih =>
    obtain ⟨a, rest, hq⟩ := hled q (by simp)
    have hins : t.insert sip q = .ok { t with parserEntries := t.parserEntries ++ [supdP rest q.strip (ParserE.new a)] } := by
      rw [sinsert_par sip t q a rest hq, sinsertParser_run, putPar_append]
      intro e he
      rw [h2, List.mem_filterMap] at he
      obtain ⟨p, hp, he⟩ := he
      obtain ⟨b, rest', hpb⟩ := hled p (by simp [hp])
      simp [sparE?, hpb] at he
      rw [← he, supdP_parser]
      rw [List.pairwise_append] at hd
      exact hd.2.2 p hp q (by simp) b rest' a rest hpb hq
    obtain ⟨t', h3, h4, h5⟩ := ih (ps ++ [q]) { t with parserEntries := t.parserEntries ++ [supdP rest q.strip (ParserE.new a)] }
      (by simpa using hled) (by simpa using hd) h1 (by simp [h2, sparE?, hq])
    refine ⟨t', ?_, h4, by simpa using h5⟩
    simp only [List.foldlM_cons, SuffixTable.addPattern, hins, bind, Except.bind]
    exact h3

theorem sparsers_first {ps : List Pattern} (hu : ∀ p ∈ ps, Utf8Lits p) (hled : ∀ p ∈ ps, ∃ a rest, p.pattern = .parser a :: rest)
    {x : Bytes} (hx : Utf8 x) {r : Option MatchResult} (hr : sparseWithParsers (ps.filterMap sparE?) x = .ok r) : FirstLoose ps x r := by
  induction ps generalizing r with
  | nil =>
    rw [List.filterMap_nil, sparseWithParsers] at hr
    simp at hr
    refine ⟨?_, fun _ => hr.symm⟩
    intro A p B caps h
    simp at h
  | cons p ps ih =>
    obtain ⟨a, rest, hp⟩ := hled p (by simp)
    have e1 : (p :: ps).filterMap sparE? = supdP rest p.strip (ParserE.new a) :: ps.filterMap sparE? := by
      simp [sparE?, hp]
    rw [e1] at hr
    have hu' : LitsP Utf8 rest := fun l hl => hu p (by simp) l (by rw [hp]; simp [hl])
    obtain ⟨r0, h1, h2⟩ := sparseWithParsers_cons hr
    have hans : SAnswers p.pattern p.strip x r0 := by
      rw [hp]
      refine parserE_answers (by rw [supdP_parser]; rfl) ?_ ?_ hx (fun h y hy r hr => ssingle_answers h hu' hy hr) h1
      · rintro rfl; simp [supdP, ParserE.new]
      · intro h; simp [supdP, h]
    rcases h2 with ⟨res, rfl, rfl⟩ | ⟨rfl, h2⟩
    · refine ⟨?_, ?_⟩
      · intro A p' B caps hs hA hm
        cases A with
        | nil =>
          simp at hs
          rw [← hs.1] at hm ⊢
          obtain ⟨res', h3, h4, h5⟩ := hans.1 caps hm
          exact ⟨res', h3, h4, h5⟩
        | cons a0 A =>
          simp at hs
          have := hans.2 (by rw [hs.1]; exact hA a0 (by simp))
          simp at this
      · intro hno
        have := hans.2 (hno p (by simp))
        simp at this
    · have ih := ih (fun p hp => hu p (by simp [hp])) (fun p hp => hled p (by simp [hp])) h2
      refine ⟨?_, ?_⟩
      · intro A p' B caps hs hA hm
        cases A with
        | nil =>
          simp at hs
          rw [← hs.1] at hm
          obtain ⟨res', h3, _⟩ := hans.1 caps hm
          simp at h3
        | cons a0 A =>
          simp at hs
          exact ih.1 A p' B caps hs.2 (fun a ha => hA a (by simp [ha])) hm
      · intro hno
        exact ih.2 fun p hp => hno p (by simp [hp])

/-! ### no literals at all: the two matchers coincide -/

/-- no literal token -/
def LitFree (toks : List Token) : Prop := ∀ l, Token.literal l ∉ toks

theorem parse_nolit {t : SuffixTree} (h : t.literalChildren = []) (x : Bytes) : t.parse x = parseWithParsers t.parserChildren x := by
  have e1 : t.search x = .ok .notFound := by
    unfold SuffixTree.search
    rw [h, bsearch_nil]
    rfl
  have e2 : t.lookupLiteral x = .ok (.err t x.length) := by
    unfold SuffixTree.lookupLiteral
    rw [e1]
  rw [SuffixTree.parse]
  split
  · rename_i h2; rw [e2] at h2; simp at h2
  · rename_i h2; rw [e2] at h2; simp at h2
  · rename_i n k h2
    rw [e2] at h2; simp at h2
    obtain ⟨rfl, rfl⟩ := h2
    simp only [checkedSub, Nat.le_refl, if_true, Nat.sub_self, ltrunc, sliceFrom_ok (isCharBoundary_zero x), List.drop_zero]

/-- lists of the same length with related elements -/
inductive Pairs {α β : Type} (R : α → β → Prop) : List α → List β → Prop
  | nil : Pairs R [] []
  | cons {a b as bs} : R a b → Pairs R as bs → Pairs R (a :: as) (b :: bs)

/-- Parser entries of the two matchers with corresponding contents give the same answer. -/
theorem parser_sim {n : ParserNode} {e : ParserE} (h1 : n.parser = e.parser) (h2 : n.pattern = e.pattern)
    (h3 : (n.node = none ∧ e.child = none ∧ e.pattern ≠ none) ∨
      ∃ c d, n.node = some c ∧ e.child = some d ∧ ∀ y, c.parse y = d.parse y) (x : Bytes) : n.parse x = e.parse x := by
  rw [ParserNode.parse, ParserE.parse, h1]
  cases hv : e.parser.parse x with
  | error _ => rfl
  | ok v =>
    cases v with
    | none => rfl
    | some v =>
      simp only
      cases hy : ltrunc x v.length with
      | error _ => rfl
      | ok y =>
        simp only
        rcases h3 with ⟨h4, h5, h6⟩ | ⟨c, d, h4, h5, h6⟩
        · split
          · rename_i h8; rw [h4] at h8; simp at h8
          · split
            · rename_i h8; rw [h5] at h8; simp at h8
            · unfold ParserNode.pushLastKvpair ParserE.createMatchResult
              rw [h2, h1]
              cases hq : e.pattern with
              | none => exact absurd hq h6
              | some q => simp only [unwrap, bind, Except.bind, pure, Except.pure]
        · split
          · rename_i c' h8
            rw [h4] at h8; simp at h8; subst h8
            split
            · rename_i d' h9
              rw [h5] at h9; simp at h9; subst h9
              rw [parseThenPushKvpair, h6]
              cases d.parse y with
              | error _ => rfl
              | ok r => cases r <;> rfl
            · rename_i h9; rw [h5] at h9; simp at h9
          · rename_i h8; rw [h4] at h8; simp at h8

theorem parsers_sim {ns : List ParserNode} {es : List ParserE} {x : Bytes} (h : Pairs (fun n e => n.parse x = e.parse x) ns es) :
    parseWithParsers ns x = sparseWithParsers es x := by
  induction h with
  | nil => rw [parseWithParsers, sparseWithParsers]
  | cons h _ ih =>
    rw [parseWithParsers, sparseWithParsers, h, ih]
    rename_i b _ _ _
    cases b.parse x with
    | error _ => rfl
    | ok r => cases r <;> rfl

theorem single_sim {toks : List Token} (hf : LitFree toks) (q : Pattern) (x : Bytes) : (single toks q).parse x = (ssingle toks q).parse x := by
  induction toks generalizing x with
  | nil =>
    rw [parse_nolit rfl, sparse_nolit (lcp_nil rfl x)]
    exact parsers_sim .nil
  | cons tok rest ih =>
    cases tok with
    | literal l => exact absurd (by simp) (hf l)
    | parser a =>
      have hf' : LitFree rest := fun l hl => hf l (by simp [hl])
      rw [parse_nolit rfl, sparse_nolit (lcp_nil rfl x)]
      refine parsers_sim (.cons (parser_sim rfl rfl ?_ x) .nil)
      by_cases hr : rest = []
      · left; simp [hr]
      · right; exact ⟨single rest q, ssingle rest q, by simp [hr], by simp [hr], ih hf'⟩

/-- corresponding parser entries of the two matchers -/
def ParSim (n : ParserNode) (e : ParserE) : Prop :=
  n.parser = e.parser ∧ n.pattern = e.pattern ∧
  ((n.node = none ∧ e.child = none ∧ e.pattern ≠ none) ∨
    ∃ c d, n.node = some c ∧ e.child = some d ∧ ∀ y, c.parse y = d.parse y)

theorem upd_sim {n : ParserNode} {e : ParserE} (h : ParSim n e ∨ (∃ a, n = ParserNode.new a ∧ e = ParserE.new a)) {rest : List Token}
    (hf : LitFree rest) (q : Pattern) : ParSim (updPar rest q n) (supdP rest q e) := by
  cases rest with
  | nil =>
    simp only [updPar, supdP, List.isEmpty_nil, if_true]
    rcases h with ⟨h1, h2, h3⟩ | ⟨a, rfl, rfl⟩
    · refine ⟨h1, rfl, ?_⟩
      rcases h3 with ⟨h4, h5, _⟩ | h3
      · left; exact ⟨h4, h5, by simp⟩
      · right; exact h3
    · exact ⟨rfl, rfl, .inl ⟨rfl, rfl, by simp⟩⟩
  | cons tok rest =>
    simp only [updPar, supdP, List.isEmpty_cons, Bool.false_eq_true, if_false]
    have h' : n.parser = e.parser ∧ n.pattern = e.pattern := by
      rcases h with ⟨h1, h2, h3⟩ | ⟨a, rfl, rfl⟩
      · exact ⟨h1, h2⟩
      · exact ⟨rfl, rfl⟩
    exact ⟨h'.1, h'.2, .inr ⟨_, _, rfl, rfl, single_sim hf q⟩⟩

theorem put_sim {sip : Bytes → UInt64} {ns : List ParserNode} {es : List ParserE} (h : Pairs ParSim ns es) (a : Parser)
    {rest : List Token} (hf : LitFree rest) (q : Pattern) : Pairs ParSim (insPar sip ns a rest q) (putPar sip a (supdP rest q) es) := by
  induction h with
  | nil => exact .cons (upd_sim (.inr ⟨a, rfl, rfl⟩) hf q) .nil
  | cons h hs ih =>
    rename_i n e ns es
    unfold insPar putPar
    rw [h.1]
    split
    · exact .cons (upd_sim (.inl h) hf q) hs
    · exact .cons h ih

theorem fold_sim {sip : Bytes → UInt64} (ps : List Pattern) (hf : ∀ p ∈ ps, LitFree p.pattern) (t : SuffixTree) (s : SuffixTable)
    (h1 : t.literalChildren = []) (h2 : s.literalEntries = []) (h3 : Pairs ParSim t.parserChildren s.parserEntries) :
    ∃ t' s', ps.foldlM (fun t p => t.addPattern sip p) t = .ok t' ∧ ps.foldlM (fun t p => t.addPattern sip p) s = .ok s' ∧
      t'.literalChildren = [] ∧ s'.literalEntries = [] ∧ Pairs ParSim t'.parserChildren s'.parserEntries := by
  induction ps generalizing t s with
  | nil => exact ⟨t, s, rfl, rfl, h1, h2, h3⟩
  | cons p ps ih =>
    simp only [List.foldlM_cons, SuffixTree.addPattern, SuffixTable.addPattern, bind, Except.bind]
    cases hp : p.pattern with
    | nil =>
      rw [insert_empty sip t p hp, sinsert_empty sip s p hp]
      exact ih (fun p hp => hf p (by simp [hp])) t s h1 h2 h3
    | cons tok rest =>
      cases tok with
      | literal l => exact absurd (by rw [hp]; simp) (hf p (by simp) l)
      | parser a =>
        rw [insert_par sip t p a rest hp, insertParser_run, sinsert_par sip s p a rest hp, sinsertParser_run]
        refine ih (fun p hp => hf p (by simp [hp])) _ _ h1 h2 (put_sim h3 a ?_ _)
        intro l hl
        exact hf p (by simp) l (by rw [hp]; simp [hl])

/-- Without literals the two matchers do the same on every text (panics included). -/
theorem litFree_same (sip : Bytes → UInt64) (ps : List Pattern) (hf : ∀ p ∈ ps, LitFree p.pattern) (x : Bytes) :
    (SuffixTree.build sip ps >>= fun t => t.parse x) = (SuffixTable.build sip ps >>= fun t => t.parse x) := by
  obtain ⟨t, s, h1, h2, h3, h4, h5⟩ := fold_sim (sip := sip) ps hf SuffixTree.new SuffixTable.new rfl rfl .nil
  unfold SuffixTree.build SuffixTable.build
  rw [h1, h2]
  show t.parse x = s.parse x
  rw [parse_nolit h3, sparse_nolit (lcp_nil h4 x)]
  apply parsers_sim
  clear h1 h2 h3 h4
  generalize t.parserChildren = ns at h5
  generalize s.parserEntries = es at h5
  induction h5 with
  | nil => exact .nil
  | cons h _ ih => exact .cons (parser_sim h.1 h.2.1 h.2.2 x) ih

/-! ### adding the same tokens twice -/

theorem supdL_twice (rest : List Token) (p q : Pattern) (e : LiteralE) : supdL rest q (supdL rest p e) = supdL rest q e := by
  cases rest <;> rfl

theorem supdP_twice (rest : List Token) (p q : Pattern) (e : ParserE) : supdP rest q (supdP rest p e) = supdP rest q e := by
  cases rest <;> rfl

theorem putLit_twice {l : Bytes} {rest : List Token} {p q : Pattern} (es : List LiteralE) :
    putLit l (supdL rest q) (putLit l (supdL rest p) es) = putLit l (supdL rest q) es := by
  have hnew : ∀ l, (LiteralE.new l).literal = l := fun _ => rfl
  induction es with
  | nil => simp [putLit, supdL_literal, hnew, cmpBytes_eq.mpr, supdL_twice]
  | cons e es ih =>
    have hu : ∀ f, putLit l f (e :: es) = match cmpBytes e.literal l with
      | .lt => e :: putLit l f es
      | .eq => f e :: es
      | .gt => f (LiteralE.new l) :: e :: es := fun _ => rfl
    rw [hu, hu]
    cases hc : cmpBytes e.literal l with
    | lt => simp only; simp only [putLit, hc]; rw [ih]
    | eq => simp only; simp only [putLit, supdL_literal, hc, supdL_twice]
    | gt => simp only; simp only [putLit, supdL_literal, hnew, cmpBytes_eq.mpr, supdL_twice]

theorem putPar_twice {sip : Bytes → UInt64} {a : Parser} {rest : List Token} {p q : Pattern} (es : List ParserE) :
    putPar sip a (supdP rest q) (putPar sip a (supdP rest p) es) = putPar sip a (supdP rest q) es := by
  have hnew : ∀ a, (ParserE.new a).parser = a := fun _ => rfl
  induction es with
  | nil => simp [putPar, supdP_parser, hnew, supdP_twice]
  | cons e es ih =>
    have hu : ∀ f es, putPar sip a f (e :: es) = if e.parser.hashOs sip == a.hashOs sip then f e :: es else e :: putPar sip a f es :=
      fun _ _ => rfl
    rw [hu, hu]
    by_cases hc : (e.parser.hashOs sip == a.hashOs sip) = true
    · rw [if_pos hc, if_pos hc]
      simp only [putPar, supdP_parser, hc, if_true, supdP_twice]
    · rw [if_neg hc, if_neg hc, hu, if_neg hc, ih]

theorem sinsert_twice {sip : Bytes → UInt64} {ps : List Pattern} {t t1 : SuffixTable} (h : Reach sip ps t) {p q : Pattern}
    (hpq : p.pattern = q.pattern) (h1 : t.insert sip p = .ok t1) : t1.insert sip q = t.insert sip q := by
  obtain ⟨t1', h2, h3⟩ := reach_step h p
  rw [h1] at h2; simp at h2; subst h2
  cases hp : p.pattern with
  | nil =>
    rw [sinsert_empty sip t p hp] at h1
    simp at h1; rw [h1]
  | cons tok rest =>
    cases tok with
    | literal l =>
      rw [sinsert_lit sip t p l rest hp, sinsertLiteral_run h.sorted] at h1
      simp at h1
      rw [sinsert_lit sip t q l rest (hpq ▸ hp), sinsertLiteral_run h.sorted, sinsert_lit sip t1 q l rest (hpq ▸ hp),
        sinsertLiteral_run h3.sorted, ← h1]
      simp only [putLit_twice]
    | parser a =>
      rw [sinsert_par sip t p a rest hp, sinsertParser_run] at h1
      simp at h1
      rw [sinsert_par sip t q a rest (hpq ▸ hp), sinsertParser_run, sinsert_par sip t1 q a rest (hpq ▸ hp), sinsertParser_run, ← h1]
      simp only [putPar_twice]

end Verif
