import Verif.Proofs.TrieHeads
/-! Families of parser-led patterns, effects of later additions, and re-adding a pattern. -/
namespace Verif
open Spec

variable {P : Bytes → Prop}

/-! ### parser-led patterns -/

theorem insPar_append {sip : Bytes → UInt64} {ps : List ParserNode} {a : Parser} {rest : List Token} {q : Pattern}
    (h : ∀ n ∈ ps, n.parser.hashOs sip ≠ a.hashOs sip) :
    insPar sip ps a rest q = ps ++ [updPar rest q (ParserNode.new a)] := by
  induction ps with
  | nil => rfl
  | cons n ps ih =>
    unfold insPar
    rw [if_neg (by simpa using h n (by simp)), ih fun m hm => h m (by simp [hm])]
    rfl

/-- The parser node of a parser-led pattern. -/
def parNode? (p : Pattern) : Option ParserNode :=
  match p.pattern with
  | .parser a :: rest => some (updPar rest p.strip (ParserNode.new a))
  | _ => none

theorem parNode_eq {p : Pattern} {a : Parser} {rest : List Token} (h : p.pattern = .parser a :: rest) :
    parNode? p = some (updPar rest p.strip (ParserNode.new a)) := by unfold parNode?; rw [h]

theorem updPar_new (rest : List Token) (q : Pattern) (a : Parser) :
    (updPar rest q (ParserNode.new a)).parser = a ∧ (updPar rest q (ParserNode.new a)).pattern = restPat rest q ∧
      (updPar rest q (ParserNode.new a)).node = restNode rest q := by
  unfold updPar restPat restNode
  split <;> exact ⟨rfl, rfl, rfl⟩

/-- All patterns start with parsers, with pairwise different hashes. -/
def ParserLed (sip : Bytes → UInt64) (ps : List Pattern) : Prop :=
  (∀ p ∈ ps, ∃ a rest, p.pattern = .parser a :: rest) ∧
  ps.Pairwise fun p q => ∀ a rest b rest', p.pattern = .parser a :: rest → q.pattern = .parser b :: rest' → a.hashOs sip ≠ b.hashOs sip

theorem build_parserLed {sip : Bytes → UInt64} {ps : List Pattern} {t : SuffixTree} (hu : ∀ p ∈ ps, Utf8Lits p)
    (hled : ParserLed sip ps) (h : SuffixTree.build sip ps = .ok t) :
    Inv Utf8 t ∧ t.literalChildren = [] ∧ t.parserChildren = ps.filterMap parNode? := by
  have key := build_induct (sip := sip) (fun ps t => ParserLed sip ps → t.literalChildren = [] ∧ t.parserChildren = ps.filterMap parNode?)
    (fun _ => ⟨rfl, rfl⟩)
    (fun ps t p t' hs hi hl ih hled => by
      obtain ⟨hlead, hpair⟩ := hled
      rw [List.pairwise_append] at hpair
      obtain ⟨h1, h2⟩ := ih ⟨fun p hp => hlead p (by simp [hp]), hpair.1⟩
      obtain ⟨a, rest, hp⟩ := hlead p (by simp)
      cases hs with
      | empty he => rw [hp] at he; simp at he
      | lit l r he => rw [hp] at he; simp at he
      | par a' rest' he =>
        rw [hp] at he; simp at he
        obtain ⟨rfl, rfl⟩ := he
        refine ⟨h1, ?_⟩
        simp only
        rw [insPar_append, h2, List.filterMap_append]
        · simp [parNode_eq hp]
        · intro n hn
          rw [h2, List.mem_filterMap] at hn
          obtain ⟨p', hp', e⟩ := hn
          obtain ⟨b, rest', hb⟩ := hlead p' (by simp [hp'])
          rw [parNode_eq hb] at e
          simp at e; subst e
          rw [(updPar_new _ _ _).1]
          exact hpair.2.2 p' hp' p (by simp) b rest' a rest hb hp)
    hu h
  exact ⟨key.1, key.2 hled⟩

theorem parsers_first {ps : List Pattern} (hu : ∀ p ∈ ps, Utf8Lits p) (hne : ∀ p ∈ ps, LitsNe p.pattern)
    (hled : ∀ p ∈ ps, ∃ a rest, p.pattern = .parser a :: rest) {x : Bytes} (hx : Utf8 x) {r : Option MatchResult}
    (h : parseWithParsers (ps.filterMap parNode?) x = .ok r) : FirstAnswer ps x r := by
  induction ps with
  | nil =>
    simp only [List.filterMap_nil] at h
    rw [parseWithParsers] at h
    simp at h
    refine ⟨?_, fun _ => h.symm⟩
    intro A p B caps he; simp at he
  | cons p ps ih =>
    obtain ⟨a, rest, hp⟩ := hled p (by simp)
    rw [List.filterMap_cons, parNode_eq hp] at h
    simp only at h
    rw [parseWithParsers] at h
    have ans : ∀ r, (updPar rest p.strip (ParserNode.new a)).parse x = .ok r → Answers p.pattern p.strip x r := by
      intro r hr
      rw [hp]
      refine parserNode_answers (updPar_new _ _ _) hx ?_ hr
      intro hr0 y hy r hr
      refine single_answers hr0 ?_ ?_ hy hr
      · intro l hl; exact hu p (by simp) l (by rw [hp]; simp [hl])
      · intro l hl; exact hne p (by simp) l (by rw [hp]; simp [hl])
    split at h
    · simp at h
    · rename_i res hres
      simp at h; subst h
      have hans := ans _ hres
      refine ⟨?_, ?_⟩
      · intro A p' B caps he hA hm
        cases A with
        | nil =>
          simp at he
          obtain ⟨rfl, rfl⟩ := he
          obtain ⟨res', e, e1, e2⟩ := hans.1 caps hm
          exact ⟨res', e, e1, e2⟩
        | cons a' A =>
          simp at he
          obtain ⟨rfl, rfl⟩ := he
          have := hans.2 (hA p (by simp))
          simp at this
      · intro hno
        exact hans.2 (hno p (by simp))
    · rename_i hres
      have hans := ans _ hres
      have hno : ¬∃ caps, MatchesStrict p.pattern x caps := by
        rintro ⟨caps, hm⟩
        obtain ⟨res', e, _⟩ := hans.1 caps hm
        simp at e
      have ih := ih (fun p hp => hu p (by simp [hp])) (fun p hp => hne p (by simp [hp])) (fun p hp => hled p (by simp [hp])) h
      refine ⟨?_, fun hall => ih.2 fun p hp => hall p (by simp [hp])⟩
      intro A p' B caps he hA hm
      cases A with
      | nil =>
        simp at he
        obtain ⟨rfl, rfl⟩ := he
        exact absurd ⟨caps, hm⟩ hno
      | cons a' A =>
        simp at he
        obtain ⟨rfl, rfl⟩ := he
        exact ih.1 A p' B caps rfl (fun a ha => hA a (by simp [ha])) hm

theorem parserLed_first {sip : Bytes → UInt64} {ps : List Pattern} {t : SuffixTree} (hu : ∀ p ∈ ps, Utf8Lits p)
    (hne : ∀ p ∈ ps, LitsNe p.pattern) (hled : ParserLed sip ps) (h : SuffixTree.build sip ps = .ok t) {x : Bytes} (hx : Utf8 x)
    {r : Option MatchResult} (hr : t.parse x = .ok r) : FirstAnswer ps x r := by
  obtain ⟨hi, h1, h2⟩ := build_parserLed hu hled h
  have hp := parse_partial hi hx hr
  rw [walk_none (by rw [h1]; rfl)] at hp
  simp only at hp
  rw [h2] at hp
  exact parsers_first hu hne hled.1 hx hp

/-! ### changes that do not concern a text -/

theorem walk_congr {t t' : SuffixTree} {x : Bytes} (h : hit? t'.literalChildren x = hit? t.literalChildren x) :
    walk t' x = walk t x ∨ (walk t x = .stuck t x ∧ walk t' x = .stuck t' x) := by
  cases hh : hit? t.literalChildren x with
  | none => exact .inr ⟨walk_none hh, walk_none (h.trans hh)⟩
  | some n =>
    rw [walk_some hh, walk_some (h.trans hh)]
    cases n.node with
    | none =>
      simp only
      split
      · exact .inl rfl
      · exact .inr ⟨rfl, rfl⟩
    | some c =>
      simp only
      split
      · exact .inr ⟨rfl, rfl⟩
      · exact .inl rfl

theorem ins_hit_other {g : LiteralNode → LiteralNode} (hg : GoodUpd g) {t t' : SuffixTree} {l x : Bytes} (h : Ins g t l t')
    (hi : Inv P t) (hr : rk x ≠ rk l) : hit? t'.literalChildren x = hit? t.literalChildren x := by
  cases h with
  | miss _ _ A B ht hA hB =>
    simp only
    rw [ht, hit_append, hit_append, hit_cons, if_neg (by rw [hg.literal]; exact fun h => hr h.symm)]
  | exact _ _ A B n ht hl hv =>
    have hs := hi.lits; rw [ht] at hs
    rw [ht]
    exact (hit_replace hs (by rw [hg.literal]) x).2 (by rw [hl]; exact hr)
  | split _ _ A B n ht hr' hs' hpos hrk =>
    have hs := hi.lits; rw [ht] at hs
    rw [ht]
    exact (hit_replace hs (by rw [hr']; simp only [splitNode]; exact rk_take hpos) x).2 (by rw [hr']; exact hr)
  | down _ _ A B n c c' ht hr' hp hc hne _ =>
    have hs := hi.lits; rw [ht] at hs
    rw [ht]
    exact (hit_replace (n' := { n with node := some c' }) hs rfl x).2 (by rw [hr']; exact hr)

theorem parse_congr {t t' : SuffixTree} (hi : Inv Utf8 t) (hi' : Inv Utf8 t') {x : Bytes} (hx : Utf8 x)
    (h : hit? t'.literalChildren x = hit? t.literalChildren x) (hp : t'.parserChildren = t.parserChildren)
    {r r' : Option MatchResult} (hr : t.parse x = .ok r) (hr' : t'.parse x = .ok r') : r' = r := by
  have h1 := parse_partial hi hx hr
  have h2 := parse_partial hi' hx hr'
  rcases walk_congr h with hw | ⟨hw, hw'⟩
  · rw [hw] at h2
    cases hw : walk t x with
    | found n => rw [hw] at h1 h2; simp only at h1 h2; rw [h1, h2]
    | stuck c rest => rw [hw] at h1 h2; simp only at h1 h2; rw [h1] at h2; simpa using h2.symm
  · rw [hw] at h1; rw [hw'] at h2
    simp only at h1 h2
    rw [hp, h1] at h2; simpa using h2.symm

theorem parseWithParsers_append {A B : List ParserNode} {x : Bytes} {res : MatchResult} (h : parseWithParsers A x = .ok (some res)) :
    parseWithParsers (A ++ B) x = .ok (some res) := by
  induction A with
  | nil => rw [parseWithParsers] at h; simp at h
  | cons m A ih =>
    rw [parseWithParsers] at h
    simp only [List.cons_append]
    rw [parseWithParsers]
    split at h
    · simp at h
    · exact h
    · exact ih h

/-- New alternatives at the root come after the existing ones. -/
theorem parse_more_parsers {t t' : SuffixTree} (hi : Inv Utf8 t) (hi' : Inv Utf8 t') {x : Bytes} (hx : Utf8 x)
    (h : t'.literalChildren = t.literalChildren) {ns : List ParserNode} (hp : t'.parserChildren = t.parserChildren ++ ns)
    {res : MatchResult} {r' : Option MatchResult} (hr : t.parse x = .ok (some res)) (hr' : t'.parse x = .ok r') : r' = some res := by
  have h1 := parse_partial hi hx hr
  have h2 := parse_partial hi' hx hr'
  rcases walk_congr (t := t) (t' := t') (x := x) (by rw [h]) with hw | ⟨hw, hw'⟩
  · rw [hw] at h2
    cases hw : walk t x with
    | found n => rw [hw] at h1 h2; simp only at h1 h2; rw [h1, h2]
    | stuck c rest => rw [hw] at h1 h2; simp only at h1 h2; rw [h1] at h2; simpa using h2.symm
  · rw [hw] at h1; rw [hw'] at h2
    simp only at h1 h2
    rw [hp, parseWithParsers_append h1] at h2; simpa using h2.symm

/-! ### adding the same tokens again -/

theorem ins_twice {g1 g2 : LiteralNode → LiteralNode} (h1 : GoodUpd g1) (h12 : ∀ n, g2 (g1 n) = g2 n)
    {t t1 : SuffixTree} {l : Bytes} (h : Ins g1 t l t1) : ∃ t2, Ins g2 t l t2 ∧ Ins g2 t1 l t2 := by
  induction h with
  | miss t l A B ht hA hB =>
    refine ⟨_, .miss t l A B ht hA hB, ?_⟩
    have := Ins.exact (g := g2) { t with literalChildren := A ++ g1 (freshLit l) :: B } l A B (g1 (freshLit l)) rfl
      (h1.literal _) (h1.hasValue _)
    rwa [h12] at this
  | exact t l A B n ht hl hv =>
    refine ⟨_, .exact t l A B n ht hl hv, ?_⟩
    have := Ins.exact (g := g2) { t with literalChildren := A ++ g1 n :: B } l A B (g1 n) rfl
      ((h1.literal _).trans hl) ((h1.hasValue _).trans hv)
    rwa [h12] at this
  | split t l A B n ht hr hs hpos hrk =>
    refine ⟨_, .split t l A B n ht hr hs hpos hrk, ?_⟩
    have hle := cpl_le n.literal l
    have hlen : (l.take (commonPrefixLen n.literal l)).length = commonPrefixLen n.literal l := by simp; omega
    have hin : Ins g2 ⟨splitChildren g1 n l, []⟩ (l.drop (commonPrefixLen n.literal l)) ⟨splitChildren g2 n l, []⟩ := by
      unfold splitChildren
      simp only
      split
      · have := Ins.exact (g := g2) ⟨[g1 (freshLit (l.drop (commonPrefixLen n.literal l))),
            { n with literal := n.literal.drop (commonPrefixLen n.literal l) }], []⟩ (l.drop (commonPrefixLen n.literal l)) []
          [{ n with literal := n.literal.drop (commonPrefixLen n.literal l) }] (g1 (freshLit (l.drop (commonPrefixLen n.literal l)))) rfl
          (h1.literal _) (h1.hasValue _)
        rwa [h12] at this
      · have := Ins.exact (g := g2) ⟨[{ n with literal := n.literal.drop (commonPrefixLen n.literal l) },
            g1 (freshLit (l.drop (commonPrefixLen n.literal l)))], []⟩ (l.drop (commonPrefixLen n.literal l))
          [{ n with literal := n.literal.drop (commonPrefixLen n.literal l) }] [] (g1 (freshLit (l.drop (commonPrefixLen n.literal l)))) rfl
          (h1.literal _) (h1.hasValue _)
        rwa [h12] at this
    exact Ins.down (g := g2) { t with literalChildren := A ++ splitNode g1 n l :: B } l A B (splitNode g1 n l) _
      ⟨splitChildren g2 n l, []⟩ rfl (by simp only [splitNode]; exact rk_take hpos) (List.take_prefix _ _) rfl
      (by simp [splitNode]) (by simp only [splitNode, hlen]; exact hin)
  | down t l A B n c c' ht hr hp hc hne _ ih =>
    obtain ⟨c2, h3, h4⟩ := ih
    refine ⟨_, .down t l A B n c c2 ht hr hp hc hne h3, ?_⟩
    exact Ins.down (g := g2) { t with literalChildren := A ++ { n with node := some c' } :: B } l A B { n with node := some c' } c' c2
      rfl hr hp rfl hne h4

theorem updLit_twice (rest : List Token) (q1 q2 : Pattern) (n : LiteralNode) :
    updLit rest q2 (updLit rest q1 n) = updLit rest q2 n := by
  unfold updLit
  split <;> rfl

theorem updPar_twice (rest : List Token) (q1 q2 : Pattern) (n : ParserNode) :
    updPar rest q2 (updPar rest q1 n) = updPar rest q2 n := by
  unfold updPar
  split <;> rfl

theorem insPar_twice (sip : Bytes → UInt64) (ps : List ParserNode) (a : Parser) (rest : List Token) (q1 q2 : Pattern) :
    insPar sip (insPar sip ps a rest q1) a rest q2 = insPar sip ps a rest q2 := by
  induction ps with
  | nil =>
    simp only [insPar]
    rw [if_pos (by rw [updPar_parser]; simp [ParserNode.new]), updPar_twice]
  | cons n ps ih =>
    have hc : ∀ (m : ParserNode) (ms : List ParserNode) (q : Pattern), insPar sip (m :: ms) a rest q =
        if m.parser.hashOs sip == a.hashOs sip then updPar rest q m :: ms else m :: insPar sip ms a rest q := fun _ _ _ => rfl
    by_cases h : (n.parser.hashOs sip == a.hashOs sip) = true
    · rw [hc, hc, if_pos h, if_pos h, hc, if_pos (by rw [updPar_parser]; exact h), updPar_twice]
    · rw [hc, hc, if_neg h, if_neg h, hc, if_neg h, ih]

/-- Adding a pattern with the same tokens again leaves the trie as if only the second one had been added. -/
theorem insert_twice (sip : Bytes → UInt64) {t : SuffixTree} (hi : Inv Ascii t) {p q : Pattern} (hpq : p.pattern = q.pattern)
    (ha : LitsP Ascii p.pattern) {t1 : SuffixTree} (h1 : t.insert sip p = .ok t1) : t1.insert sip q = t.insert sip q := by
  cases hp : p.pattern with
  | nil =>
    have hq : q.pattern = [] := by rw [← hpq, hp]
    rw [insert_empty sip t p hp] at h1
    simp at h1; subst h1; rfl
  | cons tok rest =>
    have hq : q.pattern = tok :: rest := by rw [← hpq, hp]
    rw [hp] at ha
    cases tok with
    | literal l =>
      have hl : Ascii l := ha l (by simp)
      obtain ⟨t1', hins⟩ := ins_total (g := updLit rest p.strip) hi l
      have hrun := ins_run (f := fun e => .ok (updLit rest p.strip e)) (fun _ => rfl) hins hi hl
      rw [insert_lit sip t p l rest hp, hrun] at h1
      simp at h1; subst h1
      obtain ⟨t2, h3, h4⟩ := ins_twice (g2 := updLit rest q.strip) (goodUpd_updLit rest p.strip) (updLit_twice rest p.strip q.strip) hins
      have hi1 : Inv Ascii t1' := ins_inv labelPred_ascii (goodUpd_updLit _ _) (updLit_child rest _ fun l hl => ha l (by simp [hl])) hins hi hl
      rw [insert_lit sip t q l rest hq, insert_lit sip t1' q l rest hq]
      rw [ins_run (f := fun e => .ok (updLit rest q.strip e)) (fun _ => rfl) h3 hi hl,
        ins_run (f := fun e => .ok (updLit rest q.strip e)) (fun _ => rfl) h4 hi1 hl]
    | parser a =>
      rw [insert_par sip t p a rest hp, insertParser_run] at h1
      simp at h1; subst h1
      rw [insert_par sip t q a rest hq, insert_par sip _ q a rest hq, insertParser_run, insertParser_run]
      simp only [insPar_twice]

end Verif
