import Verif.Proofs.TrieVal
/-! Tries holding one pattern. -/
namespace Verif
open Spec

theorem matchesStrict_unique {toks : List Token} {x : Bytes} {c1 c2} (h1 : MatchesStrict toks x c1) (h2 : MatchesStrict toks x c2) :
    c1 = c2 := matches_unique (matchesStrict_matches h1) (matchesStrict_matches h2)

theorem lookup_down {t : SuffixTree} (hi : Inv Utf8 t) {x : Bytes} (hx : Utf8 x) {n : LiteralNode} {c : SuffixTree}
    (hh : hit? t.literalChildren x = some n) (hc : n.node = some c) (hp : n.literal <+: x)
    (hne : ¬ (n.hasValue = true ∧ n.literal = x)) {r : LookupResult} (h : t.lookupLiteral x = .ok r) :
    c.lookupLiteral (x.drop n.literal.length) = .ok r := by
  unfold SuffixTree.lookupLiteral at h
  cases hs : t.search x with
  | error e => rw [hs] at h; simp at h
  | ok s =>
    rw [hs] at h
    rcases search_partial hi.lits hx hs with ⟨A, m, B, ht, hr, rfl⟩ | ⟨A, B, ht, hA, hB, rfl⟩
    · have hm : m ∈ t.literalChildren := by rw [ht]; simp
      have hg : t.literalChildren[A.length]? = some m := by rw [ht]; simp
      have := hit_of_mem hi.lits hm hr
      rw [hh] at this; simp at this; subst this
      simp only [hc, Option.isNone_some, Bool.false_eq_true, if_false] at h
      rw [if_neg (not_not_intro hp), if_neg (by simpa using hne)] at h
      simp only at h
      split at h
      · rename_i h2; rw [hg] at h2; simp at h2
      · rename_i n' h2
        rw [hg] at h2; simp at h2; subst h2
        split at h
        · rename_i h2; rw [hc] at h2; simp at h2
        · rename_i c2 h2
          rw [hc] at h2; simp at h2; subst h2
          exact h
    · rw [hit_none] at hh
      · simp at hh
      · intro m hm
        rw [ht, List.mem_append] at hm
        rcases hm with hm | hm
        · have := hA m hm; omega
        · have := hB m hm; omega

theorem lookup_of_parse {t : SuffixTree} {x : Bytes} {r : Option MatchResult} (h : t.parse x = .ok r) :
    ∃ res, t.lookupLiteral x = .ok res := by
  cases hl : t.lookupLiteral x with
  | error e =>
    rw [SuffixTree.parse] at h
    split at h
    · simp at h
    · rename_i h2; rw [hl] at h2; simp at h2
    · rename_i h2; rw [hl] at h2; simp at h2
  | ok res => exact ⟨res, rfl⟩

/-- Parsing continues in the child. -/
theorem parse_down {t : SuffixTree} (hi : Inv Utf8 t) {x : Bytes} (hx : Utf8 x) {n : LiteralNode} {c : SuffixTree}
    (hh : hit? t.literalChildren x = some n) (hc : n.node = some c) (hp : n.literal <+: x)
    (hne : ¬ (n.hasValue = true ∧ n.literal = x)) {r : Option MatchResult} (h : t.parse x = .ok r) :
    c.parse (x.drop n.literal.length) = .ok r := by
  obtain ⟨res, hl⟩ := lookup_of_parse h
  have hl' := lookup_down hi hx hh hc hp hne hl
  have hux : Utf8 (x.drop n.literal.length) := by
    obtain ⟨y, rfl⟩ := hp
    simpa using utf8_cancel (hi.lits.label n (hit_mem hh)) hx
  rw [parse_walk_of_lookup hi hx hl, walk_down hh hc hp hne] at h
  rw [parse_walk_of_lookup (hi.child n (hit_mem hh) c hc) hux hl']
  exact h

/-- A parser child applied to a text without panicking. -/
theorem parserNode_partial (m : ParserNode) {x : Bytes} (hx : Utf8 x) {r : Option MatchResult} (h : m.parse x = .ok r) :
    (∃ v y, x = v ++ y ∧ Utf8 y ∧ ParserMatch m.parser x v ∧
      match m.node with
      | some c => ∃ r', c.parse y = .ok r' ∧ r = r'.map fun r => r.insert m.parser v
      | none => r = if y = [] then m.pattern.map (fun q => (MatchResult.new q).insert m.parser v) else none) ∨
    ((¬∃ v, ParserMatch m.parser x v) ∧ r = none) := by
  rw [ParserNode.parse] at h
  split at h
  · simp at h
  · rename_i hp
    simp at h; subst h
    exact .inr ⟨(parse_none m.parser x).mp hp, rfl⟩
  · rename_i v hv
    left
    obtain ⟨hpm, hb⟩ := (parse_some m.parser x v).mp hv
    obtain ⟨y, rfl⟩ := parserMatch_prefix hpm
    have ht : ltrunc (v ++ y) v.length = .ok y := by rw [ltrunc, sliceFrom_ok hb]; simp
    have hy : Utf8 y := by simpa using (boundary_split hx hb).2
    rw [ht] at h
    refine ⟨v, y, rfl, hy, hpm, ?_⟩
    simp only at h
    split at h
    · rename_i d hd
      rw [hd]
      rw [parseThenPushKvpair] at h
      cases hr : d.parse y with
      | error e => rw [hr] at h; simp at h
      | ok r0 =>
        rw [hr] at h
        refine ⟨r0, hr, ?_⟩
        cases r0 <;> simp at h <;> rw [← h] <;> rfl
    · rename_i hd
      rw [hd]
      unfold ParserNode.pushLastKvpair at h
      cases y with
      | nil =>
        simp only [List.isEmpty_nil, if_true] at h
        cases hq : m.pattern with
        | none => rw [hq] at h; simp [unwrap, bind, Except.bind] at h
        | some q =>
          rw [hq] at h
          simp [unwrap, bind, Except.bind, pure, Except.pure] at h
          simp [← h]
      | cons b y =>
        simp [pure, Except.pure] at h
        simp [← h]

theorem parseWithParsers_single {m : ParserNode} {x : Bytes} {r : Option MatchResult} (h : parseWithParsers [m] x = .ok r) :
    m.parse x = .ok r := by
  rw [parseWithParsers] at h
  split at h
  · simp at h
  · rename_i res hres; rw [hres, ← h]
  · rename_i hres; rw [parseWithParsers] at h; rw [hres, ← h]

/-- A one-pattern answer: `r` is the result exactly if the text matches. -/
def Answers (toks : List Token) (q : Pattern) (x : Bytes) (r : Option MatchResult) : Prop :=
  (∀ caps, MatchesStrict toks x caps → ∃ res, r = some res ∧ res.pattern = q ∧ HasCaptures res.values caps) ∧
  ((¬∃ caps, MatchesStrict toks x caps) → r = none)

/-- What follows the entry of the first token. -/
def restNode (rest : List Token) (q : Pattern) : Option SuffixTree := if rest.isEmpty then none else some (single rest q)
def restPat (rest : List Token) (q : Pattern) : Option Pattern := if rest.isEmpty then some q else none

theorem strict_lit_inv {l : Bytes} {rest : List Token} {x : Bytes} {caps} (h : MatchesStrict (.literal l :: rest) x caps) :
    ∃ y, x = l ++ y ∧ (rest ≠ [] → y ≠ []) ∧ MatchesStrict rest y caps := by
  cases h with
  | literal _ _ y _ h1 h2 => exact ⟨y, rfl, h1, h2⟩

theorem strict_par_inv {a : Parser} {rest : List Token} {x : Bytes} {caps} (h : MatchesStrict (.parser a :: rest) x caps) :
    ∃ v y caps', x = v ++ y ∧ caps = (a, v) :: caps' ∧ ParserMatch a x v ∧ MatchesStrict rest y caps' := by
  cases h with
  | parser _ _ v y caps' h1 h2 => exact ⟨v, y, caps', rfl, rfl, h1, h2⟩

theorem strict_nil_inv {x : Bytes} {caps} (h : MatchesStrict [] x caps) : x = [] ∧ caps = [] := by
  cases h; exact ⟨rfl, rfl⟩

/-- Answer of a parser node that belongs to one pattern. -/
theorem parserNode_answers {a : Parser} {rest : List Token} {q : Pattern} {m : ParserNode}
    (hm : m.parser = a ∧ m.pattern = restPat rest q ∧ m.node = restNode rest q)
    {x : Bytes} (hx : Utf8 x)
    (ih : rest ≠ [] → ∀ y, Utf8 y → ∀ r, (single rest q).parse y = .ok r → Answers rest q y r)
    {r : Option MatchResult} (h : m.parse x = .ok r) : Answers (.parser a :: rest) q x r := by
  obtain ⟨rfl, hpat, hnode⟩ := hm
  rcases parserNode_partial m hx h with ⟨v, y, rfl, hy, hpm, hr⟩ | ⟨hno, rfl⟩
  · rw [hnode, hpat] at hr
    have uniq : ∀ caps, MatchesStrict (.parser m.parser :: rest) (v ++ y) caps →
        ∃ caps', caps = (m.parser, v) :: caps' ∧ MatchesStrict rest y caps' := by
      intro caps hc
      obtain ⟨v', y', caps', he, rfl, hpm', hs⟩ := strict_par_inv hc
      have hv := parserMatch_unique hpm hpm'
      subst hv
      have := List.append_cancel_left he
      subst this
      exact ⟨caps', rfl, hs⟩
    cases rest with
    | nil =>
      simp only [restNode, restPat, List.isEmpty_nil, if_true] at hr
      refine ⟨?_, ?_⟩
      · intro caps hc
        obtain ⟨caps', rfl, hs⟩ := uniq caps hc
        obtain ⟨rfl, rfl⟩ := strict_nil_inv hs
        rw [if_pos rfl] at hr
        refine ⟨_, hr, ?_, hasCaptures_insert (hasCaptures_nil q) _ _⟩
        rw [insert_pattern]; rfl
      · intro hno
        by_cases hy0 : y = []
        · subst hy0
          exact absurd ⟨_, MatchesStrict.parser m.parser [] v [] [] hpm .nil⟩ hno
        · rw [if_neg hy0] at hr; exact hr
    | cons tok rest =>
      simp only [restNode, List.isEmpty_cons, Bool.false_eq_true, if_false] at hr
      obtain ⟨r', hr', rfl⟩ := hr
      have hans := ih (by simp) y hy r' hr'
      refine ⟨?_, ?_⟩
      · intro caps hc
        obtain ⟨caps', rfl, hs⟩ := uniq caps hc
        obtain ⟨res, rfl, e1, e2⟩ := hans.1 caps' hs
        refine ⟨_, rfl, by rw [insert_pattern]; exact e1, hasCaptures_insert e2 _ _⟩
      · intro hno
        rw [hans.2 ?_]; rfl
        rintro ⟨caps', hs⟩
        exact hno ⟨_, .parser m.parser _ v y caps' hpm hs⟩
  · refine ⟨?_, fun _ => rfl⟩
    intro caps hc
    obtain ⟨v', y', caps', he, rfl, hpm', hs⟩ := strict_par_inv hc
    exact absurd ⟨v', hpm'⟩ hno

/-- Answer of a literal node that belongs to one pattern. -/
theorem litNode_prefix {t : SuffixTree} (hinv : Inv Utf8 t) (hpc : t.parserChildren = []) {n : LiteralNode} {rest : List Token} {q : Pattern}
    (hv : n.hasValue = true) (hpat : n.pattern = restPat rest q) (hnode : n.node = restNode rest q) {y : Bytes}
    (hh : hit? t.literalChildren (n.literal ++ y) = some n) (hx : Utf8 (n.literal ++ y))
    (ih : rest ≠ [] → ∀ y, Utf8 y → ∀ r, (single rest q).parse y = .ok r → Answers rest q y r)
    {r : Option MatchResult} (h : t.parse (n.literal ++ y) = .ok r) : Answers (.literal n.literal :: rest) q (n.literal ++ y) r := by
  have hul := hinv.lits.label n (hit_mem hh)
  have hp := parse_partial hinv hx h
  have huy : Utf8 y := utf8_cancel hul hx
  cases rest with
  | nil =>
    have hw := walk_some hh
    rw [hnode] at hw
    simp only [restNode, List.isEmpty_nil, if_true] at hw
    by_cases hy : y = []
    · subst hy
      rw [hw, if_pos (by simp)] at hp
      simp only [hpat, restPat, List.isEmpty_nil, if_true, Option.map_some] at hp
      refine ⟨?_, ?_⟩
      · intro caps hc
        obtain ⟨y', he, _, hs⟩ := strict_lit_inv hc
        obtain ⟨rfl, rfl⟩ := strict_nil_inv hs
        exact ⟨_, hp, rfl, hasCaptures_nil q⟩
      · intro hno
        exact absurd ⟨[], MatchesStrict.literal n.literal [] [] [] (by simp) .nil⟩ hno
    · rw [hw, if_neg (by simpa using Ne.symm hy)] at hp
      simp only [hpc] at hp
      rw [parseWithParsers] at hp
      simp at hp
      refine ⟨?_, fun _ => hp.symm⟩
      intro caps hc
      obtain ⟨y', he, _, hs⟩ := strict_lit_inv hc
      obtain ⟨rfl, rfl⟩ := strict_nil_inv hs
      simp at he; exact absurd he hy
  | cons tok rest =>
    by_cases hy : y = []
    · subst hy
      have hw := walk_some hh
      rw [hnode] at hw
      simp only [restNode, List.isEmpty_cons, Bool.false_eq_true, if_false] at hw
      rw [if_neg (not_not_intro (List.prefix_append _ _)), if_pos (by simp [hv])] at hw
      rw [hw] at hp
      simp [hpat, restPat] at hp
      refine ⟨?_, fun _ => hp⟩
      intro caps hc
      obtain ⟨y', he, hne, hs⟩ := strict_lit_inv hc
      simp at he; subst he
      exact absurd rfl (hne (by simp))
    · have hchild : (single (tok :: rest) q).parse y = .ok r := by
        have := parse_down (c := single (tok :: rest) q) hinv hx hh (by rw [hnode]; simp [restNode]) (List.prefix_append _ _)
          (by simpa using fun _ h => hy h) h
        simpa using this
      have hans := ih (by simp) y huy r hchild
      refine ⟨?_, ?_⟩
      · intro caps hc
        obtain ⟨y', he, hne, hs⟩ := strict_lit_inv hc
        have := List.append_cancel_left he; subst this
        exact hans.1 caps hs
      · intro hno
        apply hans.2
        rintro ⟨caps, hs⟩
        exact hno ⟨caps, .literal _ _ _ _ (fun _ => hy) hs⟩

theorem answers_none {l : Bytes} {rest : List Token} {q : Pattern} {x : Bytes} (h : ¬ l <+: x) : Answers (.literal l :: rest) q x none := by
  refine ⟨?_, fun _ => rfl⟩
  intro caps hc
  obtain ⟨y, rfl, _⟩ := strict_lit_inv hc
  exact absurd (List.prefix_append _ _) h

theorem litNode_answers {l : Bytes} {rest : List Token} {q : Pattern} (hl : l ≠ []) (hul : Utf8 l)
    (hlits : LitsP Utf8 rest) {x : Bytes} (hx : Utf8 x)
    (ih : rest ≠ [] → ∀ y, Utf8 y → ∀ r, (single rest q).parse y = .ok r → Answers rest q y r)
    {r : Option MatchResult} (h : (single (.literal l :: rest) q).parse x = .ok r) : Answers (.literal l :: rest) q x r := by
  have hinv : Inv Utf8 (single (.literal l :: rest) q) := inv_single _ _ (by
    intro l' hl'; simp at hl'; rcases hl' with rfl | hl'
    · exact hul
    · exact hlits _ hl')
  by_cases hpx : l <+: x
  · obtain ⟨y, rfl⟩ := hpx
    have hrk : rk l = rk (l ++ y) := prefix_rk (List.prefix_append _ _) hl
    exact litNode_prefix (n := ⟨l, true, restPat rest q, restNode rest q⟩) hinv rfl rfl rfl rfl
      (by simp only [single]; rw [hit_cons, if_pos hrk]; rfl) hx ih h
  · have hst : walk (single (.literal l :: rest) q) x = .stuck (single (.literal l :: rest) q) x := by
      cases hh : hit? (single (.literal l :: rest) q).literalChildren x with
      | none => exact walk_none hh
      | some n =>
        have hn := hit_mem hh
        simp [single] at hn
        have hlit : n.literal = l := by rw [hn]
        rw [walk_some hh]
        cases n.node with
        | none => simp only; rw [if_neg]; rw [hlit]; rintro rfl; exact hpx (List.prefix_refl _)
        | some c => simp only; rw [if_pos (by rw [hlit]; exact hpx)]
    have hp := parse_partial hinv hx h
    rw [hst] at hp
    simp only [single] at hp
    rw [parseWithParsers] at hp
    simp at hp; subst hp
    exact answers_none hpx

/-- All literals are non-empty. -/
def LitsNe (toks : List Token) : Prop := ∀ l, Token.literal l ∈ toks → l ≠ []

/-- A trie holding one pattern answers according to the specification. -/
theorem single_answers {toks : List Token} {q : Pattern} (hne : toks ≠ []) (hu : LitsP Utf8 toks) (hl : LitsNe toks) {x : Bytes}
    (hx : Utf8 x) {r : Option MatchResult} (h : (single toks q).parse x = .ok r) : Answers toks q x r := by
  induction toks generalizing x r with
  | nil => simp at hne
  | cons tok rest ih =>
    have hu' : LitsP Utf8 rest := fun l hl => hu l (by simp [hl])
    have ih' : rest ≠ [] → ∀ y, Utf8 y → ∀ r, (single rest q).parse y = .ok r → Answers rest q y r :=
      fun h y hy r hr => ih h hu' (fun l hl' => hl l (by simp [hl'])) hy hr
    cases tok with
    | literal l => exact litNode_answers (hl l (by simp)) (hu l (by simp)) hu' hx ih' h
    | parser a =>
      have hp := parse_partial (inv_single (P := Utf8) (.parser a :: rest) q hu) hx h
      rw [walk_none (by simp [single, hit?])] at hp
      simp only [single] at hp
      refine parserNode_answers ⟨rfl, ?_, ?_⟩ hx ih' (parseWithParsers_single hp)
      · rfl
      · rfl

end Verif
