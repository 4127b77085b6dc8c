import Verif.Spec.Alike
import Verif.Props.C49_Merge
import Verif.Props.C73_C74_SuffixAnswer
import Verif.Props.C11_C14_TrieSound
/-! C121: the hash function matters only when two leading parsers have the same hash, and what happens then. -/
namespace Verif
open Spec

/-! ### adding a literal does not touch the parsers -/

theorem updateLiteral_parsers {t t' : SuffixTree} {pos : Nat} {f : LiteralNode → M LiteralNode} (h : t.updateLiteral pos f = .ok t') :
    t'.parserChildren = t.parserChildren := by
  simp only [SuffixTree.updateLiteral, bind, Except.bind, pure, Except.pure] at h
  repeat (split at h <;> try contradiction)
  simp at h
  rw [← h]

theorem lookupLiteralMut_parsers {t t' : SuffixTree} {l : Bytes} {onOk onErr : SuffixTree → Nat → M SuffixTree}
    (h1 : ∀ pos t', onOk t pos = .ok t' → t'.parserChildren = t.parserChildren)
    (h2 : ∀ n t', onErr t n = .ok t' → t'.parserChildren = t.parserChildren)
    (h : t.lookupLiteralMut l onOk onErr = .ok t') : t'.parserChildren = t.parserChildren := by
  rw [SuffixTree.lookupLiteralMut] at h
  split at h
  · contradiction
  · exact h1 _ _ h
  · exact h2 _ _ h
  · split at h
    · contradiction
    · split at h
      · contradiction
      · split at h
        · contradiction
        · simp at h
          rw [← h]

theorem insertLiteralTail_parsers {t t' : SuffixTree} {l : Bytes} {f : LiteralNode → M LiteralNode} (h : t.insertLiteralTail l f = .ok t') :
    t'.parserChildren = t.parserChildren := by
  simp only [SuffixTree.insertLiteralTail, bind, Except.bind, pure, Except.pure] at h
  split at h
  · contradiction
  · split at h
    · repeat (split at h <;> try contradiction)
      simp at h
      rw [← h]
    · split at h
      · contradiction
      · rename_i t1 h1
        rw [updateLiteral_parsers h]
        simp only [SuffixTree.addLiteralNode, bind, Except.bind, pure, Except.pure] at h1
        split at h1
        · contradiction
        · simp at h1
          rw [← h1]

theorem insertLiteral_parsers {t t' : SuffixTree} {l : Bytes} {f : LiteralNode → M LiteralNode} (h : t.insertLiteral l f = .ok t') :
    t'.parserChildren = t.parserChildren := by
  refine lookupLiteralMut_parsers (fun _ _ => updateLiteral_parsers) ?_ h
  intro n t' h
  simp only [bind, Except.bind] at h
  split at h
  · contradiction
  · split at h
    · contradiction
    · exact insertLiteralTail_parsers h

theorem sinsertLiteral_parsers {t t' : SuffixTable} {l : Bytes} {f : LiteralE → M LiteralE} (h : t.insertLiteral l f = .ok t') :
    t'.parserEntries = t.parserEntries := by
  simp only [SuffixTable.insertLiteral, bind, Except.bind, pure, Except.pure] at h
  split at h
  · contradiction
  · split at h
    all_goals
      repeat (split at h <;> try contradiction)
      simp at h
      rw [← h]

/-! ### the first parser with a hash -/

theorem firstWithHash_hash (sip : Bytes → UInt64) (a : Parser) (ps : List Pattern) : (firstWithHash sip a ps).hashOs sip = a.hashOs sip := by
  induction ps with
  | nil => rfl
  | cons p ps ih =>
    unfold firstWithHash
    split
    · split
      · assumption
      · exact ih
    · exact ih

theorem firstWithHash_skip {sip : Bytes → UInt64} {a : Parser} {ps qs : List Pattern} (h : ∀ b ∈ firstParsers ps, b.hashOs sip ≠ a.hashOs sip) :
    firstWithHash sip a (ps ++ qs) = firstWithHash sip a qs := by
  induction ps with
  | nil => rfl
  | cons p ps ih =>
    have ih := ih fun b hb => h b (by
      unfold firstParsers at hb ⊢
      rw [List.filterMap_cons]
      split
      · exact hb
      · exact List.mem_cons_of_mem _ hb)
    rw [← ih, List.cons_append, firstWithHash]
    split
    · rename_i b _ hp
      rw [if_neg (h b (by simp [firstParsers, hp]))]
    · rfl

theorem firstWithHash_congr (sip : Bytes → UInt64) {a b : Parser} (h : a.hashOs sip = b.hashOs sip) {ps : List Pattern}
    (ha : a ∈ firstParsers ps) : firstWithHash sip a ps = firstWithHash sip b ps := by
  induction ps with
  | nil => simp [firstParsers] at ha
  | cons p ps ih =>
    unfold firstWithHash
    split
    · rename_i c _ hp
      rw [h]
      split
      · rfl
      · rename_i hne
        refine ih ?_
        simp [firstParsers, hp] at ha
        rcases ha with rfl | ha
        · exact absurd h hne
        · simpa [firstParsers] using ha
    · rename_i hp
      refine ih ?_
      unfold firstParsers at ha ⊢
      rw [List.filterMap_cons] at ha
      split at ha
      · exact ha
      · rename_i hs
        exfalso
        split at hs
        · rename_i hq; exact hp _ _ hq
        · cases hs

theorem firstWithHash_mem {sip : Bytes → UInt64} {a : Parser} {ps : List Pattern} (ha : a ∈ firstParsers ps) : firstWithHash sip a ps ∈ firstParsers ps := by
  suffices H : firstWithHash sip a ps ∈ firstParsers ps ∨ firstWithHash sip a ps = a by
    rcases H with h | h
    · exact h
    · rw [h]; exact ha
  clear ha
  induction ps with
  | nil => exact .inr rfl
  | cons p ps ih =>
    have hsub : ∀ b, b ∈ firstParsers ps → b ∈ firstParsers (p :: ps) := by
      intro b hb
      unfold firstParsers at hb ⊢
      rw [List.filterMap_cons]
      split
      · exact hb
      · exact List.mem_cons_of_mem _ hb
    unfold firstWithHash
    split
    · rename_i b _ hp
      split
      · exact .inl (by simp [firstParsers, hp])
      · exact ih.imp (hsub _) id
    · exact ih.imp (hsub _) id

theorem mem_firstParsers {ps : List Pattern} {a : Parser} : a ∈ firstParsers ps ↔ ∃ p ∈ ps, p.pattern.head? = some (.parser a) := by
  simp only [firstParsers, List.mem_filterMap]
  constructor
  · rintro ⟨p, hp, h⟩
    refine ⟨p, hp, ?_⟩
    split at h
    · rename_i b rest e; simp at h; rw [e, h]; rfl
    · cases h
  · rintro ⟨p, hp, h⟩
    refine ⟨p, hp, ?_⟩
    cases e : p.pattern with
    | nil => rw [e] at h; simp at h
    | cons t rest => rw [e] at h; simp at h; rw [h]

/-! ### additions, for both matchers -/

/-- Adding patterns, for a matcher that looks for the hash of the first parser among the parsers it has. -/
theorem fold_alike {T : Type} (sip : Bytes → UInt64) (add : T → Pattern → M T) (parsers : T → List Parser)
    (hpar : ∀ t p a rest, p.pattern = .parser a :: rest → ∀ b, b.hashOs sip = a.hashOs sip →
      ((∀ c ∈ parsers t, c.hashOs sip ≠ a.hashOs sip) → b = a) → add t { p with pattern := .parser b :: rest } = add t p)
    (hgrow : ∀ t p t', add t p = .ok t' → ∀ c, c ∈ parsers t ∨ p.pattern.head? = some (.parser c) → ∃ d ∈ parsers t', d.hashOs sip = c.hashOs sip)
    (qs : List Pattern) : ∀ (pre : List Pattern) (t : T), (∀ c ∈ firstParsers pre, ∃ d ∈ parsers t, d.hashOs sip = c.hashOs sip) →
      qs.foldlM add t = (qs.map (withFirstParser sip (pre ++ qs))).foldlM add t := by
  induction qs with
  | nil => intro _ _ _; rfl
  | cons p qs ih =>
    intro pre t hpre
    have e : add t (withFirstParser sip (pre ++ p :: qs) p) = add t p := by
      unfold withFirstParser
      split
      · rename_i a rest hp
        refine hpar t p a rest hp _ (firstWithHash_hash sip a _) fun hno => ?_
        rw [firstWithHash_skip]
        · unfold firstWithHash
          rw [hp]
          simp
        · intro b hb hh
          obtain ⟨d, hd, he⟩ := hpre b hb
          exact hno d hd (he.trans hh)
      · rfl
    rw [List.map_cons, List.foldlM_cons, List.foldlM_cons, e]
    cases ht : add t p with
    | error e => rfl
    | ok t' =>
      simp only [bind, Except.bind]
      have := ih (pre ++ [p]) t' (by
        intro c hc
        rw [mem_firstParsers] at hc
        obtain ⟨q, hq, hc⟩ := hc
        rcases List.mem_append.mp hq with hq | hq
        · obtain ⟨d, hd, he⟩ := hpre c (mem_firstParsers.mpr ⟨q, hq, hc⟩)
          obtain ⟨d', hd', he'⟩ := hgrow t p t' ht d (.inl hd)
          exact ⟨d', hd', he'.trans he⟩
        · simp at hq
          subst hq
          exact hgrow t q t' ht c (.inr hc))
      rwa [List.append_assoc, List.singleton_append] at this

/-- Adding patterns with two hash functions that agree on which of the parsers are alike. -/
theorem fold_same {T : Type} (sip sip' : Bytes → UInt64) (add add' : T → Pattern → M T) (parsers : T → List Parser)
    (hsame : ∀ t p, (∀ a, p.pattern.head? = some (.parser a) → ∀ c ∈ parsers t, c.hashOs sip = a.hashOs sip ↔ c.hashOs sip' = a.hashOs sip') →
      add t p = add' t p)
    (hsub : ∀ t p t', add t p = .ok t' → ∀ c ∈ parsers t', c ∈ parsers t ∨ p.pattern.head? = some (.parser c))
    (qs : List Pattern) : ∀ (pre : List Pattern) (t : T), (∀ c ∈ parsers t, c ∈ firstParsers pre) → NoCollision sip (pre ++ qs) →
      NoCollision sip' (pre ++ qs) → qs.foldlM add t = qs.foldlM add' t := by
  induction qs with
  | nil => intro _ _ _ _ _; rfl
  | cons p qs ih =>
    intro pre t ht h h'
    have e : add t p = add' t p := by
      refine hsame t p fun a ha c hc => ?_
      have hc := mem_firstParsers.mp (ht c hc)
      obtain ⟨q, hq, hc⟩ := hc
      have h1 : ∃ p' ∈ pre ++ p :: qs, p'.pattern.head? = some (.parser c) := ⟨q, by simp [hq], hc⟩
      have h2 : ∃ p' ∈ pre ++ p :: qs, p'.pattern.head? = some (.parser a) := ⟨p, by simp, ha⟩
      exact ⟨fun e => by rw [h c a h1 h2 e], fun e => by rw [h' c a h1 h2 e]⟩
    rw [List.foldlM_cons, List.foldlM_cons, ← e]
    cases ht' : add t p with
    | error e => rfl
    | ok t' =>
      simp only [bind, Except.bind]
      refine ih (pre ++ [p]) t' ?_ (by simpa using h) (by simpa using h')
      intro c hc
      rw [mem_firstParsers]
      rcases hsub t p t' ht' c hc with hc | hc
      · obtain ⟨q, hq, hc⟩ := mem_firstParsers.mp (ht c hc)
        exact ⟨q, by simp [hq], hc⟩
      · exact ⟨p, by simp, hc⟩

/-! ### one addition to a trie -/

theorem insPar_alike {sip : Bytes → UInt64} {ns : List ParserNode} {a b : Parser} (h : b.hashOs sip = a.hashOs sip)
    (hn : (∀ c ∈ ns.map (·.parser), c.hashOs sip ≠ a.hashOs sip) → b = a) (rest : List Token) (q : Pattern) :
    insPar sip ns b rest q = insPar sip ns a rest q := by
  induction ns with
  | nil => rw [hn (by simp)]
  | cons n ns ih =>
    unfold insPar
    rw [h]
    split
    · rfl
    · rename_i hne
      rw [ih fun h' => hn fun m hm => ?_]
      rcases List.mem_cons.mp hm with rfl | hm
      · simpa using hne
      · exact h' m hm

theorem insPar_keeps (sip : Bytes → UInt64) (ns : List ParserNode) (a : Parser) (rest : List Token) (q : Pattern) (c : Parser)
    (hc : c ∈ ns.map (·.parser) ∨ a = c) : ∃ d ∈ (insPar sip ns a rest q).map (·.parser), d.hashOs sip = c.hashOs sip := by
  induction ns with
  | nil => simp at hc; simp [insPar, updPar_parser, ParserNode.new, hc]
  | cons n ns ih =>
    unfold insPar
    split
    · rename_i h
      have h : n.parser.hashOs sip = a.hashOs sip := by simpa using h
      rcases hc with hc | rfl
      · refine ⟨c, ?_, rfl⟩
        simpa [updPar_parser] using hc
      · exact ⟨n.parser, by simp [updPar_parser], h⟩
    · rw [List.map_cons, List.mem_cons] at hc
      rcases hc with (rfl | hc) | hc
      · exact ⟨n.parser, by simp, rfl⟩
      · obtain ⟨d, hd, e⟩ := ih (.inl hc)
        exact ⟨d, by rw [List.map_cons]; exact List.mem_cons_of_mem _ hd, e⟩
      · obtain ⟨d, hd, e⟩ := ih (.inr hc)
        exact ⟨d, by rw [List.map_cons]; exact List.mem_cons_of_mem _ hd, e⟩

theorem insPar_from (sip : Bytes → UInt64) (ns : List ParserNode) (a : Parser) (rest : List Token) (q : Pattern) (c : Parser)
    (hc : c ∈ (insPar sip ns a rest q).map (·.parser)) : c ∈ ns.map (·.parser) ∨ a = c := by
  induction ns with
  | nil => simp [insPar, updPar_parser, ParserNode.new] at hc; exact .inr hc.symm
  | cons n ns ih =>
    unfold insPar at hc
    split at hc
    · left; simpa [updPar_parser] using hc
    · rw [List.map_cons, List.mem_cons] at hc ⊢
      rcases hc with hc | hc
      · exact .inl (.inl hc)
      · rcases ih hc with h | h
        · exact .inl (.inr h)
        · exact .inr h

theorem insPar_same {sip sip' : Bytes → UInt64} {ns : List ParserNode} {a : Parser}
    (h : ∀ c ∈ ns.map (·.parser), c.hashOs sip = a.hashOs sip ↔ c.hashOs sip' = a.hashOs sip') (rest : List Token) (q : Pattern) :
    insPar sip ns a rest q = insPar sip' ns a rest q := by
  induction ns with
  | nil => rfl
  | cons n ns ih =>
    have hn := h n.parser (by simp)
    have ih := ih fun c hc => h c (by rw [List.map_cons]; exact List.mem_cons_of_mem _ hc)
    unfold insPar
    simp only [beq_iff_eq, hn, ih]

theorem add_par (sip : Bytes → UInt64) (t : SuffixTree) (p : Pattern) (a : Parser) (rest : List Token) (hp : p.pattern = .parser a :: rest) :
    t.addPattern sip p = .ok { t with parserChildren := insPar sip t.parserChildren a rest p.strip } := by
  unfold SuffixTree.addPattern
  rw [insert_par sip t p a rest hp, insertParser_run]

/-- C121: two hash functions without collisions among the leading parsers lead to the same trie, node by node. -/
theorem C121_trie_same (sip sip' : Bytes → UInt64) (ps : List Pattern) (h : NoCollision sip ps) (h' : NoCollision sip' ps) :
    SuffixTree.build sip ps = SuffixTree.build sip' ps := by
  refine fold_same sip sip' (fun t p => t.addPattern sip p) (fun t p => t.addPattern sip' p) (fun t => t.parserChildren.map (·.parser)) ?_ ?_ ps []
    SuffixTree.new (by simp [SuffixTree.new]) h h'
  · intro t p hsame
    unfold SuffixTree.addPattern
    cases hp : p.pattern with
    | nil => rw [insert_empty _ _ _ hp, insert_empty _ _ _ hp]
    | cons tok rest =>
      cases tok with
      | literal l => rw [insert_lit _ _ _ l rest hp, insert_lit _ _ _ l rest hp]
      | parser a =>
        rw [insert_par _ _ _ a rest hp, insert_par _ _ _ a rest hp, insertParser_run, insertParser_run,
          insPar_same (hsame a (by rw [hp]; rfl))]
  · intro t p t' ht c hc
    cases hp : p.pattern with
    | nil =>
      unfold SuffixTree.addPattern at ht
      rw [insert_empty _ _ _ hp] at ht
      cases ht
      exact .inl hc
    | cons tok rest =>
      cases tok with
      | literal l =>
        unfold SuffixTree.addPattern at ht
        rw [insert_lit _ _ _ l rest hp] at ht
        rw [insertLiteral_parsers ht] at hc
        exact .inl hc
      | parser a =>
        rw [add_par sip t p a rest hp] at ht
        cases ht
        rcases insPar_from _ _ _ _ _ _ hc with h | rfl
        · exact .inl h
        · exact .inr rfl

/-- C121: a trie built with any hash function is the trie for the patterns in which every leading parser is replaced by the first one with the same
hash. -/
theorem C121_trie_collisions (sip : Bytes → UInt64) (ps : List Pattern) :
    SuffixTree.build sip ps = SuffixTree.build sip (ps.map (withFirstParser sip ps)) := by
  refine fold_alike sip (fun t p => t.addPattern sip p) (fun t => t.parserChildren.map (·.parser)) ?_ ?_ ps [] SuffixTree.new
    (by simp [firstParsers])
  · intro t p a rest hp b hb hno
    rw [add_par sip t p a rest hp, add_par sip t _ b rest rfl, insPar_alike hb hno]
    rfl
  · intro t p t' ht c hc
    cases hp : p.pattern with
    | nil =>
      unfold SuffixTree.addPattern at ht
      rw [insert_empty _ _ _ hp] at ht
      cases ht
      rw [hp] at hc
      simp only [List.head?_nil, reduceCtorEq, or_false] at hc
      exact ⟨c, hc, rfl⟩
    | cons tok rest =>
      rw [hp] at hc
      cases tok with
      | literal l =>
        unfold SuffixTree.addPattern at ht
        rw [insert_lit _ _ _ l rest hp] at ht
        rw [insertLiteral_parsers ht]
        simp only [List.head?_cons, Option.some.injEq, reduceCtorEq, or_false] at hc
        exact ⟨c, hc, rfl⟩
      | parser a =>
        rw [add_par sip t p a rest hp] at ht
        cases ht
        exact insPar_keeps _ _ _ _ _ _ (by simpa using hc)

/-- C121: after this replacement there are no collisions. -/
theorem C121_no_collision_left (sip : Bytes → UInt64) (ps : List Pattern) : NoCollision sip (ps.map (withFirstParser sip ps)) := by
  have key : ∀ a, (∃ p ∈ ps.map (withFirstParser sip ps), p.pattern.head? = some (.parser a)) →
      ∃ a₀ ∈ firstParsers ps, a = firstWithHash sip a₀ ps := by
    rintro a ⟨q, hq, ha⟩
    obtain ⟨p, hp, rfl⟩ := List.mem_map.mp hq
    unfold withFirstParser at ha
    split at ha
    · rename_i b rest e
      simp at ha
      exact ⟨b, mem_firstParsers.mpr ⟨p, hp, by rw [e]; rfl⟩, ha.symm⟩
    · rename_i hno
      cases e : p.pattern with
      | nil => rw [e] at ha; cases ha
      | cons tok rest =>
        rw [e] at ha
        simp at ha
        exact absurd e (by rw [ha]; exact hno a rest)
  intro a b ha hb hh
  obtain ⟨a₀, ha₀, rfl⟩ := key a ha
  obtain ⟨b₀, _, rfl⟩ := key b hb
  rw [firstWithHash_hash, firstWithHash_hash] at hh
  exact firstWithHash_congr sip hh ha₀

/-- C121: without collisions the replacement changes nothing. -/
theorem C121_replacement (sip : Bytes → UInt64) (ps : List Pattern) (h : NoCollision sip ps) : ps.map (withFirstParser sip ps) = ps := by
  conv => rhs; rw [← List.map_id ps]
  refine List.map_congr_left fun p hp => ?_
  unfold withFirstParser
  split
  · rename_i a rest e
    have ha : a ∈ firstParsers ps := mem_firstParsers.mpr ⟨p, hp, by rw [e]; rfl⟩
    have := h _ a (mem_firstParsers.mp (firstWithHash_mem (sip := sip) ha)) (mem_firstParsers.mp ha) (firstWithHash_hash sip a ps)
    rw [this, ← e]
    rfl
  · rfl

theorem utf8_withFirst (sip : Bytes → UInt64) {ps : List Pattern} (hu : ∀ p ∈ ps, Utf8Lits p) : ∀ p ∈ ps.map (withFirstParser sip ps), Utf8Lits p := by
  intro q hq l hl
  obtain ⟨p, hp, rfl⟩ := List.mem_map.mp hq
  refine hu p hp l ?_
  unfold withFirstParser at hl
  split at hl
  · rename_i e; simp at hl; rw [e]; simp [hl]
  · exact hl

/-- C121: with any hash function, an answer of the trie is a match of one of the patterns, after this replacement. -/
theorem C121_trie_sound (sip : Bytes → UInt64) (ps : List Pattern) (hu : ∀ p ∈ ps, Utf8Lits p) (t : SuffixTree) (hb : SuffixTree.build sip ps = .ok t)
    (text : Bytes) (hx : Utf8 text) (r : MatchResult) (hr : t.parse text = .ok (some r)) :
    ∃ p ∈ ps, ∃ caps, Matches (withFirstParser sip ps p).pattern text caps ∧ IsResult r p caps := by
  rw [C121_trie_collisions] at hb
  obtain ⟨q, hq, caps, hm, h1, h2⟩ := C11_trie_sound sip _ (utf8_withFirst sip hu) (C121_no_collision_left sip ps) t hb text hx r hr
  obtain ⟨p, hp, rfl⟩ := List.mem_map.mp hq
  refine ⟨p, hp, caps, hm, ?_, h2⟩
  rw [h1]
  unfold withFirstParser
  split <;> rfl

/-! ### one addition to a suffix array -/

theorem putPar_alike {sip : Bytes → UInt64} {ns : List ParserE} {a b : Parser} (h : b.hashOs sip = a.hashOs sip)
    (hn : (∀ c ∈ ns.map (·.parser), c.hashOs sip ≠ a.hashOs sip) → b = a) (f : ParserE → ParserE) : putPar sip b f ns = putPar sip a f ns := by
  induction ns with
  | nil => rw [hn (by simp)]
  | cons n ns ih =>
    unfold putPar
    rw [h]
    split
    · rfl
    · rename_i hne
      rw [ih fun h' => hn fun m hm => ?_]
      rcases List.mem_cons.mp hm with rfl | hm
      · simpa using hne
      · exact h' m hm

theorem putPar_keeps (sip : Bytes → UInt64) (ns : List ParserE) (a : Parser) {f : ParserE → ParserE} (hf : ∀ n, (f n).parser = n.parser) (c : Parser)
    (hc : c ∈ ns.map (·.parser) ∨ a = c) : ∃ d ∈ (putPar sip a f ns).map (·.parser), d.hashOs sip = c.hashOs sip := by
  induction ns with
  | nil => simp at hc; simp [putPar, hf, ParserE.new, hc]
  | cons n ns ih =>
    unfold putPar
    split
    · rename_i h
      have h : n.parser.hashOs sip = a.hashOs sip := by simpa using h
      rcases hc with hc | rfl
      · refine ⟨c, ?_, rfl⟩
        simpa [hf] using hc
      · exact ⟨n.parser, by simp [hf], h⟩
    · rw [List.map_cons, List.mem_cons] at hc
      rcases hc with (rfl | hc) | hc
      · exact ⟨n.parser, by simp, rfl⟩
      · obtain ⟨d, hd, e⟩ := ih (.inl hc)
        exact ⟨d, by rw [List.map_cons]; exact List.mem_cons_of_mem _ hd, e⟩
      · obtain ⟨d, hd, e⟩ := ih (.inr hc)
        exact ⟨d, by rw [List.map_cons]; exact List.mem_cons_of_mem _ hd, e⟩

theorem putPar_from (sip : Bytes → UInt64) (ns : List ParserE) (a : Parser) {f : ParserE → ParserE} (hf : ∀ n, (f n).parser = n.parser) (c : Parser)
    (hc : c ∈ (putPar sip a f ns).map (·.parser)) : c ∈ ns.map (·.parser) ∨ a = c := by
  induction ns with
  | nil => simp [putPar, hf, ParserE.new] at hc; exact .inr hc.symm
  | cons n ns ih =>
    unfold putPar at hc
    split at hc
    · left; simpa [hf] using hc
    · rw [List.map_cons, List.mem_cons] at hc ⊢
      rcases hc with hc | hc
      · exact .inl (.inl hc)
      · rcases ih hc with h | h
        · exact .inl (.inr h)
        · exact .inr h

theorem putPar_same {sip sip' : Bytes → UInt64} {ns : List ParserE} {a : Parser}
    (h : ∀ c ∈ ns.map (·.parser), c.hashOs sip = a.hashOs sip ↔ c.hashOs sip' = a.hashOs sip') (f : ParserE → ParserE) :
    putPar sip a f ns = putPar sip' a f ns := by
  induction ns with
  | nil => rfl
  | cons n ns ih =>
    have hn := h n.parser (by simp)
    have ih := ih fun c hc => h c (by rw [List.map_cons]; exact List.mem_cons_of_mem _ hc)
    unfold putPar
    simp only [beq_iff_eq, hn, ih]

theorem sadd_par (sip : Bytes → UInt64) (t : SuffixTable) (p : Pattern) (a : Parser) (rest : List Token) (hp : p.pattern = .parser a :: rest) :
    t.addPattern sip p = .ok { t with parserEntries := putPar sip a (supdP rest p.strip) t.parserEntries } := by
  unfold SuffixTable.addPattern
  rw [sinsert_par sip t p a rest hp, sinsertParser_run]

/-- C121: the same for the suffix array: two hash functions without collisions among the leading parsers lead to the same one. -/
theorem C121_suffix_array_same (sip sip' : Bytes → UInt64) (ps : List Pattern) (h : NoCollision sip ps) (h' : NoCollision sip' ps) :
    SuffixTable.build sip ps = SuffixTable.build sip' ps := by
  refine fold_same sip sip' (fun t p => t.addPattern sip p) (fun t p => t.addPattern sip' p) (fun t => t.parserEntries.map (·.parser)) ?_ ?_ ps []
    SuffixTable.new (by simp [SuffixTable.new]) h h'
  · intro t p hsame
    cases hp : p.pattern with
    | nil => unfold SuffixTable.addPattern; rw [sinsert_empty _ _ _ hp, sinsert_empty _ _ _ hp]
    | cons tok rest =>
      cases tok with
      | literal l => unfold SuffixTable.addPattern; rw [sinsert_lit _ _ _ l rest hp, sinsert_lit _ _ _ l rest hp]
      | parser a => rw [sadd_par sip t p a rest hp, sadd_par sip' t p a rest hp, putPar_same (hsame a (by rw [hp]; rfl))]
  · intro t p t' ht c hc
    cases hp : p.pattern with
    | nil =>
      unfold SuffixTable.addPattern at ht
      rw [sinsert_empty _ _ _ hp] at ht
      cases ht
      exact .inl hc
    | cons tok rest =>
      cases tok with
      | literal l =>
        unfold SuffixTable.addPattern at ht
        rw [sinsert_lit _ _ _ l rest hp] at ht
        rw [sinsertLiteral_parsers ht] at hc
        exact .inl hc
      | parser a =>
        rw [sadd_par sip t p a rest hp] at ht
        cases ht
        rcases putPar_from _ _ _ (supdP_parser _ _) _ hc with h | rfl
        · exact .inl h
        · exact .inr rfl

/-- C121: a suffix array built with any hash function is the one for the patterns in which every leading parser is replaced by the first one with the
same hash. -/
theorem C121_suffix_array_collisions (sip : Bytes → UInt64) (ps : List Pattern) :
    SuffixTable.build sip ps = SuffixTable.build sip (ps.map (withFirstParser sip ps)) := by
  refine fold_alike sip (fun t p => t.addPattern sip p) (fun t => t.parserEntries.map (·.parser)) ?_ ?_ ps [] SuffixTable.new
    (by simp [firstParsers])
  · intro t p a rest hp b hb hno
    rw [sadd_par sip t p a rest hp, sadd_par sip t _ b rest rfl, putPar_alike hb hno]
    rfl
  · intro t p t' ht c hc
    cases hp : p.pattern with
    | nil =>
      unfold SuffixTable.addPattern at ht
      rw [sinsert_empty _ _ _ hp] at ht
      cases ht
      rw [hp] at hc
      simp only [List.head?_nil, reduceCtorEq, or_false] at hc
      exact ⟨c, hc, rfl⟩
    | cons tok rest =>
      rw [hp] at hc
      cases tok with
      | literal l =>
        unfold SuffixTable.addPattern at ht
        rw [sinsert_lit _ _ _ l rest hp] at ht
        rw [sinsertLiteral_parsers ht]
        simp only [List.head?_cons, Option.some.injEq, reduceCtorEq, or_false] at hc
        exact ⟨c, hc, rfl⟩
      | parser a =>
        rw [sadd_par sip t p a rest hp] at ht
        cases ht
        exact putPar_keeps _ _ _ (supdP_parser _ _) _ (by simpa using hc)

/-- C121: with any hash function, the answers of the suffix array are those C73 gives for the patterns after this replacement. -/
theorem C121_suffix_array_answer (sip : Bytes → UInt64) (ps : List Pattern) (hu : ∀ p ∈ ps, Utf8Lits p) :
    ∃ t, SuffixTable.build sip ps = .ok t ∧ ∀ text, Utf8 text → ∀ r, t.parse text = .ok r → SuffixAnswer (ps.map (withFirstParser sip ps)) text r := by
  rw [C121_suffix_array_collisions]
  exact C73_answer sip _ (utf8_withFirst sip hu) (C121_no_collision_left sip ps)

/-- Two hash functions without a collision between the leading INT and GREEDY: that of the program and one that only looks at the length. -/
example : NoCollision Samples.sip [Samples.pat 1 [.parser (Samples.int b!"i")], Samples.pat 2 [.parser (Samples.greedy b!"longer" none)]] ∧
    NoCollision (fun b => UInt64.ofNat b.length)
      [Samples.pat 1 [.parser (Samples.int b!"i")], Samples.pat 2 [.parser (Samples.greedy b!"longer" none)]] := by
  constructor <;>
  · rintro a b ⟨p, hp, ha⟩ ⟨q, hq, hb⟩ h
    simp only [List.mem_cons, List.not_mem_nil, or_false] at hp hq
    rcases hp with rfl | rfl <;> rcases hq with rfl | rfl <;> simp [Samples.pat] at ha hb <;> subst ha <;> subst hb <;>
      first | rfl | exact absurd h (by decide +kernel)

/-- With a hash function that gives everything the same hash, the pattern that starts with GREEDY is kept as if it started with the INT before it. -/
example : [Samples.pat 1 [.parser (Samples.int b!"i")], Samples.pat 2 [.parser (Samples.greedy b!"g" (some b!"x")), .literal b!"x"]].map
    (withFirstParser (fun _ => 0) [Samples.pat 1 [.parser (Samples.int b!"i")], Samples.pat 2 [.parser (Samples.greedy b!"g" (some b!"x")), .literal b!"x"]]) =
    [Samples.pat 1 [.parser (Samples.int b!"i")], Samples.pat 2 [.parser (Samples.int b!"i"), .literal b!"x"]] := by decide +kernel

/-- So it is found for numbers only, and a text that GREEDY would match is not answered. -/
example : (SuffixTree.build (fun _ => 0) [Samples.pat 1 [.parser (Samples.int b!"i")], Samples.pat 2 [.parser (Samples.greedy b!"g" (some b!"x")), .literal b!"x"]]
      >>= fun t => t.parse b!"12x") = .ok (some { pattern := Samples.pat 2 [], values := [(b!"i", b!"12")] }) ∧
    (SuffixTree.build (fun _ => 0) [Samples.pat 1 [.parser (Samples.int b!"i")], Samples.pat 2 [.parser (Samples.greedy b!"g" (some b!"x")), .literal b!"x"]]
      >>= fun t => t.parse b!"abx") = .ok none ∧
    (SuffixTree.build Samples.sip [Samples.pat 1 [.parser (Samples.int b!"i")], Samples.pat 2 [.parser (Samples.greedy b!"g" (some b!"x")), .literal b!"x"]]
      >>= fun t => t.parse b!"abx") = .ok (some { pattern := Samples.pat 2 [], values := [(b!"g", b!"ab")] }) := by decide +kernel

end Verif
