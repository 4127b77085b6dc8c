import Verif.Proofs.TrieInsert
/-! The invariant is kept by insertion; the insertion of whole patterns. -/
namespace Verif
open Spec

/-- The pattern as stored in the trie: its tokens have been consumed. -/
def Pattern.strip (p : Pattern) : Pattern := { p with pattern := [] }

def setPat (q : Pattern) (n : LiteralNode) : LiteralNode := { n with pattern := some q }
def setChild (c : SuffixTree) (n : LiteralNode) : LiteralNode := { n with node := some c }

/-- The trie that holds one pattern with the given tokens. -/
def single : List Token → Pattern → SuffixTree
  | [], _ => SuffixTree.new
  | .literal l :: rest, q =>
    ⟨[{ literal := l, hasValue := true,
        pattern := if rest.isEmpty then some q else none,
        node := if rest.isEmpty then none else some (single rest q) }], []⟩
  | .parser a :: rest, q =>
    ⟨[], [{ parser := a,
            pattern := if rest.isEmpty then some q else none,
            node := if rest.isEmpty then none else some (single rest q) }]⟩

/-- What the rest of a pattern does to the entry of its first literal. -/
def updLit (rest : List Token) (q : Pattern) : LiteralNode → LiteralNode :=
  if rest.isEmpty then setPat q else setChild (single rest q)

/-- What the rest of a pattern does to the entry of its first parser. -/
def updPar (rest : List Token) (q : Pattern) (n : ParserNode) : ParserNode :=
  if rest.isEmpty then { n with pattern := some q } else { n with node := some (single rest q) }

theorem insert_unfold_lit (sip : Bytes → UInt64) (t : SuffixTree) (p : Pattern) (l : Bytes) (rest : List Token)
    (hp : p.pattern = .literal l :: rest) :
    t.insert sip p = t.insertLiteral l fun entry =>
      if rest.isEmpty then .ok { entry with pattern := some { p with pattern := rest } }
      else
        match SuffixTree.insert sip SuffixTree.new { p with pattern := rest } with
        | .error e => .error e
        | .ok sa => .ok { entry with node := some sa } := by
  have h : p.popFirstToken = some (.literal l, { p with pattern := rest }) := by simp [Pattern.popFirstToken, hp]
  rw [SuffixTree.insert]
  split
  · rename_i h2; rw [h] at h2; simp at h2
  · rename_i h2; rw [h] at h2; simp at h2; obtain ⟨h3, h4⟩ := h2; subst h3; subst h4; rfl
  · rename_i h2; rw [h] at h2; simp at h2

theorem insert_unfold_par (sip : Bytes → UInt64) (t : SuffixTree) (p : Pattern) (a : Parser) (rest : List Token)
    (hp : p.pattern = .parser a :: rest) :
    t.insert sip p = t.insertParser sip a fun entry =>
      if rest.isEmpty then .ok { entry with pattern := some { p with pattern := rest } }
      else
        match SuffixTree.insert sip SuffixTree.new { p with pattern := rest } with
        | .error e => .error e
        | .ok sa => .ok { entry with node := some sa } := by
  have h : p.popFirstToken = some (.parser a, { p with pattern := rest }) := by simp [Pattern.popFirstToken, hp]
  rw [SuffixTree.insert]
  split
  · rename_i h2; rw [h] at h2; simp at h2
  · rename_i h2; rw [h] at h2; simp at h2
  · rename_i h2; rw [h] at h2; simp at h2; obtain ⟨h3, h4⟩ := h2; subst h3; subst h4; rfl

theorem insert_empty (sip : Bytes → UInt64) (t : SuffixTree) (p : Pattern) (hp : p.pattern = []) :
    t.insert sip p = .ok t := by
  have h : p.popFirstToken = none := by simp [Pattern.popFirstToken, hp]
  rw [SuffixTree.insert]
  split
  · rfl
  · rename_i h2; rw [h] at h2; simp at h2
  · rename_i h2; rw [h] at h2; simp at h2

theorem bsearch_nil (f : LiteralNode → M Ordering) : SortedVec.binarySearchBy f [] = .ok (.err 0) := by
  unfold SortedVec.binarySearchBy binarySearchBy
  rw [binarySearchLoop]
  rfl

theorem insertLiteral_new (l : Bytes) (f : LiteralNode → M LiteralNode) (n : LiteralNode) (hf : f (freshLit l) = .ok n) :
    SuffixTree.new.insertLiteral l f = .ok ⟨[n], []⟩ := by
  have e1 : SuffixTree.new.search l = .ok .notFound := by
    unfold SuffixTree.search
    rw [show SuffixTree.new.literalChildren = [] from rfl, bsearch_nil]
    rfl
  unfold SuffixTree.insertLiteral SuffixTree.lookupLiteralMut
  rw [e1]
  have e2 : checkedSub l.length l.length = .ok 0 := by simp [checkedSub]
  have e3 : ltrunc l 0 = .ok l := by
    rw [ltrunc, sliceFrom_ok (isCharBoundary_zero l)]; simp
  have e4 : SortedVec.binarySearchBy (fun p => p.cmpStr l) ([] : List LiteralNode) = .ok (.err 0) := bsearch_nil _
  have e5 : SortedVec.push LiteralNode.cmp [] (freshLit l) = .ok [freshLit l] := rfl
  have e6 : (freshLit l) = { literal := l, hasValue := true, pattern := none, node := none } := rfl
  simp only [e2, e3, bind, Except.bind, SuffixTree.insertLiteralTail, SuffixTree.new, e4, LiteralNode.new, ← e6,
    SuffixTree.addLiteralNode, e5, pure, Except.pure, SuffixTree.updateLiteral, List.getElem?_cons_zero, unwrap, hf,
    List.set_cons_zero]

theorem insert_new (sip : Bytes → UInt64) (toks : List Token) (p : Pattern) (hp : p.pattern = toks) :
    SuffixTree.new.insert sip p = .ok (single toks p.strip) := by
  induction toks generalizing p with
  | nil => rw [insert_empty sip _ _ hp]; rfl
  | cons tok rest ih =>
    have ih := ih { p with pattern := rest } rfl
    have es : ({ p with pattern := rest } : Pattern).strip = p.strip := rfl
    rw [es] at ih
    cases tok with
    | literal l =>
      rw [insert_unfold_lit sip _ p l rest hp]
      apply insertLiteral_new
      cases rest with
      | nil => simp [freshLit, Pattern.strip]
      | cons a b => simp only [List.isEmpty_cons, Bool.false_eq_true, if_false, ih]; rfl
    | parser a =>
      rw [insert_unfold_par sip _ p a rest hp]
      unfold SuffixTree.insertParser
      simp only [SuffixTree.lookupParser, SuffixTree.new, List.findIdx?_nil]
      rw [show (⟨[], []⟩ : SuffixTree) = SuffixTree.new from rfl]
      cases rest with
      | nil => simp [bind, Except.bind, pure, Except.pure, single, ParserNode.new, Pattern.strip]
      | cons a b => simp [bind, Except.bind, pure, Except.pure, single, ParserNode.new, ih]

/-- The update performed through the entry of the first literal. -/
theorem insert_lit (sip : Bytes → UInt64) (t : SuffixTree) (p : Pattern) (l : Bytes) (rest : List Token)
    (hp : p.pattern = .literal l :: rest) :
    t.insert sip p = t.insertLiteral l fun entry => .ok (updLit rest p.strip entry) := by
  rw [insert_unfold_lit sip t p l rest hp]
  congr
  funext entry
  cases rest with
  | nil => rfl
  | cons a b =>
    have := insert_new sip (a :: b) { p with pattern := a :: b } rfl
    simp only [List.isEmpty_cons, Bool.false_eq_true, if_false, this]
    rfl

theorem insert_par (sip : Bytes → UInt64) (t : SuffixTree) (p : Pattern) (a : Parser) (rest : List Token)
    (hp : p.pattern = .parser a :: rest) :
    t.insert sip p = t.insertParser sip a fun entry => .ok (updPar rest p.strip entry) := by
  rw [insert_unfold_par sip t p a rest hp]
  congr
  funext entry
  cases rest with
  | nil => rfl
  | cons b c =>
    have := insert_new sip (b :: c) { p with pattern := b :: c } rfl
    simp only [List.isEmpty_cons, Bool.false_eq_true, if_false, this]
    rfl

theorem goodUpd_updLit (rest : List Token) (q : Pattern) : GoodUpd (updLit rest q) := by
  unfold updLit
  split <;> exact ⟨fun _ => rfl, fun _ => rfl⟩

/-! ### the invariant -/

/-- The label predicates used: `Ascii` and `Utf8`. -/
structure LabelPred (P : Bytes → Prop) : Prop where
  take : ∀ a b, P a → P b → P (b.take (commonPrefixLen a b))
  dropL : ∀ a b, P a → P b → P (a.drop (commonPrefixLen a b))
  dropR : ∀ a b, P a → P b → P (b.drop (commonPrefixLen a b))
  cancel : ∀ a b, P a → P (a ++ b) → P b

theorem labelPred_ascii : LabelPred Ascii where
  take _ _ _ h := ascii_take h _
  dropL _ _ h _ := ascii_drop h _
  dropR _ _ _ h := ascii_drop h _
  cancel _ _ _ h := (ascii_append.mp h).2

theorem labelPred_utf8 : LabelPred Utf8 where
  take _ _ ha hb := (boundary_split hb (cpl_boundary_right ha hb)).1
  dropL _ _ ha hb := (boundary_split ha (cpl_boundary_left ha hb)).2
  dropR _ _ ha hb := (boundary_split hb (cpl_boundary_right ha hb)).2
  cancel _ _ ha hab := utf8_cancel ha hab

/-- All literals satisfy `P`. -/
def LitsP (P : Bytes → Prop) (toks : List Token) : Prop := ∀ l, Token.literal l ∈ toks → P l

variable {P : Bytes → Prop}

theorem inv_new : Inv P SuffixTree.new :=
  .mk _ ⟨by simp [SuffixTree.new], by simp [SuffixTree.new]⟩ (by simp [SuffixTree.new]) (by simp [SuffixTree.new])
    (by simp [SuffixTree.new]) (by simp [SuffixTree.new])

theorem inv_single (toks : List Token) (q : Pattern) (h : LitsP P toks) : Inv P (single toks q) := by
  induction toks with
  | nil => exact inv_new
  | cons tok rest ih =>
    have ih := ih fun l hl => h l (by simp [hl])
    cases tok with
    | literal l =>
      refine .mk _ ⟨by simp [single], ?_⟩ ?_ ?_ (by simp [single]) (by simp [single])
      · intro n hn; simp [single] at hn; subst hn; exact h l (by simp)
      · intro n hn hv; simp [single] at hn; subst hn; simp at hv
      · intro n hn c hc
        simp [single] at hn; subst hn
        cases rest with
        | nil => simp at hc
        | cons a b => simp at hc; rw [← hc]; exact ih
    | parser a =>
      refine .mk _ ⟨by simp [single], by simp [single]⟩ (by simp [single]) (by simp [single]) ?_ ?_
      · intro n hn; simp [single] at hn; subst hn
        cases rest <;> simp
      · intro n hn c hc
        simp [single] at hn; subst hn
        cases rest with
        | nil => simp at hc
        | cons a b => simp at hc; rw [← hc]; exact ih

theorem sortedLits_replace {A B : List LiteralNode} {n n' : LiteralNode} (h : SortedLits P (A ++ n :: B))
    (hr : rk n'.literal = rk n.literal) (ha : P n'.literal) : SortedLits P (A ++ n' :: B) := by
  obtain ⟨h1, h2⟩ := h
  refine ⟨?_, ?_⟩
  · rw [List.pairwise_append, List.pairwise_cons] at h1 ⊢
    obtain ⟨a1, ⟨a2, a3⟩, a4⟩ := h1
    refine ⟨a1, ⟨?_, a3⟩, ?_⟩
    · intro m hm; rw [hr]; exact a2 m hm
    · intro m hm k hk
      simp at hk
      rcases hk with rfl | hk
      · rw [hr]; exact a4 m hm n (by simp)
      · exact a4 m hm k (by simp [hk])
  · intro m hm
    simp at hm
    rcases hm with hm | rfl | hm
    · exact h2 m (by simp [hm])
    · exact ha
    · exact h2 m (by simp [hm])

theorem sortedLits_insert {A B : List LiteralNode} {n : LiteralNode} (h : SortedLits P (A ++ B))
    (hA : ∀ m ∈ A, rk m.literal < rk n.literal) (hB : ∀ m ∈ B, rk n.literal < rk m.literal) (ha : P n.literal) :
    SortedLits P (A ++ n :: B) := by
  obtain ⟨h1, h2⟩ := h
  refine ⟨?_, ?_⟩
  · rw [List.pairwise_append] at h1 ⊢
    rw [List.pairwise_cons]
    obtain ⟨a1, a3, a4⟩ := h1
    refine ⟨a1, ⟨hB, a3⟩, ?_⟩
    intro m hm k hk
    simp at hk
    rcases hk with rfl | hk
    · exact hA m hm
    · exact a4 m hm k hk
  · intro m hm
    simp at hm
    rcases hm with hm | rfl | hm
    · exact h2 m (by simp [hm])
    · exact ha
    · exact h2 m (by simp [hm])

/-- Replacing or adding one literal child keeps the invariant. -/
theorem inv_of_child {t : SuffixTree} {A B : List LiteralNode} {n' : LiteralNode} (h : Inv P t)
    (hsub : ∀ m, m ∈ A ∨ m ∈ B → m ∈ t.literalChildren) (hs : SortedLits P (A ++ n' :: B))
    (hin : n'.hasValue = false → n'.literal ≠ [] ∧ n'.pattern = none ∧ n'.node ≠ none)
    (hch : ∀ c, n'.node = some c → Inv P c) : Inv P { t with literalChildren := A ++ n' :: B } := by
  refine .mk _ hs ?_ ?_ h.parsers h.pchild
  · intro m hm
    simp at hm
    rcases hm with hm | rfl | hm
    · exact h.inner m (hsub m (.inl hm))
    · exact hin
    · exact h.inner m (hsub m (.inr hm))
  · intro m hm
    simp at hm
    rcases hm with hm | rfl | hm
    · exact h.child m (hsub m (.inl hm))
    · exact hch
    · exact h.child m (hsub m (.inr hm))

theorem rk_take {l : Bytes} {n : Nat} (h : 0 < n) : rk (l.take n) = rk l := by
  cases l with
  | nil => simp
  | cons b l => cases n with
    | zero => omega
    | succ n => simp [rk]

theorem splitChildren_mem (g : LiteralNode → LiteralNode) (n : LiteralNode) (l : Bytes) (m : LiteralNode) :
    m ∈ splitChildren g n l ↔ m = g (freshLit (l.drop (commonPrefixLen n.literal l))) ∨
      m = { n with literal := n.literal.drop (commonPrefixLen n.literal l) } := by
  unfold splitChildren
  simp only
  split <;> simp [or_comm]

theorem splitChildren_sorted {g : LiteralNode → LiteralNode} (hg : GoodUpd g) {n : LiteralNode} {l : Bytes}
    (hP : LabelPred P) (hn : P n.literal) (hl : P l)
    (hrk : rk (n.literal.drop (commonPrefixLen n.literal l)) ≠ rk (l.drop (commonPrefixLen n.literal l))) :
    SortedLits P (splitChildren g n l) := by
  refine ⟨?_, ?_⟩
  · unfold splitChildren
    simp only
    split
    · simpa [hg.literal, freshLit] using by assumption
    · simp [hg.literal, freshLit]; omega
  · intro m hm
    rw [splitChildren_mem] at hm
    rcases hm with rfl | rfl
    · rw [hg.literal]; exact hP.dropR _ _ hn hl
    · exact hP.dropL _ _ hn hl

theorem ins_inv (hP : LabelPred P) {g : LiteralNode → LiteralNode} (hg : GoodUpd g)
    (hgc : ∀ n, (∀ c, n.node = some c → Inv P c) → ∀ c, (g n).node = some c → Inv P c)
    {t t' : SuffixTree} {l : Bytes} (h : Ins g t l t') (hi : Inv P t) (hl : P l) : Inv P t' := by
  induction h with
  | miss t l A B ht hA hB =>
    apply inv_of_child hi (by intro m hm; rw [ht]; simpa using hm)
    · apply sortedLits_insert (by rw [← ht]; exact hi.lits)
      · rw [hg.literal]; exact hA
      · rw [hg.literal]; exact hB
      · rw [hg.literal]; exact hl
    · rw [hg.hasValue]; simp [freshLit]
    · apply hgc; simp [freshLit]
  | exact t l A B n ht hl' hv =>
    have hm : n ∈ t.literalChildren := by rw [ht]; simp
    apply inv_of_child hi (by intro m hm; rw [ht]; rcases hm with hm | hm <;> simp [hm])
    · apply sortedLits_replace (by rw [← ht]; exact hi.lits)
      · rw [hg.literal]
      · rw [hg.literal, hl']; exact hl
    · rw [hg.hasValue, hv]; simp
    · exact hgc n (hi.child n hm)
  | split t l A B n ht hr hs hpos hrk =>
    have hm : n ∈ t.literalChildren := by rw [ht]; simp
    have hn := hi.lits.label n hm
    have hle := cpl_le n.literal l
    apply inv_of_child hi (by intro m hm; rw [ht]; rcases hm with hm | hm <;> simp [hm])
    · apply sortedLits_replace (by rw [← ht]; exact hi.lits)
      · simp only [splitNode]; rw [rk_take hpos, hr]
      · exact hP.take _ _ hn hl
    · intro _
      refine ⟨?_, rfl, by simp [splitNode]⟩
      intro h0
      have := congrArg List.length h0
      simp [splitNode] at this
      have hl0 : l.length ≠ 0 := by
        intro h1; omega
      rcases this with h1 | h1
      · omega
      · subst h1; simp at hl0
    · intro c hc
      simp [splitNode] at hc
      subst hc
      refine .mk _ (splitChildren_sorted hg hP hn hl hrk) ?_ ?_ (by simp) (by simp)
      · intro m hm2 hv
        rw [splitChildren_mem] at hm2
        rcases hm2 with rfl | rfl
        · rw [hg.hasValue] at hv; simp [freshLit] at hv
        · have := hi.inner n hm hv
          refine ⟨?_, this.2⟩
          -- the rest of an inner label is not empty: otherwise the label is a prefix of l and the node is not a leaf
          intro h0
          simp only [List.drop_eq_nil_iff] at h0
          have hp : n.literal <+: l := cpl_eq_length_left.mp (by omega)
          rcases hs with h1 | ⟨h1, _⟩
          · exact h1 hp
          · exact this.2.2 h1
      · intro m hm2 c hc
        rw [splitChildren_mem] at hm2
        rcases hm2 with rfl | rfl
        · exact hgc (freshLit _) (by simp [freshLit]) c hc
        · exact hi.child n hm c hc
  | down t l A B n c c' ht hr hp hc hne _ ih =>
    have hm : n ∈ t.literalChildren := by rw [ht]; simp
    apply inv_of_child hi (by intro m hm; rw [ht]; rcases hm with hm | hm <;> simp [hm])
    · exact sortedLits_replace (n := n) (by rw [← ht]; exact hi.lits) rfl (hi.lits.label n hm)
    · intro hv
      have := hi.inner n hm hv
      exact ⟨this.1, this.2.1, by simp⟩
    · intro c2 hc2
      simp at hc2
      subst hc2
      obtain ⟨y, rfl⟩ := hp
      refine ih (hi.child n hm c hc) ?_
      simpa using hP.cancel _ _ (hi.lits.label n hm) hl

theorem updLit_child (rest : List Token) (q : Pattern) (ha : LitsP P rest) (n : LiteralNode)
    (h : ∀ c, n.node = some c → Inv P c) : ∀ c, (updLit rest q n).node = some c → Inv P c := by
  unfold updLit
  split
  · exact h
  · intro c hc
    simp [setChild] at hc
    subst hc
    exact inv_single rest q ha

/-- The list of parser children after the insertion of a pattern that starts with the parser `a`. -/
def insPar (sip : Bytes → UInt64) (ps : List ParserNode) (a : Parser) (rest : List Token) (q : Pattern) : List ParserNode :=
  match ps with
  | [] => [updPar rest q (ParserNode.new a)]
  | n :: ns => if n.parser.hashOs sip == a.hashOs sip then updPar rest q n :: ns else n :: insPar sip ns a rest q

theorem insertParser_run (sip : Bytes → UInt64) (t : SuffixTree) (a : Parser) (rest : List Token) (q : Pattern) :
    t.insertParser sip a (fun entry => .ok (updPar rest q entry)) =
      .ok { t with parserChildren := insPar sip t.parserChildren a rest q } := by
  have key : ∀ ps : List ParserNode,
      (ps.findIdx? (fun x => x.parser.hashOs sip == a.hashOs sip) = none → insPar sip ps a rest q = ps ++ [updPar rest q (ParserNode.new a)]) ∧
      (∀ i, ps.findIdx? (fun x => x.parser.hashOs sip == a.hashOs sip) = some i →
        ∃ n, ps[i]? = some n ∧ insPar sip ps a rest q = ps.set i (updPar rest q n)) := by
    intro ps
    induction ps with
    | nil => simp [insPar]
    | cons m ps ih =>
      rw [List.findIdx?_cons]
      unfold insPar
      split
      · simp
      · refine ⟨?_, ?_⟩
        · intro h
          simp only [Option.map_eq_none_iff] at h
          rw [ih.1 h]; rfl
        · intro i h
          simp only [Option.map_eq_some_iff] at h
          obtain ⟨j, h1, rfl⟩ := h
          obtain ⟨n, h2, h3⟩ := ih.2 j h1
          exact ⟨n, by simpa using h2, by simp [h3]⟩
  obtain ⟨k1, k2⟩ := key t.parserChildren
  unfold SuffixTree.insertParser SuffixTree.lookupParser
  split
  · rename_i i hi
    obtain ⟨n, h1, h2⟩ := k2 i hi
    simp [h1, unwrap, bind, Except.bind, pure, Except.pure, h2]
  · rename_i hn
    simp [bind, Except.bind, pure, Except.pure, k1 hn]

theorem insPar_mem {sip : Bytes → UInt64} {ps : List ParserNode} {a : Parser} {rest : List Token} {q : Pattern} {m : ParserNode}
    (h : m ∈ insPar sip ps a rest q) : m ∈ ps ∨ m = updPar rest q (ParserNode.new a) ∨
      ∃ n ∈ ps, n.parser.hashOs sip = a.hashOs sip ∧ m = updPar rest q n := by
  induction ps with
  | nil => simp [insPar] at h; exact .inr (.inl h)
  | cons n ps ih =>
    unfold insPar at h
    split at h
    · rename_i he
      simp at h
      rcases h with rfl | h
      · exact .inr (.inr ⟨n, by simp, by simpa using he, rfl⟩)
      · exact .inl (by simp [h])
    · simp at h
      rcases h with rfl | h
      · exact .inl (by simp)
      · rcases ih h with h | h | ⟨k, hk, h⟩
        · exact .inl (by simp [h])
        · exact .inr (.inl h)
        · exact .inr (.inr ⟨k, by simp [hk], h⟩)

/-- Insertion of an ASCII pattern: never panics, and either does nothing, updates the literal entry, or the parser entry. -/
inductive Step (sip : Bytes → UInt64) (t : SuffixTree) (p : Pattern) : SuffixTree → Prop
  | empty (hp : p.pattern = []) : Step sip t p t
  | lit (l : Bytes) (rest : List Token) (hp : p.pattern = .literal l :: rest) (t' : SuffixTree)
      (h : Ins (updLit rest p.strip) t l t') : Step sip t p t'
  | par (a : Parser) (rest : List Token) (hp : p.pattern = .parser a :: rest) :
      Step sip t p { t with parserChildren := insPar sip t.parserChildren a rest p.strip }

/-- One insertion keeps the invariant. -/
theorem step_inv (hP : LabelPred P) {sip : Bytes → UInt64} {t t' : SuffixTree} {p : Pattern} (h : Step sip t p t') (hi : Inv P t)
    (ha : LitsP P p.pattern) : Inv P t' := by
  cases h with
  | empty hp => exact hi
  | lit l rest hp t' h' =>
    rw [hp] at ha
    exact ins_inv hP (goodUpd_updLit _ _) (updLit_child rest _ fun l hl => ha l (by simp [hl])) h' hi (ha l (by simp))
  | par a rest hp =>
    rw [hp] at ha
    have harest : LitsP P rest := fun l hl => ha l (by simp [hl])
    have hupd : ∀ n : ParserNode, ((updPar rest p.strip n).node = none → (updPar rest p.strip n).pattern ≠ none) ∧
        ((∀ c, n.node = some c → Inv P c) → ∀ c, (updPar rest p.strip n).node = some c → Inv P c) := by
      intro n
      unfold updPar
      split
      · exact ⟨by simp, fun h => h⟩
      · refine ⟨by simp, ?_⟩
        intro _ c hc
        simp at hc; subst hc
        exact inv_single rest _ harest
    refine .mk _ hi.lits hi.inner hi.child ?_ ?_
    · intro m hm
      rcases insPar_mem hm with h | rfl | ⟨n, hn, _, rfl⟩
      · exact hi.parsers m h
      · exact (hupd _).1
      · exact (hupd _).1
    · intro m hm
      rcases insPar_mem hm with h | rfl | ⟨n, hn, _, rfl⟩
      · exact hi.pchild m h
      · exact (hupd _).2 (by simp [ParserNode.new])
      · exact (hupd _).2 (hi.pchild n hn)

/-- Insertion of an ASCII pattern never panics. -/
theorem insert_step_ascii (sip : Bytes → UInt64) {t : SuffixTree} (hi : Inv Ascii t) (p : Pattern) (ha : LitsP Ascii p.pattern) :
    ∃ t', t.insert sip p = .ok t' ∧ Step sip t p t' ∧ Inv Ascii t' := by
  have key : ∃ t', t.insert sip p = .ok t' ∧ Step sip t p t' := by
    cases hp : p.pattern with
    | nil => exact ⟨t, insert_empty sip t p hp, .empty hp⟩
    | cons tok rest =>
      rw [hp] at ha
      cases tok with
      | literal l =>
        obtain ⟨t', h'⟩ := ins_total (g := updLit rest p.strip) hi l
        refine ⟨t', ?_, .lit l rest hp t' h'⟩
        rw [insert_lit sip t p l rest hp]
        exact ins_run (fun _ => rfl) h' hi (ha l (by simp))
      | parser a =>
        refine ⟨_, ?_, .par a rest hp⟩
        rw [insert_par sip t p a rest hp]
        exact insertParser_run sip t a rest _
  obtain ⟨t', h1, h2⟩ := key
  exact ⟨t', h1, h2, step_inv labelPred_ascii h2 hi ha⟩

end Verif
