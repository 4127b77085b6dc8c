import Verif.Spec.Samples
import Verif.Model.Trace
import Verif.Proofs.TriePartial
import Verif.Proofs.SuffixTableAnswer
/-! C85: how often the parsers are called. -/
namespace Verif
open Spec

mutual
def SuffixTree.allParsers : SuffixTree → List Parser
  | ⟨ls, ps⟩ => litParsers ls ++ parParsers ps
def litParsers : List LiteralNode → List Parser
  | [] => []
  | n :: ls => n.allParsers ++ litParsers ls
def parParsers : List ParserNode → List Parser
  | [] => []
  | n :: ls => n.allParsers ++ parParsers ls
def LiteralNode.allParsers : LiteralNode → List Parser
  | ⟨_, _, _, n⟩ => optParsers n
def ParserNode.allParsers : ParserNode → List Parser
  | ⟨a, _, n⟩ => a :: optParsers n
def optParsers : Option SuffixTree → List Parser
  | none => []
  | some t => t.allParsers
end

variable (q : Parser → Bool)

theorem tree_parsers (t : SuffixTree) : t.allParsers = litParsers t.literalChildren ++ parParsers t.parserChildren := by
  cases t; rw [SuffixTree.allParsers]

theorem lit_parsers (n : LiteralNode) : n.allParsers = optParsers n.node := by cases n; rw [LiteralNode.allParsers]

theorem par_parsers (n : ParserNode) : n.allParsers = n.parser :: optParsers n.node := by cases n; rw [ParserNode.allParsers]

theorem litParsers_append (a b : List LiteralNode) : litParsers (a ++ b) = litParsers a ++ litParsers b := by
  induction a with
  | nil => simp [litParsers]
  | cons n a ih => simp [litParsers, ih]

theorem parParsers_append (a b : List ParserNode) : parParsers (a ++ b) = parParsers a ++ parParsers b := by
  induction a with
  | nil => simp [parParsers]
  | cons n a ih => simp [parParsers, ih]

theorem litParsers_mem {n : LiteralNode} {ls : List LiteralNode} (h : n ∈ ls) : n.allParsers.countP q ≤ (litParsers ls).countP q := by
  obtain ⟨a, b, rfl⟩ := List.append_of_mem h
  simp [litParsers_append, litParsers]
  omega

theorem lookup_parsers {t : SuffixTree} {l : Bytes} {node : SuffixTree} {n : Nat} (h : t.lookupLiteral l = .ok (.err node n)) :
    (parParsers node.parserChildren).countP q ≤ t.allParsers.countP q := by
  fun_induction SuffixTree.lookupLiteral t l with
  | case1 => simp at h
  | case2 => simp at h
  | case3 t l hs =>
    simp at h
    rw [← h.1, tree_parsers]; simp
  | case4 => simp at h
  | case5 => simp at h
  | case6 t l pos tr hs m hm c hc ih =>
    have h1 := ih h
    have h2 := litParsers_mem q (List.mem_of_getElem? hm)
    rw [lit_parsers, hc, optParsers] at h2
    rw [tree_parsers]; simp; omega

/-- The recorded run does what the matcher does, calls only the given parsers, none more often than it is there, on ends of the text. -/
structure Traced (r : M (Option MatchResult) × List Call) (m : M (Option MatchResult)) (ps : List Parser) (text : Bytes) : Prop where
  same : r.1 = m
  calls : ∀ q, (r.2.map Prod.fst).countP q ≤ ps.countP q
  texts : ∀ c ∈ r.2, c.2 <:+ text

theorem ltrunc_suffix {text x : Bytes} {n : Nat} (h : ltrunc text n = .ok x) : x <:+ text := by
  unfold ltrunc at h
  unfold sliceFrom at h
  split at h
  · simp at h; rw [← h]; exact List.drop_suffix _ _
  · simp at h

theorem traced (n : Nat) :
    (∀ t : SuffixTree, 2 * sizeOf t < n → ∀ text, Traced (t.parseT text) (t.parse text) t.allParsers text) ∧
    (∀ ps : List ParserNode, 2 * sizeOf ps < n → ∀ text, Traced (parseWithParsersT ps text) (parseWithParsers ps text) (parParsers ps) text) ∧
    (∀ p : ParserNode, 2 * sizeOf p < n → ∀ text, Traced (p.parseT text) (p.parse text) p.allParsers text) := by
  induction n with
  | zero => exact ⟨fun _ h => absurd h (by omega), fun _ h => absurd h (by omega), fun _ h => absurd h (by omega)⟩
  | succ n ih =>
    obtain ⟨ih1, ih2, ih3⟩ := ih
    have nil : ∀ m ps text, Traced (m, []) m ps text := fun m ps text => ⟨rfl, by simp, by simp⟩
    refine ⟨?_, ?_, ?_⟩
    · intro t ht text
      cases hl : t.lookupLiteral text with
      | error e =>
        have h1 : t.parseT text = (.error e, []) := by unfold SuffixTree.parseT; split <;> simp_all
        have h2 : t.parse text = .error e := by unfold SuffixTree.parse; split <;> simp_all
        rw [h1, h2]; exact nil _ _ _
      | ok r =>
        cases r with
        | ok node pos =>
          cases hc : node.literalChildren[pos]? with
          | none =>
            have h1 : t.parseT text = (.error .unwrap, []) := by unfold SuffixTree.parseT; split <;> simp_all
            have h2 : t.parse text = .error .unwrap := by unfold SuffixTree.parse; split <;> simp_all
            rw [h1, h2]; exact nil _ _ _
          | some child =>
            have h1 : t.parseT text = (.ok (SuffixTree.createMatchResultIfChildIsLeaf child), []) := by
              unfold SuffixTree.parseT; split <;> simp_all
            have h2 : t.parse text = .ok (SuffixTree.createMatchResultIfChildIsLeaf child) := by unfold SuffixTree.parse; split <;> simp_all
            rw [h1, h2]; exact nil _ _ _
        | err node rem =>
          have h1 : t.parseT text = match checkedSub text.length rem with
              | .error e => (.error e, [])
              | .ok off => match ltrunc text off with
                | .error e => (.error e, [])
                | .ok text => parseWithParsersT node.parserChildren text := by
            conv => lhs; unfold SuffixTree.parseT
            split <;> simp_all <;> rfl
          have h2 : t.parse text = match checkedSub text.length rem with
              | .error e => .error e
              | .ok off => match ltrunc text off with
                | .error e => .error e
                | .ok text => parseWithParsers node.parserChildren text := by
            conv => lhs; unfold SuffixTree.parse
            split <;> simp_all <;> rfl
          rw [h1, h2]
          split
          · exact nil _ _ _
          · rename_i off hoff
            cases hx : ltrunc text off with
            | error e => simp only []; exact nil _ _ _
            | ok x =>
              simp only []
              have h3 := SuffixTree.lookupLiteral_err_size hl
              have h4 := SuffixTree.sizeOf_parserChildren node
              have h5 := ih2 node.parserChildren (by omega) x
              exact ⟨h5.same, fun q => Nat.le_trans (h5.calls q) (lookup_parsers q hl), fun c hc => (h5.texts c hc).trans (ltrunc_suffix hx)⟩
    · intro ps hps text
      unfold parseWithParsersT parseWithParsers
      cases ps with
      | nil => exact nil _ _ _
      | cons i rest =>
        simp at hps
        have hi := ih3 i (by omega) text
        have hr := ih2 rest (by omega) text
        simp only [parParsers]
        rcases hT : i.parseT text with ⟨m, c⟩
        rw [hT] at hi
        rw [← hi.same]
        have h1 := hi.calls
        have h2 := hi.texts
        simp only [] at h1 h2 ⊢
        match m with
        | .error e => exact ⟨rfl, fun q => by have := h1 q; simp at this ⊢; omega, h2⟩
        | .ok (some r) => exact ⟨rfl, fun q => by have := h1 q; simp at this ⊢; omega, h2⟩
        | .ok none =>
          refine ⟨hr.same, fun q => ?_, ?_⟩
          · have := h1 q
            have := hr.calls q
            simp at *; omega
          · intro x hx
            rcases List.mem_append.mp hx with hx | hx
            · exact h2 x hx
            · exact hr.texts x hx
    · intro p hp text
      have one : ∀ m, Traced (m, [(p.parser, text)]) m p.allParsers text := by
        intro m
        refine ⟨rfl, fun q => ?_, by simp⟩
        rw [par_parsers]; simp [List.countP_cons]
      cases hv : p.parser.parse text with
      | error e => unfold ParserNode.parseT ParserNode.parse; simp only [hv]; exact one _
      | ok r =>
        cases r with
        | none => unfold ParserNode.parseT ParserNode.parse; simp only [hv]; exact one _
        | some value =>
          cases hx : ltrunc text value.length with
          | error e => unfold ParserNode.parseT ParserNode.parse; simp only [hv, hx]; exact one _
          | ok x =>
            cases hn : p.node with
            | none =>
              have h1 : p.parseT text = (p.pushLastKvpair x value, [(p.parser, text)]) := by
                unfold ParserNode.parseT; simp only [hv, hx]; split <;> simp_all
              have h2 : p.parse text = p.pushLastKvpair x value := by
                unfold ParserNode.parse; simp only [hv, hx]; split <;> simp_all
              rw [h1, h2]; exact one _
            | some node =>
              have h1 : p.parseT text = ((parseThenPushKvpairT node x p.parser value).1, (p.parser, text) :: (parseThenPushKvpairT node x p.parser value).2) := by
                unfold ParserNode.parseT; simp only [hv, hx]; split <;> simp_all
              have h2 : p.parse text = parseThenPushKvpair node x p.parser value := by
                unfold ParserNode.parse; simp only [hv, hx]; split <;> simp_all
              have e2 : sizeOf p = 1 + sizeOf p.parser + sizeOf p.pattern + sizeOf p.node := by cases p; simp
              rw [hn] at e2; simp at e2
              have h3 := ih1 node (by omega) x
              have h4 : Traced (parseThenPushKvpairT node x p.parser value) (parseThenPushKvpair node x p.parser value) node.allParsers x := by
                unfold parseThenPushKvpairT parseThenPushKvpair
                rw [← h3.same]
                rcases hT : node.parseT x with ⟨m, c⟩
                rw [hT] at h3
                have h5 := h3.calls
                have h6 := h3.texts
                match m with
                | .error e => exact ⟨rfl, h5, h6⟩
                | .ok (some r) => exact ⟨rfl, h5, h6⟩
                | .ok none => exact ⟨rfl, h5, h6⟩
              rw [h1, h2]
              refine ⟨h4.same, fun q => ?_, ?_⟩
              · have := h4.calls q
                rw [par_parsers, hn, optParsers]
                simp [List.countP_cons] at this ⊢; omega
              · intro c hc
                rcases List.mem_cons.mp hc with rfl | hc
                · exact List.suffix_refl _
                · exact (h4.texts c hc).trans (ltrunc_suffix hx)

/-! ### The trie -/

/-- The parsers in a list of tokens. -/
def tokenParsers (toks : List Token) : List Parser := toks.filterMap fun | .parser a => some a | .literal _ => none

theorem single_parsers (toks : List Token) (p : Pattern) : (single toks p).allParsers = tokenParsers toks := by
  have opt : ∀ rest : List Token, (optParsers (if rest.isEmpty then none else some (single rest p))) = (single rest p).allParsers := by
    intro rest
    cases rest with
    | nil => simp [optParsers, single, SuffixTree.new, tree_parsers, litParsers, parParsers]
    | cons a b => simp [optParsers]
  induction toks with
  | nil => simp [single, SuffixTree.new, tree_parsers, litParsers, parParsers, tokenParsers]
  | cons t rest ih =>
    cases t with
    | literal l =>
      simp only [single, tree_parsers, litParsers, parParsers, lit_parsers]
      rw [opt, ih]; simp [tokenParsers]
    | parser a =>
      simp only [single, tree_parsers, litParsers, parParsers, par_parsers]
      rw [opt, ih]; simp [tokenParsers]

theorem updLit_parsers (rest : List Token) (p : Pattern) (n : LiteralNode) :
    (updLit rest p n).allParsers.countP q ≤ n.allParsers.countP q + (tokenParsers rest).countP q := by
  unfold updLit
  split
  · simp [setPat, lit_parsers]
  · simp [setChild, lit_parsers, optParsers, single_parsers]

theorem updPar_parsers (rest : List Token) (p : Pattern) (n : ParserNode) :
    (updPar rest p n).allParsers.countP q ≤ n.allParsers.countP q + (tokenParsers rest).countP q := by
  unfold updPar
  split
  · simp [par_parsers]
  · simp [par_parsers, optParsers, single_parsers, List.countP_cons]; omega

theorem ins_allParsers {g : LiteralNode → LiteralNode} {k : Nat} (hg : ∀ n : LiteralNode, (g n).allParsers.countP q ≤ n.allParsers.countP q + k)
    {t t' : SuffixTree} {l : Bytes} (h : Ins g t l t') : t'.allParsers.countP q ≤ t.allParsers.countP q + k := by
  have hf : ∀ l, (freshLit l).allParsers = [] := fun l => by simp [lit_parsers, freshLit, optParsers]
  induction h with
  | miss t l A B ht hA hB =>
    have := hg (freshLit l)
    simp only [hf] at this
    simp [tree_parsers, ht, litParsers_append, litParsers] at this ⊢; omega
  | exact t l A B n ht hl hv =>
    have := hg n
    simp [tree_parsers, ht, litParsers_append, litParsers] at this ⊢; omega
  | split t l A B n ht hr hs hpos hrk =>
    have := hg (freshLit (l.drop (commonPrefixLen n.literal l)))
    simp only [hf] at this
    have h2 : (splitNode g n l).allParsers.countP q ≤ n.allParsers.countP q + k := by
      simp only [splitNode, lit_parsers n, lit_parsers ({ literal := _, hasValue := _, pattern := _, node := some _ } : LiteralNode), optParsers, tree_parsers, parParsers]
      unfold splitChildren
      simp only []
      split <;> simp [litParsers, lit_parsers ({ n with literal := _ } : LiteralNode)] at this ⊢ <;> omega
    simp [tree_parsers, ht, litParsers_append, litParsers] at h2 ⊢; omega
  | down t l A B n c c' ht hr hp hc hne _ ih =>
    simp [tree_parsers t, tree_parsers ({ t with literalChildren := _ } : SuffixTree), ht, litParsers_append, litParsers, lit_parsers, hc, optParsers] at ih ⊢; omega

theorem insPar_parsers (sip : Bytes → UInt64) (ps : List ParserNode) (a : Parser) (rest : List Token) (p : Pattern) :
    (parParsers (insPar sip ps a rest p)).countP q ≤ (parParsers ps).countP q + (tokenParsers (.parser a :: rest)).countP q := by
  have h0 : tokenParsers (.parser a :: rest) = a :: tokenParsers rest := by simp [tokenParsers]
  rw [h0]
  induction ps with
  | nil =>
    have := updPar_parsers q rest p (ParserNode.new a)
    have h1 : (ParserNode.new a).allParsers = [a] := by simp [par_parsers, ParserNode.new, optParsers]
    rw [h1] at this
    simp [insPar, parParsers, List.countP_cons] at this ⊢; omega
  | cons n ns ih =>
    unfold insPar
    split
    · have := updPar_parsers q rest p n
      simp [parParsers, List.countP_cons] at this ⊢; omega
    · simp [parParsers, List.countP_cons] at ih ⊢; omega

theorem build_parsers {sip : Bytes → UInt64} {ps : List Pattern} {t : SuffixTree} (hu : ∀ p ∈ ps, Utf8Lits p) (h : SuffixTree.build sip ps = .ok t) :
    t.allParsers.countP q ≤ (ps.flatMap fun p => tokenParsers p.pattern).countP q := by
  refine (build_induct (sip := sip) (fun ps t => t.allParsers.countP q ≤ (ps.flatMap fun p => tokenParsers p.pattern).countP q) ?_ ?_ hu h).2
  · simp [SuffixTree.new, tree_parsers, litParsers, parParsers]
  · intro ps t p t' hs _ _ ih
    simp only [List.flatMap_append, List.flatMap_cons, List.flatMap_nil, List.append_nil, List.countP_append]
    cases hs with
    | empty hp => omega
    | lit l rest hp _ h' =>
      have := ins_allParsers q (updLit_parsers q rest p.strip) h'
      have e : tokenParsers p.pattern = tokenParsers rest := by rw [hp]; simp [tokenParsers]
      rw [e]; omega
    | par a rest hp =>
      have := insPar_parsers q sip t.parserChildren a rest p.strip
      rw [tree_parsers] at ih ⊢
      rw [hp]
      simp only [List.countP_append] at ih this ⊢; omega

/-- C85: while a text is parsed with a trie to which the patterns `ps` were added, no parser is called more often than it occurs in the patterns, and
every call is given an end of the text. -/
theorem C85_trie (sip : Bytes → UInt64) (ps : List Pattern) (hu : ∀ p ∈ ps, Utf8Lits p) (t : SuffixTree) (h : SuffixTree.build sip ps = .ok t)
    (text : Bytes) :
    ∃ calls, t.parseT text = (t.parse text, calls) ∧
      (∀ a, (calls.map Prod.fst).count a ≤ (ps.flatMap fun p => tokenParsers p.pattern).count a) ∧
      calls.length ≤ (ps.flatMap fun p => tokenParsers p.pattern).length ∧ ∀ c ∈ calls, c.2 <:+ text := by
  have h1 := (traced (2 * sizeOf t + 1)).1 t (by omega) text
  refine ⟨(t.parseT text).2, by rw [← h1.same], ?_, ?_, h1.texts⟩
  · intro a
    exact Nat.le_trans (h1.calls _) (build_parsers _ hu h)
  · have := Nat.le_trans (h1.calls fun _ => true) (build_parsers _ hu h)
    simpa using this

/-! ### The suffix array -/

mutual
def SuffixTable.allParsers : SuffixTable → List Parser
  | ⟨ls, ps⟩ => slitParsers ls ++ sparParsers ps
def slitParsers : List LiteralE → List Parser
  | [] => []
  | n :: ls => n.allParsers ++ slitParsers ls
def sparParsers : List ParserE → List Parser
  | [] => []
  | n :: ls => n.allParsers ++ sparParsers ls
def LiteralE.allParsers : LiteralE → List Parser
  | ⟨_, _, n⟩ => soptParsers n
def ParserE.allParsers : ParserE → List Parser
  | ⟨_, a, n⟩ => a :: soptParsers n
def soptParsers : Option SuffixTable → List Parser
  | none => []
  | some t => t.allParsers
end

theorem stable_parsers (t : SuffixTable) : t.allParsers = slitParsers t.literalEntries ++ sparParsers t.parserEntries := by
  cases t; rw [SuffixTable.allParsers]

theorem slit_parsers (n : LiteralE) : n.allParsers = soptParsers n.child := by cases n; rw [LiteralE.allParsers]

theorem spar_parsers (n : ParserE) : n.allParsers = n.parser :: soptParsers n.child := by cases n; rw [ParserE.allParsers]

theorem slitParsers_append (a b : List LiteralE) : slitParsers (a ++ b) = slitParsers a ++ slitParsers b := by
  induction a with
  | nil => simp [slitParsers]
  | cons n a ih => simp [slitParsers, ih]

theorem slitParsers_mem {n : LiteralE} {ls : List LiteralE} (h : n ∈ ls) : n.allParsers.countP q ≤ (slitParsers ls).countP q := by
  obtain ⟨a, b, rfl⟩ := List.append_of_mem h
  simp [slitParsers_append, slitParsers]
  omega

theorem straced (n : Nat) :
    (∀ t : SuffixTable, sizeOf t < n → ∀ text, Traced (t.parseT text) (t.parse text) t.allParsers text) ∧
    (∀ ps : List ParserE, sizeOf ps < n → ∀ text, Traced (sparseWithParsersT ps text) (sparseWithParsers ps text) (sparParsers ps) text) ∧
    (∀ p : ParserE, sizeOf p < n → ∀ text, Traced (p.parseT text) (p.parse text) p.allParsers text) := by
  induction n with
  | zero => exact ⟨fun _ h => absurd h (by omega), fun _ h => absurd h (by omega), fun _ h => absurd h (by omega)⟩
  | succ n ih =>
    obtain ⟨ih1, ih2, ih3⟩ := ih
    have nil : ∀ m ps text, Traced (m, []) m ps text := fun m ps text => ⟨rfl, by simp, by simp⟩
    refine ⟨?_, ?_, ?_⟩
    · intro t ht text
      cases hl : t.longestCommonPrefix text with
      | error e =>
        have h1 : t.parseT text = (.error e, []) := by unfold SuffixTable.parseT; split <;> simp_all
        have h2 : t.parse text = .error e := by unfold SuffixTable.parse; split <;> simp_all
        rw [h1, h2]; exact nil _ _ _
      | ok r =>
        cases r with
        | none =>
          have h1 : t.parseT text = sparseWithParsersT t.parserEntries text := by
            conv => lhs; unfold SuffixTable.parseT
            split <;> simp_all
          have h2 : t.parse text = sparseWithParsers t.parserEntries text := by
            conv => lhs; unfold SuffixTable.parse
            split <;> simp_all
          have e : sizeOf t = 1 + sizeOf t.literalEntries + sizeOf t.parserEntries := by cases t; simp
          have h5 := ih2 t.parserEntries (by omega) text
          rw [h1, h2]
          exact ⟨h5.same, fun q => by have := h5.calls q; rw [stable_parsers]; simp at this ⊢; omega, h5.texts⟩
        | some child =>
          by_cases c1 : commonPrefixLen child.literal text = text.length
          · have h1 : t.parseT text = (.ok (child.pattern.map MatchResult.new), []) := by
              unfold SuffixTable.parseT; split <;> simp_all
            have h2 : t.parse text = .ok (child.pattern.map MatchResult.new) := by
              unfold SuffixTable.parse; split <;> simp_all
            rw [h1, h2]; exact nil _ _ _
          · by_cases c2 : commonPrefixLen child.literal text < text.length
            · cases hx : ltrunc text (commonPrefixLen child.literal text) with
              | error e =>
                have h1 : t.parseT text = (.error e, []) := by unfold SuffixTable.parseT; split <;> simp_all
                have h2 : t.parse text = .error e := by unfold SuffixTable.parse; split <;> simp_all
                rw [h1, h2]; exact nil _ _ _
              | ok x =>
                cases hc : child.child with
                | none =>
                  have h1 : t.parseT text = (.ok none, []) := by
                    unfold SuffixTable.parseT; split <;> simp_all
                    split <;> simp_all
                  have h2 : t.parse text = .ok none := by
                    unfold SuffixTable.parse; split <;> simp_all
                    split <;> simp_all
                  rw [h1, h2]; exact nil _ _ _
                | some c =>
                  have h1 : t.parseT text = c.parseT x := by
                    conv => lhs; unfold SuffixTable.parseT
                    split <;> simp_all
                    split <;> simp_all
                  have h2 : t.parse text = c.parse x := by
                    conv => lhs; unfold SuffixTable.parse
                    split <;> simp_all
                    split <;> simp_all
                  have hm := SuffixTable.lcp_mem hl
                  have h0 := List.sizeOf_lt_of_mem hm
                  have e1 : sizeOf t = 1 + sizeOf t.literalEntries + sizeOf t.parserEntries := by cases t; simp
                  have e2 : sizeOf child = 1 + sizeOf child.pattern + sizeOf child.literal + sizeOf child.child := by cases child; simp
                  rw [hc] at e2; simp at e2
                  have h5 := ih1 c (by omega) x
                  rw [h1, h2]
                  refine ⟨h5.same, fun q => ?_, fun y hy => (h5.texts y hy).trans (ltrunc_suffix hx)⟩
                  have h6 := h5.calls q
                  have h7 := slitParsers_mem q hm
                  rw [slit_parsers, hc, soptParsers] at h7
                  rw [stable_parsers]; simp at h6 h7 ⊢; omega
            · have h1 : t.parseT text = (.ok none, []) := by
                unfold SuffixTable.parseT; split <;> simp_all
                intro h; omega
              have h2 : t.parse text = .ok none := by
                unfold SuffixTable.parse; split <;> simp_all
                intro h; omega
              rw [h1, h2]; exact nil _ _ _
    · intro ps hps text
      unfold sparseWithParsersT sparseWithParsers
      cases ps with
      | nil => exact nil _ _ _
      | cons i rest =>
        simp at hps
        have hi := ih3 i (by omega) text
        have hr := ih2 rest (by omega) text
        simp only [sparParsers]
        rcases hT : i.parseT text with ⟨m, c⟩
        rw [hT] at hi
        rw [← hi.same]
        have h1 := hi.calls
        have h2 := hi.texts
        simp only [] at h1 h2 ⊢
        match m with
        | .error e => exact ⟨rfl, fun q => by have := h1 q; simp at this ⊢; omega, h2⟩
        | .ok (some r) => exact ⟨rfl, fun q => by have := h1 q; simp at this ⊢; omega, h2⟩
        | .ok none =>
          refine ⟨hr.same, fun q => ?_, ?_⟩
          · have := h1 q
            have := hr.calls q
            simp at *; omega
          · intro x hx
            rcases List.mem_append.mp hx with hx | hx
            · exact h2 x hx
            · exact hr.texts x hx
    · intro p hp text
      have one : ∀ m, Traced (m, [(p.parser, text)]) m p.allParsers text := by
        intro m
        refine ⟨rfl, fun q => ?_, by simp⟩
        rw [spar_parsers]; simp [List.countP_cons]
      cases hv : p.parser.parse text with
      | error e => unfold ParserE.parseT ParserE.parse; simp only [hv]; exact one _
      | ok r =>
        cases r with
        | none => unfold ParserE.parseT ParserE.parse; simp only [hv]; exact one _
        | some value =>
          cases hx : ltrunc text value.length with
          | error e => unfold ParserE.parseT ParserE.parse; simp only [hv, hx]; exact one _
          | ok x =>
            cases hn : p.child with
            | none =>
              have h1 : p.parseT text = (if x.isEmpty then .ok (p.createMatchResult value) else .ok none, [(p.parser, text)]) := by
                unfold ParserE.parseT; simp only [hv, hx]; split <;> simp_all
              have h2 : p.parse text = if x.isEmpty then .ok (p.createMatchResult value) else .ok none := by
                unfold ParserE.parse; simp only [hv, hx]; split <;> simp_all
              rw [h1, h2]; exact one _
            | some node =>
              have h1 : p.parseT text = match node.parseT x with
                  | (.error e, c) => (.error e, (p.parser, text) :: c)
                  | (.ok (some result), c) => (.ok (some (result.insert p.parser value)), (p.parser, text) :: c)
                  | (.ok none, c) => (.ok none, (p.parser, text) :: c) := by
                conv => lhs; unfold ParserE.parseT
                simp only [hv, hx]; split <;> simp_all <;> rfl
              have h2 : p.parse text = match node.parse x with
                  | .error e => .error e
                  | .ok (some result) => .ok (some (result.insert p.parser value))
                  | .ok none => .ok none := by
                conv => lhs; unfold ParserE.parse
                simp only [hv, hx]; split <;> simp_all <;> rfl
              have e2 : sizeOf p = 1 + sizeOf p.pattern + sizeOf p.parser + sizeOf p.child := by cases p; simp
              rw [hn] at e2; simp at e2
              have h3 := ih1 node (by omega) x
              rw [h1, h2, ← h3.same]
              rcases hT : node.parseT x with ⟨m, c⟩
              rw [hT] at h3
              have h5 : ∀ q, ((((p.parser, text) :: c : List Call)).map Prod.fst).countP q ≤ p.allParsers.countP q := by
                intro q
                have := h3.calls q
                rw [spar_parsers, hn, soptParsers]
                simp [List.countP_cons] at this ⊢; omega
              have h6 : ∀ y ∈ ((p.parser, text) :: c : List Call), y.2 <:+ text := by
                intro y hy
                rcases List.mem_cons.mp hy with rfl | hy
                · exact List.suffix_refl _
                · exact (h3.texts y hy).trans (ltrunc_suffix hx)
              match m with
              | .error e => exact ⟨rfl, h5, h6⟩
              | .ok (some r) => exact ⟨rfl, h5, h6⟩
              | .ok none => exact ⟨rfl, h5, h6⟩

theorem ssingle_parsers (toks : List Token) (p : Pattern) : (ssingle toks p).allParsers = tokenParsers toks := by
  have opt : ∀ rest : List Token, (soptParsers (if rest.isEmpty then none else some (ssingle rest p))) = (ssingle rest p).allParsers := by
    intro rest
    cases rest with
    | nil => simp [soptParsers, ssingle, SuffixTable.new, stable_parsers, slitParsers, sparParsers]
    | cons a b => simp [soptParsers]
  induction toks with
  | nil => simp [ssingle, SuffixTable.new, stable_parsers, slitParsers, sparParsers, tokenParsers]
  | cons t rest ih =>
    cases t with
    | literal l =>
      simp only [ssingle, stable_parsers, slitParsers, sparParsers, slit_parsers]
      rw [opt, ih]; simp [tokenParsers]
    | parser a =>
      simp only [ssingle, stable_parsers, slitParsers, sparParsers, spar_parsers]
      rw [opt, ih]; simp [tokenParsers]

theorem supdL_parsers (rest : List Token) (p : Pattern) (n : LiteralE) :
    (supdL rest p n).allParsers.countP q ≤ n.allParsers.countP q + (tokenParsers rest).countP q := by
  unfold supdL
  split
  · simp [slit_parsers]
  · simp [slit_parsers, soptParsers, ssingle_parsers]

theorem supdP_parsers (rest : List Token) (p : Pattern) (n : ParserE) :
    (supdP rest p n).allParsers.countP q ≤ n.allParsers.countP q + (tokenParsers rest).countP q := by
  unfold supdP
  split
  · simp [spar_parsers]
  · simp [spar_parsers, soptParsers, ssingle_parsers, List.countP_cons]; omega

theorem putLit_parsers (l : Bytes) (rest : List Token) (p : Pattern) (es : List LiteralE) :
    (slitParsers (putLit l (supdL rest p) es)).countP q ≤ (slitParsers es).countP q + (tokenParsers rest).countP q := by
  have h1 := supdL_parsers q rest p (LiteralE.new l)
  have h2 : (LiteralE.new l).allParsers = [] := by simp [slit_parsers, LiteralE.new, soptParsers]
  rw [h2] at h1
  induction es with
  | nil => simp [putLit, slitParsers] at h1 ⊢; omega
  | cons e es ih =>
    have h3 := supdL_parsers q rest p e
    unfold putLit
    split <;> simp [slitParsers] at h1 h3 ih ⊢ <;> omega

theorem putPar_parsers (sip : Bytes → UInt64) (a : Parser) (rest : List Token) (p : Pattern) (es : List ParserE) :
    (sparParsers (putPar sip a (supdP rest p) es)).countP q ≤ (sparParsers es).countP q + (tokenParsers (.parser a :: rest)).countP q := by
  have h0 : tokenParsers (.parser a :: rest) = a :: tokenParsers rest := by simp [tokenParsers]
  have h1 := supdP_parsers q rest p (ParserE.new a)
  have h2 : (ParserE.new a).allParsers = [a] := by simp [spar_parsers, ParserE.new, soptParsers]
  rw [h2] at h1
  rw [h0]
  induction es with
  | nil => simp [putPar, sparParsers, List.countP_cons] at h1 ⊢; omega
  | cons e es ih =>
    have h3 := supdP_parsers q rest p e
    unfold putPar
    split <;> simp [sparParsers, List.countP_cons] at h1 h3 ih ⊢ <;> omega

theorem sbuild_allParsers {sip : Bytes → UInt64} (qs : List Pattern) {ps : List Pattern} {t t' : SuffixTable} (hr : Reach sip ps t)
    (h : qs.foldlM (fun t p => t.addPattern sip p) t = .ok t') :
    t'.allParsers.countP q ≤ t.allParsers.countP q + (qs.flatMap fun p => tokenParsers p.pattern).countP q := by
  induction qs generalizing ps t with
  | nil =>
    simp [pure, Except.pure] at h
    simp [h]
  | cons p qs ih =>
    obtain ⟨t1, h1, h2⟩ := reach_step hr p
    simp only [List.foldlM_cons, SuffixTable.addPattern, h1, bind, Except.bind] at h
    have h3 := ih h2 h
    have h4 : t1.allParsers.countP q ≤ t.allParsers.countP q + (tokenParsers p.pattern).countP q := by
      cases hp : p.pattern with
      | nil => rw [sinsert_empty sip t p hp] at h1; simp at h1; rw [h1]; omega
      | cons tok rest =>
        cases tok with
        | literal l =>
          rw [sinsert_lit sip t p l rest hp, sinsertLiteral_run hr.sorted] at h1
          simp at h1
          have := putLit_parsers q l rest p.strip t.literalEntries
          have e : tokenParsers (.literal l :: rest) = tokenParsers rest := by simp [tokenParsers]
          rw [← h1, stable_parsers, stable_parsers t, e]
          simp at this ⊢; omega
        | parser a =>
          rw [sinsert_par sip t p a rest hp, sinsertParser_run] at h1
          simp at h1
          have := putPar_parsers q sip a rest p.strip t.parserEntries
          rw [← h1, stable_parsers, stable_parsers t]
          simp at this ⊢; omega
    simp at h3 h4 ⊢; omega

/-- C85: the same for the suffix array. -/
theorem C85_suffix_array (sip : Bytes → UInt64) (ps : List Pattern) (t : SuffixTable) (h : SuffixTable.build sip ps = .ok t) (text : Bytes) :
    ∃ calls, t.parseT text = (t.parse text, calls) ∧
      (∀ a, (calls.map Prod.fst).count a ≤ (ps.flatMap fun p => tokenParsers p.pattern).count a) ∧
      calls.length ≤ (ps.flatMap fun p => tokenParsers p.pattern).length ∧ ∀ c ∈ calls, c.2 <:+ text := by
  have h1 := (straced (sizeOf t + 1)).1 t (by omega) text
  have h2 : ∀ q : Parser → Bool, t.allParsers.countP q ≤ (ps.flatMap fun p => tokenParsers p.pattern).countP q := by
    intro q
    have := sbuild_allParsers q ps (reach_new sip) h
    simpa [SuffixTable.new, stable_parsers, slitParsers, sparParsers] using this
  refine ⟨(t.parseT text).2, by rw [← h1.same], fun a => Nat.le_trans (h1.calls _) (h2 _), ?_, h1.texts⟩
  have := Nat.le_trans (h1.calls fun _ => true) (h2 _)
  simpa using this

/-! ### Cases -/

def callSample : List Pattern :=
  [Samples.pat 1 [.parser (Samples.int b!"i"), .literal b!" b"],
   Samples.pat 2 [.parser (Samples.set b!"s" b!"xyz"), .parser (Samples.int b!"i")],
   Samples.pat 3 [.literal b!"a ", .parser (Samples.int b!"i")]]

theorem callSample_utf8 : ∀ p ∈ callSample, Utf8Lits p := by
  intro p hp
  simp [callSample] at hp
  rcases hp with rfl | rfl | rfl <;> simp [Samples.pat, Utf8Lits]
  · exact ascii_utf8 (by decide)
  · exact ascii_utf8 (by decide)

/-- Both matchers can be built from the sample, and three parsers are asked for `xy7`; the list has four parser tokens. -/
example : (match SuffixTree.build Samples.sip callSample with
    | .ok t => decide ((t.parseT b!"xy7").2 =
        [(Samples.int b!"i", b!"xy7"), (Samples.set b!"s" b!"xyz", b!"xy7"), (Samples.int b!"i", b!"7")])
    | .error _ => false) = true := by decide +kernel

example : (match SuffixTable.build Samples.sip (callSample.take 2) with
    | .ok t => decide ((t.parseT b!"xy7").2 =
        [(Samples.int b!"i", b!"xy7"), (Samples.set b!"s" b!"xyz", b!"xy7"), (Samples.int b!"i", b!"7")])
    | .error _ => false) = true := by decide +kernel

example : (callSample.flatMap fun p => tokenParsers p.pattern).count (Samples.int b!"i") = 3 := by decide +kernel

end Verif
