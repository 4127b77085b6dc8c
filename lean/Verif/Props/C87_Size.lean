import Verif.Spec.Samples
import Verif.Proofs.TriePartial
import Verif.Proofs.SuffixTableAnswer
/-! C87: how large the matchers become. -/
namespace Verif
open Spec

/-! ### What is measured -/

/-- What the literals and parsers of a list of tokens weigh if a literal `l` weighs `lit l` and a parser weighs `par`. -/
def Spec.weight (lit : Bytes → Nat) (par : Nat) (toks : List Token) : Nat :=
  (toks.map fun | .literal l => lit l | .parser _ => par).sum

section
variable (lit : Bytes → Nat) (par : Nat)

mutual
/-- The weight of all the nodes of a trie. -/
def SuffixTree.weight : SuffixTree → Nat
  | ⟨ls, ps⟩ => litsWeight ls + parsWeight ps
def litsWeight : List LiteralNode → Nat
  | [] => 0
  | n :: ls => n.weight + litsWeight ls
def parsWeight : List ParserNode → Nat
  | [] => 0
  | n :: ps => n.weight + parsWeight ps
def LiteralNode.weight : LiteralNode → Nat
  | ⟨l, _, _, n⟩ => lit l + optWeight n
def ParserNode.weight : ParserNode → Nat
  | ⟨_, _, n⟩ => par + optWeight n
def optWeight : Option SuffixTree → Nat
  | none => 0
  | some t => t.weight
end

mutual
/-- The weight of all the entries of a suffix array. -/
def SuffixTable.weight : SuffixTable → Nat
  | ⟨ls, ps⟩ => slitsWeight ls + sparsWeight ps
def slitsWeight : List LiteralE → Nat
  | [] => 0
  | n :: ls => n.weight + slitsWeight ls
def sparsWeight : List ParserE → Nat
  | [] => 0
  | n :: ps => n.weight + sparsWeight ps
def LiteralE.weight : LiteralE → Nat
  | ⟨_, l, n⟩ => lit l + soptWeight n
def ParserE.weight : ParserE → Nat
  | ⟨_, _, n⟩ => par + soptWeight n
def soptWeight : Option SuffixTable → Nat
  | none => 0
  | some t => t.weight
end
end

/-- The number of nodes of a trie. -/
abbrev SuffixTree.nodes (t : SuffixTree) : Nat := t.weight (fun _ => 1) 1
/-- The number of bytes of the labels of a trie. -/
abbrev SuffixTree.labelBytes (t : SuffixTree) : Nat := t.weight List.length 0
/-- The number of entries of a suffix array. -/
abbrev SuffixTable.entries (t : SuffixTable) : Nat := t.weight (fun _ => 1) 1
/-- The number of bytes of the literals of a suffix array. -/
abbrev SuffixTable.labelBytes (t : SuffixTable) : Nat := t.weight List.length 0

/-! ### The trie -/

section
variable (a b par : Nat)

/-- a literal node weighs `a` and `b` for each byte -/
abbrev nodeW (a b : Nat) (l : Bytes) : Nat := a + b * l.length
/-- a literal token pays for two nodes -/
abbrev tokW (a b : Nat) (l : Bytes) : Nat := 2 * a + b * l.length

theorem tree_weight (t : SuffixTree) : t.weight (nodeW a b) par = litsWeight (nodeW a b) par t.literalChildren + parsWeight (nodeW a b) par t.parserChildren := by
  cases t; rw [SuffixTree.weight]

theorem lit_weight (n : LiteralNode) : n.weight (nodeW a b) par = a + b * n.literal.length + optWeight (nodeW a b) par n.node := by
  cases n; rw [LiteralNode.weight]

theorem par_weight (n : ParserNode) : n.weight (nodeW a b) par = par + optWeight (nodeW a b) par n.node := by cases n; rw [ParserNode.weight]

theorem litsWeight_append (x y : List LiteralNode) :
    litsWeight (nodeW a b) par (x ++ y) = litsWeight (nodeW a b) par x + litsWeight (nodeW a b) par y := by
  induction x with
  | nil => simp [litsWeight]
  | cons n x ih => simp [litsWeight, ih]; omega

theorem single_weight (toks : List Token) (p : Pattern) :
    (single toks p).weight (nodeW a b) par ≤ Spec.weight (tokW a b) par toks := by
  have opt : ∀ rest : List Token, optWeight (nodeW a b) par (if rest.isEmpty then none else some (single rest p)) = (single rest p).weight (nodeW a b) par := by
    intro rest
    cases rest with
    | nil => simp [optWeight, single, SuffixTree.new, tree_weight, litsWeight, parsWeight]
    | cons a b => simp [optWeight]
  induction toks with
  | nil => simp [single, SuffixTree.new, tree_weight, litsWeight, parsWeight, Spec.weight]
  | cons t rest ih =>
    cases t with
    | literal l =>
      simp only [single, tree_weight, litsWeight, parsWeight, lit_weight]
      have e : tokW a b l = 2 * a + b * l.length := rfl
      rw [opt]; simp only [Spec.weight, List.map_cons, List.sum_cons] at ih ⊢; omega
    | parser q =>
      simp only [single, tree_weight, litsWeight, parsWeight, par_weight]
      rw [opt]; simp only [Spec.weight, List.map_cons, List.sum_cons] at ih ⊢; omega

theorem updLit_weight (rest : List Token) (p : Pattern) (n : LiteralNode) :
    (updLit rest p n).weight (nodeW a b) par ≤ n.weight (nodeW a b) par + Spec.weight (tokW a b) par rest := by
  have := single_weight a b par rest p
  unfold updLit
  split
  · simp [setPat, lit_weight]
  · simp [setChild, lit_weight, optWeight]; omega

theorem updPar_weight (rest : List Token) (p : Pattern) (n : ParserNode) :
    (updPar rest p n).weight (nodeW a b) par ≤ n.weight (nodeW a b) par + Spec.weight (tokW a b) par rest := by
  have := single_weight a b par rest p
  unfold updPar
  split
  · simp [par_weight]
  · simp [par_weight, optWeight]; omega

theorem ins_weight {g : LiteralNode → LiteralNode} {k : Nat} (hg : ∀ n : LiteralNode, (g n).weight (nodeW a b) par ≤ n.weight (nodeW a b) par + k)
    {t t' : SuffixTree} {l : Bytes} (h : Ins g t l t') : t'.weight (nodeW a b) par ≤ t.weight (nodeW a b) par + tokW a b l + k := by
  have hf : ∀ l, (freshLit l).weight (nodeW a b) par = a + b * l.length := fun l => by simp [lit_weight, freshLit, optWeight]
  induction h with
  | miss t l A B ht hA hB =>
    have := hg (freshLit l)
    simp only [hf] at this
    simp [tree_weight, ht, litsWeight_append, litsWeight, tokW] at this ⊢; omega
  | exact t l A B n ht hl hv =>
    have := hg n
    simp [tree_weight, ht, litsWeight_append, litsWeight, tokW] at this ⊢; omega
  | split t l A B n ht hr hs hpos hrk =>
    have := hg (freshLit (l.drop (commonPrefixLen n.literal l)))
    simp only [hf] at this
    have hle := cpl_le n.literal l
    have h2 : (splitNode g n l).weight (nodeW a b) par ≤ n.weight (nodeW a b) par + tokW a b l + k := by
      have e1 : b * (l.take (commonPrefixLen n.literal l)).length + b * (n.literal.drop (commonPrefixLen n.literal l)).length = b * n.literal.length := by
        rw [← Nat.mul_add]; congr 1; simp; omega
      have e2 : b * (l.drop (commonPrefixLen n.literal l)).length ≤ b * l.length := Nat.mul_le_mul_left _ (by simp)
      simp only [splitNode, lit_weight a b par n, lit_weight a b par ({ literal := _, hasValue := _, pattern := _, node := some _ } : LiteralNode), optWeight, tree_weight, parsWeight, tokW]
      unfold splitChildren
      simp only []
      split <;> simp only [litsWeight, lit_weight a b par ({ n with literal := _ } : LiteralNode)] <;> omega
    simp only [tree_weight, ht, litsWeight_append, litsWeight, tokW] at h2 ⊢; omega
  | down t l A B n c c' ht hr hp hc hne _ ih =>
    have e2 : b * (l.drop n.literal.length).length ≤ b * l.length := Nat.mul_le_mul_left _ (by simp)
    simp only [tree_weight _ _ _ t, tree_weight _ _ _ ({ t with literalChildren := _ } : SuffixTree), ht, litsWeight_append, litsWeight, lit_weight, hc, optWeight, tokW] at ih ⊢
    omega

theorem insPar_weight (sip : Bytes → UInt64) (ps : List ParserNode) (q : Parser) (rest : List Token) (p : Pattern) :
    parsWeight (nodeW a b) par (insPar sip ps q rest p) ≤ parsWeight (nodeW a b) par ps + (par + Spec.weight (tokW a b) par rest) := by
  induction ps with
  | nil =>
    have := updPar_weight a b par rest p (ParserNode.new q)
    have h1 : (ParserNode.new q).weight (nodeW a b) par = par := by simp [par_weight, ParserNode.new, optWeight]
    simp [insPar, parsWeight]; omega
  | cons n ns ih =>
    unfold insPar
    split
    · have := updPar_weight a b par rest p n
      simp only [parsWeight]; omega
    · simp only [parsWeight] at ih ⊢; omega

theorem build_weight {sip : Bytes → UInt64} {ps : List Pattern} {t : SuffixTree} (hu : ∀ p ∈ ps, Utf8Lits p) (h : SuffixTree.build sip ps = .ok t) :
    t.weight (nodeW a b) par ≤ (ps.map fun p => Spec.weight (tokW a b) par p.pattern).sum := by
  refine (build_induct (sip := sip) (fun ps t => t.weight (nodeW a b) par ≤ (ps.map fun p => Spec.weight (tokW a b) par p.pattern).sum) ?_ ?_ hu h).2
  · simp [SuffixTree.new, tree_weight, litsWeight, parsWeight]
  · intro ps t p t' hs _ _ ih
    simp only [List.map_append, List.map_cons, List.map_nil, List.sum_append, List.sum_cons, List.sum_nil]
    cases hs with
    | empty hp => omega
    | lit l rest hp _ h' =>
      have := ins_weight a b par (updLit_weight a b par rest p.strip) h'
      have e : Spec.weight (tokW a b) par p.pattern = tokW a b l + Spec.weight (tokW a b) par rest := by rw [hp]; simp [Spec.weight]
      omega
    | par q rest hp =>
      have := insPar_weight a b par sip t.parserChildren q rest p.strip
      have e : Spec.weight (tokW a b) par p.pattern = par + Spec.weight (tokW a b) par rest := by rw [hp]; simp [Spec.weight]
      rw [tree_weight] at ih
      rw [tree_weight]
      simp only []
      omega
end

/-! ### The suffix array -/

section
variable (lit : Bytes → Nat) (par : Nat)

theorem stable_weight (t : SuffixTable) : t.weight lit par = slitsWeight lit par t.literalEntries + sparsWeight lit par t.parserEntries := by
  cases t; rw [SuffixTable.weight]

theorem slit_weight (n : LiteralE) : n.weight lit par = lit n.literal + soptWeight lit par n.child := by cases n; rw [LiteralE.weight]

theorem spar_weight (n : ParserE) : n.weight lit par = par + soptWeight lit par n.child := by cases n; rw [ParserE.weight]

theorem ssingle_weight (toks : List Token) (p : Pattern) : (ssingle toks p).weight lit par = Spec.weight lit par toks := by
  have opt : ∀ rest : List Token, soptWeight lit par (if rest.isEmpty then none else some (ssingle rest p)) = (ssingle rest p).weight lit par := by
    intro rest
    cases rest with
    | nil => simp [soptWeight, ssingle, SuffixTable.new, stable_weight, slitsWeight, sparsWeight]
    | cons a b => simp [soptWeight]
  induction toks with
  | nil => simp [ssingle, SuffixTable.new, stable_weight, slitsWeight, sparsWeight, Spec.weight]
  | cons t rest ih =>
    cases t with
    | literal l =>
      simp only [ssingle, stable_weight, slitsWeight, sparsWeight, slit_weight]
      rw [opt, ih]; simp [Spec.weight]
    | parser q =>
      simp only [ssingle, stable_weight, slitsWeight, sparsWeight, spar_weight]
      rw [opt, ih]; simp [Spec.weight]

theorem supdL_weight (rest : List Token) (p : Pattern) (n : LiteralE) :
    (supdL rest p n).weight lit par ≤ n.weight lit par + Spec.weight lit par rest := by
  unfold supdL
  split
  · simp [slit_weight]
  · simp [slit_weight, soptWeight, ssingle_weight]

theorem supdP_weight (rest : List Token) (p : Pattern) (n : ParserE) :
    (supdP rest p n).weight lit par ≤ n.weight lit par + Spec.weight lit par rest := by
  unfold supdP
  split
  · simp [spar_weight]
  · simp [spar_weight, soptWeight, ssingle_weight]

theorem putLit_weight (l : Bytes) (rest : List Token) (p : Pattern) (es : List LiteralE) :
    slitsWeight lit par (putLit l (supdL rest p) es) ≤ slitsWeight lit par es + (lit l + Spec.weight lit par rest) := by
  have h1 := supdL_weight lit par rest p (LiteralE.new l)
  have h2 : (LiteralE.new l).weight lit par = lit l := by simp [slit_weight, LiteralE.new, soptWeight]
  rw [h2] at h1
  induction es with
  | nil => simp only [putLit, slitsWeight]; omega
  | cons e es ih =>
    have h3 := supdL_weight lit par rest p e
    unfold putLit
    split <;> simp only [slitsWeight] at ih ⊢ <;> omega

theorem putPar_weight (sip : Bytes → UInt64) (q : Parser) (rest : List Token) (p : Pattern) (es : List ParserE) :
    sparsWeight lit par (putPar sip q (supdP rest p) es) ≤ sparsWeight lit par es + (par + Spec.weight lit par rest) := by
  have h1 := supdP_weight lit par rest p (ParserE.new q)
  have h2 : (ParserE.new q).weight lit par = par := by simp [spar_weight, ParserE.new, soptWeight]
  rw [h2] at h1
  induction es with
  | nil => simp only [putPar, sparsWeight]; omega
  | cons e es ih =>
    have h3 := supdP_weight lit par rest p e
    unfold putPar
    split <;> simp only [sparsWeight] at ih ⊢ <;> omega

theorem sbuild_weight {sip : Bytes → UInt64} (qs : List Pattern) {ps : List Pattern} {t t' : SuffixTable} (hr : Reach sip ps t)
    (h : qs.foldlM (fun t p => t.addPattern sip p) t = .ok t') :
    t'.weight lit par ≤ t.weight lit par + (qs.map fun p => Spec.weight lit par p.pattern).sum := by
  induction qs generalizing ps t with
  | nil =>
    simp [pure, Except.pure] at h
    simp [h]
  | cons p qs ih =>
    obtain ⟨t1, h1, h2⟩ := reach_step hr p
    simp only [List.foldlM_cons, SuffixTable.addPattern, h1, bind, Except.bind] at h
    have h3 := ih h2 h
    have h4 : t1.weight lit par ≤ t.weight lit par + Spec.weight lit par p.pattern := by
      cases hp : p.pattern with
      | nil => rw [sinsert_empty sip t p hp] at h1; simp at h1; rw [h1]; omega
      | cons tok rest =>
        cases tok with
        | literal l =>
          rw [sinsert_lit sip t p l rest hp, sinsertLiteral_run hr.sorted] at h1
          simp at h1
          have := putLit_weight lit par l rest p.strip t.literalEntries
          have e : Spec.weight lit par (.literal l :: rest) = lit l + Spec.weight lit par rest := by simp [Spec.weight]
          rw [← h1, stable_weight, stable_weight lit par t, e]
          simp only []; omega
        | parser q =>
          rw [sinsert_par sip t p q rest hp, sinsertParser_run] at h1
          simp at h1
          have := putPar_weight lit par sip q rest p.strip t.parserEntries
          have e : Spec.weight lit par (.parser q :: rest) = par + Spec.weight lit par rest := by simp [Spec.weight]
          rw [← h1, stable_weight, stable_weight lit par t, e]
          simp only []; omega
    simp only [List.map_cons, List.sum_cons]; omega
end

/-! ### The theorems -/

/-- C87: a trie to which the patterns `ps` were added has at most two nodes for each literal and one for each parser in the patterns, and the labels
of its nodes have together no more bytes than the literals of the patterns. -/
theorem C87_trie (sip : Bytes → UInt64) (ps : List Pattern) (hu : ∀ p ∈ ps, Utf8Lits p) (t : SuffixTree) (h : SuffixTree.build sip ps = .ok t) :
    t.nodes ≤ (ps.map fun p => Spec.weight (fun _ => 2) 1 p.pattern).sum ∧
    t.labelBytes ≤ (ps.map fun p => Spec.weight List.length 0 p.pattern).sum := by
  have h1 := build_weight 1 0 1 hu h
  have h2 := build_weight 0 1 0 hu h
  have e1 : nodeW 1 0 = fun _ => 1 := by funext l; simp [nodeW]
  have e2 : tokW 1 0 = fun _ => 2 := by funext l; simp [tokW]
  have e3 : nodeW 0 1 = List.length := by funext l; simp [nodeW]
  have e4 : tokW 0 1 = List.length := by funext l; simp [tokW]
  rw [e1, e2] at h1
  rw [e3, e4] at h2
  exact ⟨h1, h2⟩

/-- C87: a suffix array has at most one entry for each literal and each parser in the patterns, and its literals have together no more bytes than those
of the patterns. -/
theorem C87_suffix_array (sip : Bytes → UInt64) (ps : List Pattern) (t : SuffixTable) (h : SuffixTable.build sip ps = .ok t) :
    t.entries ≤ (ps.map fun p => p.pattern.length).sum ∧ t.labelBytes ≤ (ps.map fun p => Spec.weight List.length 0 p.pattern).sum := by
  have new : ∀ lit par, SuffixTable.new.weight lit par = 0 := fun lit par => by
    simp [SuffixTable.new, stable_weight, slitsWeight, sparsWeight]
  have h1 := sbuild_weight (fun _ => 1) 1 ps (reach_new sip) h
  have h2 := sbuild_weight List.length 0 ps (reach_new sip) h
  rw [new] at h1 h2
  have e : (fun p : Pattern => Spec.weight (fun _ => 1) 1 p.pattern) = fun p => p.pattern.length := by
    funext p
    unfold Spec.weight
    induction p.pattern with
    | nil => rfl
    | cons t ts ih => cases t <;> simp only [List.map_cons, List.sum_cons, List.length_cons, ih] <;> omega
  rw [e] at h1
  rw [Nat.zero_add] at h1 h2
  exact ⟨h1, h2⟩

/-! ### Cases -/

def sizeSample : List Pattern :=
  [Samples.pat 1 [.literal b!"alma", .parser (Samples.int b!"i")], Samples.pat 2 [.literal b!"almoka"],
   Samples.pat 3 [.parser (Samples.int b!"i"), .literal b!" b"]]

theorem sizeSample_utf8 : ∀ p ∈ sizeSample, Utf8Lits p := by
  intro p hp
  simp [sizeSample] at hp
  rcases hp with rfl | rfl | rfl <;> simp [Samples.pat, Utf8Lits]
  all_goals exact ascii_utf8 (by decide)

/-- The trie of three patterns: six nodes (the bound is eight) with nine bytes (the bound is twelve). -/
example : (match SuffixTree.build Samples.sip sizeSample with
    | .ok t => decide (t.nodes = 6 ∧ t.labelBytes = 9)
    | .error _ => false) = true := by decide +kernel

/-- Their suffix array: five entries with twelve bytes, exactly the bounds. -/
example : (match SuffixTable.build Samples.sip sizeSample with
    | .ok t => decide (t.entries = 5 ∧ t.labelBytes = 12)
    | .error _ => false) = true := by decide +kernel

end Verif
