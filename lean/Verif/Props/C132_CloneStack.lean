import Verif.Model.StackClone
import Verif.Props.C87_Size
import Verif.Props.C88_Stack
import Verif.Props.C15_C24_Trie
import Verif.Props.C25_C31_SuffixArray
/-! C132: how deep the calls nest when matchers are cloned and dropped. -/
namespace Verif
open Spec

namespace CloneStack

/-! ### The trie -/

mutual
/-- How deep the calls nest for a trie. -/
def treeNeed : SuffixTree → Nat
  | ⟨ls, ps⟩ => 1 + max (litsNeed ls) (parsNeed ps)
def litsNeed : List LiteralNode → Nat
  | [] => 1
  | n :: ls => max (1 + litNeed n) (litsNeed ls)
def parsNeed : List ParserNode → Nat
  | [] => 1
  | n :: ls => max (1 + parNeed n) (parsNeed ls)
def litNeed : LiteralNode → Nat
  | ⟨_, _, _, n⟩ => optNeed n
def parNeed : ParserNode → Nat
  | ⟨_, _, n⟩ => optNeed n
def optNeed : Option SuffixTree → Nat
  | none => 1
  | some t => 1 + treeNeed t
end

mutual
theorem tree_clone : ∀ (t : SuffixTree) (frames : Nat), t.cloneS frames = if treeNeed t ≤ frames then some t.clone else none
  | ⟨ls, ps⟩, 0 => by rw [SuffixTree.cloneS, treeNeed, if_neg (by omega)]
  | ⟨ls, ps⟩, f + 1 => by
    rw [SuffixTree.cloneS, lits_clone ls f, pars_clone ps f, treeNeed, SuffixTree.clone]
    by_cases h1 : litsNeed ls ≤ f
    · by_cases h2 : parsNeed ps ≤ f
      · rw [if_pos h1, if_pos h2, if_pos (by omega)]
      · rw [if_pos h1, if_neg h2, if_neg (by omega)]
    · rw [if_neg h1]; simp only []; rw [if_neg (by omega)]
theorem lits_clone : ∀ (ls : List LiteralNode) (frames : Nat), cloneLitsS frames ls = if litsNeed ls ≤ frames then some (cloneLits ls) else none
  | [], 0 => by rw [cloneLitsS, litsNeed, if_neg (by omega)]
  | [], f + 1 => by rw [cloneLitsS, litsNeed, cloneEach, cloneLits, if_pos (by omega)]
  | n :: ls, 0 => by rw [cloneLitsS, litsNeed, if_neg (by omega)]
  | n :: ls, f + 1 => by
    have h := lits_clone ls (f + 1)
    rw [cloneLitsS] at h
    rw [cloneLitsS, cloneEach, h, lit_clone n f, litsNeed, cloneLits]
    by_cases h1 : litNeed n ≤ f
    · by_cases h2 : litsNeed ls ≤ f + 1
      · rw [if_pos h1, if_pos h2, if_pos (by omega)]
      · rw [if_pos h1, if_neg h2, if_neg (by omega)]
    · rw [if_neg h1]; simp only []; rw [if_neg (by omega)]
theorem pars_clone : ∀ (ls : List ParserNode) (frames : Nat), cloneParsS frames ls = if parsNeed ls ≤ frames then some (clonePars ls) else none
  | [], 0 => by rw [cloneParsS, parsNeed, if_neg (by omega)]
  | [], f + 1 => by rw [cloneParsS, parsNeed, cloneEach, clonePars, if_pos (by omega)]
  | n :: ls, 0 => by rw [cloneParsS, parsNeed, if_neg (by omega)]
  | n :: ls, f + 1 => by
    have h := pars_clone ls (f + 1)
    rw [cloneParsS] at h
    rw [cloneParsS, cloneEach, h, par_clone n f, parsNeed, clonePars]
    by_cases h1 : parNeed n ≤ f
    · by_cases h2 : parsNeed ls ≤ f + 1
      · rw [if_pos h1, if_pos h2, if_pos (by omega)]
      · rw [if_pos h1, if_neg h2, if_neg (by omega)]
    · rw [if_neg h1]; simp only []; rw [if_neg (by omega)]
theorem lit_clone : ∀ (n : LiteralNode) (frames : Nat), n.cloneS frames = if litNeed n ≤ frames then some n.clone else none
  | ⟨l, v, p, none⟩, 0 => by rw [LiteralNode.cloneS, litNeed, optNeed, if_neg (by omega)]
  | ⟨l, v, p, some t⟩, 0 => by rw [LiteralNode.cloneS, litNeed, optNeed, if_neg (by omega)]
  | ⟨l, v, p, none⟩, f + 1 => by rw [litNeed, optNeed]; simp only [LiteralNode.cloneS, LiteralNode.clone, cloneOpt]; rw [if_pos (by omega)]
  | ⟨l, v, p, some t⟩, f + 1 => by
    rw [litNeed, optNeed]; simp only [LiteralNode.cloneS, LiteralNode.clone, cloneOpt, tree_clone t f]
    by_cases h : treeNeed t ≤ f
    · rw [if_pos h, if_pos (by omega)]
    · rw [if_neg h, if_neg (by omega)]
theorem par_clone : ∀ (n : ParserNode) (frames : Nat), n.cloneS frames = if parNeed n ≤ frames then some n.clone else none
  | ⟨a, p, none⟩, 0 => by rw [ParserNode.cloneS, parNeed, optNeed, if_neg (by omega)]
  | ⟨a, p, some t⟩, 0 => by rw [ParserNode.cloneS, parNeed, optNeed, if_neg (by omega)]
  | ⟨a, p, none⟩, f + 1 => by rw [parNeed, optNeed]; simp only [ParserNode.cloneS, ParserNode.clone, cloneOpt]; rw [if_pos (by omega)]
  | ⟨a, p, some t⟩, f + 1 => by
    rw [parNeed, optNeed]; simp only [ParserNode.cloneS, ParserNode.clone, cloneOpt, tree_clone t f]
    by_cases h : treeNeed t ≤ f
    · rw [if_pos h, if_pos (by omega)]
    · rw [if_neg h, if_neg (by omega)]
end

mutual
theorem tree_drop : ∀ (t : SuffixTree) (frames : Nat), t.dropS frames = if treeNeed t ≤ frames then some t.nodes else none
  | ⟨ls, ps⟩, 0 => by rw [SuffixTree.dropS, treeNeed, if_neg (by omega)]
  | ⟨ls, ps⟩, f + 1 => by
    rw [SuffixTree.dropS, lits_drop ls f, pars_drop ps f, treeNeed, SuffixTree.nodes, SuffixTree.weight]
    by_cases h1 : litsNeed ls ≤ f
    · by_cases h2 : parsNeed ps ≤ f
      · rw [if_pos h1, if_pos h2, if_pos (by omega)]
      · rw [if_pos h1, if_neg h2, if_neg (by omega)]
    · rw [if_neg h1]; simp only []; rw [if_neg (by omega)]
theorem lits_drop : ∀ (ls : List LiteralNode) (frames : Nat),
    dropLitsS frames ls = if litsNeed ls ≤ frames then some (litsWeight (fun _ => 1) 1 ls) else none
  | [], 0 => by rw [dropLitsS, litsNeed, if_neg (by omega)]
  | [], f + 1 => by rw [dropLitsS, litsNeed, dropEach, litsWeight, if_pos (by omega)]
  | n :: ls, 0 => by rw [dropLitsS, litsNeed, if_neg (by omega)]
  | n :: ls, f + 1 => by
    have h := lits_drop ls (f + 1)
    rw [dropLitsS] at h
    rw [dropLitsS, dropEach, h, lit_drop n f, litsNeed, litsWeight]
    by_cases h1 : litNeed n ≤ f
    · by_cases h2 : litsNeed ls ≤ f + 1
      · rw [if_pos h1, if_pos h2, if_pos (by omega)]
      · rw [if_pos h1, if_neg h2, if_neg (by omega)]
    · rw [if_neg h1]; simp only []; rw [if_neg (by omega)]
theorem pars_drop : ∀ (ls : List ParserNode) (frames : Nat),
    dropParsS frames ls = if parsNeed ls ≤ frames then some (parsWeight (fun _ => 1) 1 ls) else none
  | [], 0 => by rw [dropParsS, parsNeed, if_neg (by omega)]
  | [], f + 1 => by rw [dropParsS, parsNeed, dropEach, parsWeight, if_pos (by omega)]
  | n :: ls, 0 => by rw [dropParsS, parsNeed, if_neg (by omega)]
  | n :: ls, f + 1 => by
    have h := pars_drop ls (f + 1)
    rw [dropParsS] at h
    rw [dropParsS, dropEach, h, par_drop n f, parsNeed, parsWeight]
    by_cases h1 : parNeed n ≤ f
    · by_cases h2 : parsNeed ls ≤ f + 1
      · rw [if_pos h1, if_pos h2, if_pos (by omega)]
      · rw [if_pos h1, if_neg h2, if_neg (by omega)]
    · rw [if_neg h1]; simp only []; rw [if_neg (by omega)]
theorem lit_drop : ∀ (n : LiteralNode) (frames : Nat), n.dropS frames = if litNeed n ≤ frames then some (n.weight (fun _ => 1) 1) else none
  | ⟨l, v, p, none⟩, 0 => by rw [LiteralNode.dropS, litNeed, optNeed, if_neg (by omega)]
  | ⟨l, v, p, some t⟩, 0 => by rw [LiteralNode.dropS, litNeed, optNeed, if_neg (by omega)]
  | ⟨l, v, p, none⟩, f + 1 => by rw [litNeed, optNeed]; simp only [LiteralNode.dropS, LiteralNode.weight, optWeight]; rw [if_pos (by omega)]
  | ⟨l, v, p, some t⟩, f + 1 => by
    rw [litNeed, optNeed]; simp only [LiteralNode.dropS, LiteralNode.weight, optWeight, tree_drop t f]
    by_cases h : treeNeed t ≤ f
    · rw [if_pos h, if_pos (by omega)]
    · rw [if_neg h, if_neg (by omega)]
theorem par_drop : ∀ (n : ParserNode) (frames : Nat), n.dropS frames = if parNeed n ≤ frames then some (n.weight (fun _ => 1) 1) else none
  | ⟨a, p, none⟩, 0 => by rw [ParserNode.dropS, parNeed, optNeed, if_neg (by omega)]
  | ⟨a, p, some t⟩, 0 => by rw [ParserNode.dropS, parNeed, optNeed, if_neg (by omega)]
  | ⟨a, p, none⟩, f + 1 => by rw [parNeed, optNeed]; simp only [ParserNode.dropS, ParserNode.weight, optWeight]; rw [if_pos (by omega)]
  | ⟨a, p, some t⟩, f + 1 => by
    rw [parNeed, optNeed]; simp only [ParserNode.dropS, ParserNode.weight, optWeight, tree_drop t f]
    by_cases h : treeNeed t ≤ f
    · rw [if_pos h, if_pos (by omega)]
    · rw [if_neg h, if_neg (by omega)]
end

mutual
theorem tree_need : ∀ t : SuffixTree, treeNeed t ≤ 3 * t.height + 2
  | ⟨ls, ps⟩ => by
    have h1 := lits_need ls
    have h2 := pars_need ps
    rw [treeNeed, SuffixTree.height]; omega
theorem lits_need : ∀ ls : List LiteralNode, litsNeed ls ≤ 3 * litsHeight ls + 1
  | [] => by simp [litsNeed]
  | n :: ls => by
    have h1 := lit_need n
    have h2 := lits_need ls
    rw [litsNeed, litsHeight]; omega
theorem pars_need : ∀ ls : List ParserNode, parsNeed ls ≤ 3 * parsHeight ls + 1
  | [] => by simp [parsNeed]
  | n :: ls => by
    have h1 := par_need n
    have h2 := pars_need ls
    rw [parsNeed, parsHeight]; omega
theorem lit_need : ∀ n : LiteralNode, litNeed n ≤ 3 * n.height
  | ⟨l, v, p, none⟩ => by rw [litNeed, optNeed, LiteralNode.height]; omega
  | ⟨l, v, p, some t⟩ => by
    have := tree_need t
    rw [litNeed, optNeed, LiteralNode.height, optHeight]; omega
theorem par_need : ∀ n : ParserNode, parNeed n ≤ 3 * n.height
  | ⟨a, p, none⟩ => by rw [parNeed, optNeed, ParserNode.height]; omega
  | ⟨a, p, some t⟩ => by
    have := tree_need t
    rw [parNeed, optNeed, ParserNode.height, optHeight]; omega
end

theorem single_need (toks : List Token) (p : Pattern) : treeNeed (single toks p) = max 2 (3 * toks.length) := by
  have opt : ∀ rest : List Token, optNeed (if rest.isEmpty then none else some (single rest p)) = if rest = [] then 1 else 1 + treeNeed (single rest p) := by
    intro rest
    cases rest with
    | nil => simp [optNeed]
    | cons a b => simp [optNeed]
  induction toks with
  | nil => simp [single, SuffixTree.new, treeNeed, litsNeed, parsNeed]
  | cons t rest ih =>
    have e : rest = [] ∨ 1 ≤ rest.length := by cases rest <;> simp
    cases t with
    | literal l =>
      simp only [single, treeNeed, litsNeed, parsNeed, litNeed]
      rw [opt, ih, List.length_cons]
      rcases e with rfl | e
      · simp
      · rw [if_neg (by rintro rfl; simp at e)]; omega
    | parser q =>
      simp only [single, treeNeed, litsNeed, parsNeed, parNeed]
      rw [opt, ih, List.length_cons]
      rcases e with rfl | e
      · simp
      · rw [if_neg (by rintro rfl; simp at e)]; omega

/-! ### The suffix array -/

mutual
def tableNeed : SuffixTable → Nat
  | ⟨ls, ps⟩ => 1 + max (slitsNeed ls) (sparsNeed ps)
def slitsNeed : List LiteralE → Nat
  | [] => 1
  | n :: ls => max (1 + slitNeed n) (slitsNeed ls)
def sparsNeed : List ParserE → Nat
  | [] => 1
  | n :: ls => max (1 + sparNeed n) (sparsNeed ls)
def slitNeed : LiteralE → Nat
  | ⟨_, _, n⟩ => soptNeed n
def sparNeed : ParserE → Nat
  | ⟨_, _, n⟩ => soptNeed n
def soptNeed : Option SuffixTable → Nat
  | none => 1
  | some t => 1 + tableNeed t
end

mutual
theorem table_clone : ∀ (t : SuffixTable) (frames : Nat), t.cloneS frames = if tableNeed t ≤ frames then some t.clone else none
  | ⟨ls, ps⟩, 0 => by rw [SuffixTable.cloneS, tableNeed, if_neg (by omega)]
  | ⟨ls, ps⟩, f + 1 => by
    rw [SuffixTable.cloneS, slits_clone ls f, spars_clone ps f, tableNeed, SuffixTable.clone]
    by_cases h1 : slitsNeed ls ≤ f
    · by_cases h2 : sparsNeed ps ≤ f
      · rw [if_pos h1, if_pos h2, if_pos (by omega)]
      · rw [if_pos h1, if_neg h2, if_neg (by omega)]
    · rw [if_neg h1]; simp only []; rw [if_neg (by omega)]
theorem slits_clone : ∀ (ls : List LiteralE) (frames : Nat), scloneLitsS frames ls = if slitsNeed ls ≤ frames then some (scloneLits ls) else none
  | [], 0 => by rw [scloneLitsS, slitsNeed, if_neg (by omega)]
  | [], f + 1 => by rw [scloneLitsS, slitsNeed, cloneEach, scloneLits, if_pos (by omega)]
  | n :: ls, 0 => by rw [scloneLitsS, slitsNeed, if_neg (by omega)]
  | n :: ls, f + 1 => by
    have h := slits_clone ls (f + 1)
    rw [scloneLitsS] at h
    rw [scloneLitsS, cloneEach, h, slit_clone n f, slitsNeed, scloneLits]
    by_cases h1 : slitNeed n ≤ f
    · by_cases h2 : slitsNeed ls ≤ f + 1
      · rw [if_pos h1, if_pos h2, if_pos (by omega)]
      · rw [if_pos h1, if_neg h2, if_neg (by omega)]
    · rw [if_neg h1]; simp only []; rw [if_neg (by omega)]
theorem spars_clone : ∀ (ls : List ParserE) (frames : Nat), scloneParsS frames ls = if sparsNeed ls ≤ frames then some (sclonePars ls) else none
  | [], 0 => by rw [scloneParsS, sparsNeed, if_neg (by omega)]
  | [], f + 1 => by rw [scloneParsS, sparsNeed, cloneEach, sclonePars, if_pos (by omega)]
  | n :: ls, 0 => by rw [scloneParsS, sparsNeed, if_neg (by omega)]
  | n :: ls, f + 1 => by
    have h := spars_clone ls (f + 1)
    rw [scloneParsS] at h
    rw [scloneParsS, cloneEach, h, spar_clone n f, sparsNeed, sclonePars]
    by_cases h1 : sparNeed n ≤ f
    · by_cases h2 : sparsNeed ls ≤ f + 1
      · rw [if_pos h1, if_pos h2, if_pos (by omega)]
      · rw [if_pos h1, if_neg h2, if_neg (by omega)]
    · rw [if_neg h1]; simp only []; rw [if_neg (by omega)]
theorem slit_clone : ∀ (n : LiteralE) (frames : Nat), n.cloneS frames = if slitNeed n ≤ frames then some n.clone else none
  | ⟨p, l, none⟩, 0 => by rw [LiteralE.cloneS, slitNeed, soptNeed, if_neg (by omega)]
  | ⟨p, l, some t⟩, 0 => by rw [LiteralE.cloneS, slitNeed, soptNeed, if_neg (by omega)]
  | ⟨p, l, none⟩, f + 1 => by rw [slitNeed, soptNeed]; simp only [LiteralE.cloneS, LiteralE.clone, scloneOpt]; rw [if_pos (by omega)]
  | ⟨p, l, some t⟩, f + 1 => by
    rw [slitNeed, soptNeed]; simp only [LiteralE.cloneS, LiteralE.clone, scloneOpt, table_clone t f]
    by_cases h : tableNeed t ≤ f
    · rw [if_pos h, if_pos (by omega)]
    · rw [if_neg h, if_neg (by omega)]
theorem spar_clone : ∀ (n : ParserE) (frames : Nat), n.cloneS frames = if sparNeed n ≤ frames then some n.clone else none
  | ⟨p, a, none⟩, 0 => by rw [ParserE.cloneS, sparNeed, soptNeed, if_neg (by omega)]
  | ⟨p, a, some t⟩, 0 => by rw [ParserE.cloneS, sparNeed, soptNeed, if_neg (by omega)]
  | ⟨p, a, none⟩, f + 1 => by rw [sparNeed, soptNeed]; simp only [ParserE.cloneS, ParserE.clone, scloneOpt]; rw [if_pos (by omega)]
  | ⟨p, a, some t⟩, f + 1 => by
    rw [sparNeed, soptNeed]; simp only [ParserE.cloneS, ParserE.clone, scloneOpt, table_clone t f]
    by_cases h : tableNeed t ≤ f
    · rw [if_pos h, if_pos (by omega)]
    · rw [if_neg h, if_neg (by omega)]
end

mutual
theorem table_drop : ∀ (t : SuffixTable) (frames : Nat), t.dropS frames = if tableNeed t ≤ frames then some t.entries else none
  | ⟨ls, ps⟩, 0 => by rw [SuffixTable.dropS, tableNeed, if_neg (by omega)]
  | ⟨ls, ps⟩, f + 1 => by
    rw [SuffixTable.dropS, slits_drop ls f, spars_drop ps f, tableNeed, SuffixTable.entries, SuffixTable.weight]
    by_cases h1 : slitsNeed ls ≤ f
    · by_cases h2 : sparsNeed ps ≤ f
      · rw [if_pos h1, if_pos h2, if_pos (by omega)]
      · rw [if_pos h1, if_neg h2, if_neg (by omega)]
    · rw [if_neg h1]; simp only []; rw [if_neg (by omega)]
theorem slits_drop : ∀ (ls : List LiteralE) (frames : Nat),
    sdropLitsS frames ls = if slitsNeed ls ≤ frames then some (slitsWeight (fun _ => 1) 1 ls) else none
  | [], 0 => by rw [sdropLitsS, slitsNeed, if_neg (by omega)]
  | [], f + 1 => by rw [sdropLitsS, slitsNeed, dropEach, slitsWeight, if_pos (by omega)]
  | n :: ls, 0 => by rw [sdropLitsS, slitsNeed, if_neg (by omega)]
  | n :: ls, f + 1 => by
    have h := slits_drop ls (f + 1)
    rw [sdropLitsS] at h
    rw [sdropLitsS, dropEach, h, slit_drop n f, slitsNeed, slitsWeight]
    by_cases h1 : slitNeed n ≤ f
    · by_cases h2 : slitsNeed ls ≤ f + 1
      · rw [if_pos h1, if_pos h2, if_pos (by omega)]
      · rw [if_pos h1, if_neg h2, if_neg (by omega)]
    · rw [if_neg h1]; simp only []; rw [if_neg (by omega)]
theorem spars_drop : ∀ (ls : List ParserE) (frames : Nat),
    sdropParsS frames ls = if sparsNeed ls ≤ frames then some (sparsWeight (fun _ => 1) 1 ls) else none
  | [], 0 => by rw [sdropParsS, sparsNeed, if_neg (by omega)]
  | [], f + 1 => by rw [sdropParsS, sparsNeed, dropEach, sparsWeight, if_pos (by omega)]
  | n :: ls, 0 => by rw [sdropParsS, sparsNeed, if_neg (by omega)]
  | n :: ls, f + 1 => by
    have h := spars_drop ls (f + 1)
    rw [sdropParsS] at h
    rw [sdropParsS, dropEach, h, spar_drop n f, sparsNeed, sparsWeight]
    by_cases h1 : sparNeed n ≤ f
    · by_cases h2 : sparsNeed ls ≤ f + 1
      · rw [if_pos h1, if_pos h2, if_pos (by omega)]
      · rw [if_pos h1, if_neg h2, if_neg (by omega)]
    · rw [if_neg h1]; simp only []; rw [if_neg (by omega)]
theorem slit_drop : ∀ (n : LiteralE) (frames : Nat), n.dropS frames = if slitNeed n ≤ frames then some (n.weight (fun _ => 1) 1) else none
  | ⟨p, l, none⟩, 0 => by rw [LiteralE.dropS, slitNeed, soptNeed, if_neg (by omega)]
  | ⟨p, l, some t⟩, 0 => by rw [LiteralE.dropS, slitNeed, soptNeed, if_neg (by omega)]
  | ⟨p, l, none⟩, f + 1 => by rw [slitNeed, soptNeed]; simp only [LiteralE.dropS, LiteralE.weight, soptWeight]; rw [if_pos (by omega)]
  | ⟨p, l, some t⟩, f + 1 => by
    rw [slitNeed, soptNeed]; simp only [LiteralE.dropS, LiteralE.weight, soptWeight, table_drop t f]
    by_cases h : tableNeed t ≤ f
    · rw [if_pos h, if_pos (by omega)]
    · rw [if_neg h, if_neg (by omega)]
theorem spar_drop : ∀ (n : ParserE) (frames : Nat), n.dropS frames = if sparNeed n ≤ frames then some (n.weight (fun _ => 1) 1) else none
  | ⟨p, a, none⟩, 0 => by rw [ParserE.dropS, sparNeed, soptNeed, if_neg (by omega)]
  | ⟨p, a, some t⟩, 0 => by rw [ParserE.dropS, sparNeed, soptNeed, if_neg (by omega)]
  | ⟨p, a, none⟩, f + 1 => by rw [sparNeed, soptNeed]; simp only [ParserE.dropS, ParserE.weight, soptWeight]; rw [if_pos (by omega)]
  | ⟨p, a, some t⟩, f + 1 => by
    rw [sparNeed, soptNeed]; simp only [ParserE.dropS, ParserE.weight, soptWeight, table_drop t f]
    by_cases h : tableNeed t ≤ f
    · rw [if_pos h, if_pos (by omega)]
    · rw [if_neg h, if_neg (by omega)]
end

mutual
theorem table_need : ∀ t : SuffixTable, tableNeed t ≤ 3 * t.height + 2
  | ⟨ls, ps⟩ => by
    have h1 := slits_need ls
    have h2 := spars_need ps
    rw [tableNeed, SuffixTable.height]; omega
theorem slits_need : ∀ ls : List LiteralE, slitsNeed ls ≤ 3 * slitsHeight ls + 1
  | [] => by simp [slitsNeed]
  | n :: ls => by
    have h1 := slit_need n
    have h2 := slits_need ls
    rw [slitsNeed, slitsHeight]; omega
theorem spars_need : ∀ ls : List ParserE, sparsNeed ls ≤ 3 * sparsHeight ls + 1
  | [] => by simp [sparsNeed]
  | n :: ls => by
    have h1 := spar_need n
    have h2 := spars_need ls
    rw [sparsNeed, sparsHeight]; omega
theorem slit_need : ∀ n : LiteralE, slitNeed n ≤ 3 * n.height
  | ⟨p, l, none⟩ => by rw [slitNeed, soptNeed, LiteralE.height]; omega
  | ⟨p, l, some t⟩ => by
    have := table_need t
    rw [slitNeed, soptNeed, LiteralE.height, soptHeight]; omega
theorem spar_need : ∀ n : ParserE, sparNeed n ≤ 3 * n.height
  | ⟨p, a, none⟩ => by rw [sparNeed, soptNeed, ParserE.height]; omega
  | ⟨p, a, some t⟩ => by
    have := table_need t
    rw [sparNeed, soptNeed, ParserE.height, soptHeight]; omega
end

theorem ssingle_need (toks : List Token) (p : Pattern) : tableNeed (ssingle toks p) = max 2 (3 * toks.length) := by
  have opt : ∀ rest : List Token, soptNeed (if rest.isEmpty then none else some (ssingle rest p)) = if rest = [] then 1 else 1 + tableNeed (ssingle rest p) := by
    intro rest
    cases rest with
    | nil => simp [soptNeed]
    | cons a b => simp [soptNeed]
  induction toks with
  | nil => simp [ssingle, SuffixTable.new, tableNeed, slitsNeed, sparsNeed]
  | cons t rest ih =>
    have e : rest = [] ∨ 1 ≤ rest.length := by cases rest <;> simp
    cases t with
    | literal l =>
      simp only [ssingle, tableNeed, slitsNeed, sparsNeed, slitNeed]
      rw [opt, ih, List.length_cons]
      rcases e with rfl | e
      · simp
      · rw [if_neg (by rintro rfl; simp at e)]; omega
    | parser q =>
      simp only [ssingle, tableNeed, slitsNeed, sparsNeed, sparNeed]
      rw [opt, ih, List.length_cons]
      rcases e with rfl | e
      · simp
      · rw [if_neg (by rintro rfl; simp at e)]; omega

end CloneStack

open CloneStack

/-- C132: to clone a trie to which the patterns `ps` were added, and to drop it, a stack of three frames for each byte and token of the longest pattern (and two
more) is enough, however many patterns there are: the clone is equal to the trie, and dropping frees every node. -/
theorem C132_trie (sip : Bytes → UInt64) (ps : List Pattern) (hu : ∀ p ∈ ps, Utf8Lits p) (t : SuffixTree) (h : SuffixTree.build sip ps = .ok t)
    (frames : Nat) (h2 : 2 ≤ frames) (hk : ∀ p ∈ ps, 3 * Spec.tokensLength p.pattern + 2 ≤ frames) :
    t.cloneS frames = some t ∧ t.dropS frames = some t.nodes := by
  have h3 := C88_trie_height sip ps hu t h ((frames - 2) / 3) fun p hp => by have := hk p hp; omega
  have h4 := tree_need t
  have h5 : treeNeed t ≤ frames := by omega
  exact ⟨by rw [tree_clone, if_pos h5, suffixTree_clone_id], by rw [tree_drop, if_pos h5]⟩

/-- C132 for the suffix array: three frames for each token of the longest pattern and two more. -/
theorem C132_suffix_array (sip : Bytes → UInt64) (ps : List Pattern) (t : SuffixTable) (h : SuffixTable.build sip ps = .ok t) (frames : Nat)
    (h2 : 2 ≤ frames) (hk : ∀ p ∈ ps, 3 * p.pattern.length + 2 ≤ frames) : t.cloneS frames = some t ∧ t.dropS frames = some t.entries := by
  have h3 := C88_suffix_array_height sip ps t h ((frames - 2) / 3) fun p hp => by have := hk p hp; omega
  have h4 := table_need t
  have h5 : tableNeed t ≤ frames := by omega
  exact ⟨by rw [table_clone, if_pos h5, suffixTable_clone_id], by rw [table_drop, if_pos h5]⟩

/-- C132: with any stack and for any trie, a clone is equal to the original, dropping frees every node, and one is possible exactly if the other is: a matcher
that was cloned can be dropped with the same stack. -/
theorem C132_trie_any_stack (t : SuffixTree) (frames : Nat) :
    (∀ t', t.cloneS frames = some t' → t' = t) ∧ (∀ n, t.dropS frames = some n → n = t.nodes) ∧ (t.cloneS frames = none ↔ t.dropS frames = none) := by
  rw [tree_clone, tree_drop, suffixTree_clone_id]
  by_cases h : treeNeed t ≤ frames
  · simp [h]
  · simp [h]

theorem C132_suffix_array_any_stack (t : SuffixTable) (frames : Nat) :
    (∀ t', t.cloneS frames = some t' → t' = t) ∧ (∀ n, t.dropS frames = some n → n = t.entries) ∧ (t.cloneS frames = none ↔ t.dropS frames = none) := by
  rw [table_clone, table_drop, suffixTable_clone_id]
  by_cases h : tableNeed t ≤ frames
  · simp [h]
  · simp [h]

/-- C132, the number of tokens cannot be done without: a trie that holds one pattern of one or more tokens can be cloned and dropped exactly if there are three
frames for each of them. -/
theorem C132_trie_needed (sip : Bytes → UInt64) (p : Pattern) (hp : p.pattern ≠ []) (t : SuffixTree) (h : SuffixTree.build sip [p] = .ok t) (frames : Nat) :
    (t.cloneS frames ≠ none ↔ 3 * p.pattern.length ≤ frames) ∧ (t.dropS frames ≠ none ↔ 3 * p.pattern.length ≤ frames) := by
  rw [build_single] at h
  simp at h
  have h1 := List.length_pos_iff.mpr hp
  rw [tree_clone, tree_drop, ← h, single_need]
  by_cases hf : 3 * p.pattern.length ≤ frames
  · rw [if_pos (by omega), if_pos (by omega)]; simp [hf]
  · rw [if_neg (by omega), if_neg (by omega)]; simp [hf]

/-- C132, likewise for the suffix array. -/
theorem C132_suffix_array_needed (sip : Bytes → UInt64) (p : Pattern) (hp : p.pattern ≠ []) (t : SuffixTable) (h : SuffixTable.build sip [p] = .ok t)
    (frames : Nat) :
    (t.cloneS frames ≠ none ↔ 3 * p.pattern.length ≤ frames) ∧ (t.dropS frames ≠ none ↔ 3 * p.pattern.length ≤ frames) := by
  rw [sbuild_single] at h
  simp at h
  have h1 := List.length_pos_iff.mpr hp
  rw [table_clone, table_drop, ← h, ssingle_need]
  by_cases hf : 3 * p.pattern.length ≤ frames
  · rw [if_pos (by omega), if_pos (by omega)]; simp [hf]
  · rw [if_neg (by omega), if_neg (by omega)]; simp [hf]

end Verif
