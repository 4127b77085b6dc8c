import Verif.Props.C49_Hash
import Verif.Proofs.TriePartial
import Verif.Proofs.SuffixReach
import Verif.Spec.Samples
/-! C49: different parsers are never merged unless SipHash maps two different byte strings to the same value. -/
namespace Verif
open Spec

/-- The parsers the patterns start with. -/
def firstParsers (ps : List Pattern) : List Parser :=
  ps.filterMap fun p => match p.pattern with
    | .parser a :: _ => some a
    | _ => none

/-- SipHash does not map two different byte streams of these parsers to the same value. -/
def NoSipCollision (sip : Bytes → UInt64) (as : List Parser) : Prop := ∀ a ∈ as, ∀ b ∈ as, a.feed ≠ b.feed → sip a.feed ≠ sip b.feed

theorem sip_inj {sip : Bytes → UInt64} {as : List Parser} (hr : ∀ a ∈ as, RuntimeParser a) (hn : NoSipCollision sip as) {a b : Parser}
    (ha : a ∈ as) (hb : b ∈ as) (h : a.hashOs sip = b.hashOs sip) : a = b := by
  refine C49_hash_stream_injective a b (hr a ha) (hr b hb) ?_
  exact Classical.byContradiction fun hx => hn a ha b hb hx h

theorem insPar_map (sip : Bytes → UInt64) (ns : List ParserNode) (a : Parser) (rest : List Token) (q : Pattern)
    (hd : ∀ n ∈ ns, n.parser.hashOs sip = a.hashOs sip → n.parser = a) :
    (insPar sip ns a rest q).map (·.parser) = if a ∈ ns.map (·.parser) then ns.map (·.parser) else ns.map (·.parser) ++ [a] := by
  induction ns with
  | nil => simp [insPar, updPar_parser, ParserNode.new]
  | cons n ns ih =>
    unfold insPar
    split
    · rename_i h
      have := hd n (by simp) (by simpa using h)
      simp [updPar_parser, this]
    · rename_i h
      have hne : a ≠ n.parser := by rintro rfl; simp at h
      have := ih fun m hm => hd m (by simp [hm])
      simp only [List.map_cons, this, List.mem_cons, hne, false_or]
      split <;> simp

theorem putPar_map (sip : Bytes → UInt64) (ns : List ParserE) (a : Parser) (rest : List Token) (q : Pattern)
    (hd : ∀ n ∈ ns, n.parser.hashOs sip = a.hashOs sip → n.parser = a) :
    (putPar sip a (supdP rest q) ns).map (·.parser) = if a ∈ ns.map (·.parser) then ns.map (·.parser) else ns.map (·.parser) ++ [a] := by
  induction ns with
  | nil => simp [putPar, supdP_parser, ParserE.new]
  | cons n ns ih =>
    unfold putPar
    split
    · rename_i h
      have := hd n (by simp) (by simpa using h)
      simp [supdP_parser, this]
    · rename_i h
      have hne : a ≠ n.parser := by rintro rfl; simp at h
      have := ih fun m hm => hd m (by simp [hm])
      simp only [List.map_cons, this, List.mem_cons, hne, false_or]
      split <;> simp

/-- One entry for each parser. -/
theorem one_each {as : List Parser} {a : Parser} {L : List Parser} (h1 : L.Nodup) (h2 : ∀ x, x ∈ L ↔ x ∈ as) :
    (if a ∈ L then L else L ++ [a]).Nodup ∧ ∀ x, x ∈ (if a ∈ L then L else L ++ [a]) ↔ x ∈ as ++ [a] := by
  split
  · rename_i h
    refine ⟨h1, fun x => ?_⟩
    simp only [List.mem_append, List.mem_singleton, h2]
    constructor
    · exact .inl
    · rintro (hx | rfl)
      · exact hx
      · exact (h2 _).mp h
  · rename_i h
    refine ⟨?_, fun x => by simp [h2]⟩
    rw [List.nodup_append]
    refine ⟨h1, by simp, fun x hx y hy => ?_⟩
    simp at hy; subst hy
    rintro rfl; exact h hx

/-- C49: without a collision of SipHash, a trie has exactly one node for each of the parsers its patterns start with: equal parsers share a node,
different ones never do. -/
theorem C49_trie_one_node_each (sip : Bytes → UInt64) (ps : List Pattern) (hu : ∀ p ∈ ps, Utf8Lits p) (hr : ∀ a ∈ firstParsers ps, RuntimeParser a)
    (hn : NoSipCollision sip (firstParsers ps)) (t : SuffixTree) (h : SuffixTree.build sip ps = .ok t) :
    (t.parserChildren.map (·.parser)).Nodup ∧ ∀ a, a ∈ t.parserChildren.map (·.parser) ↔ a ∈ firstParsers ps := by
  refine (build_induct (sip := sip) (fun ps t => (∀ a ∈ firstParsers ps, RuntimeParser a) → NoSipCollision sip (firstParsers ps) →
    (t.parserChildren.map (·.parser)).Nodup ∧ ∀ a, a ∈ t.parserChildren.map (·.parser) ↔ a ∈ firstParsers ps) ?_ ?_ hu h).2 hr hn
  · intro _ _
    simp [SuffixTree.new, firstParsers]
  · intro ps t p t' hs _ _ ih hr hn
    have e : firstParsers (ps ++ [p]) = firstParsers ps ++ firstParsers [p] := by simp [firstParsers]
    rw [e] at hr hn
    obtain ⟨i1, i2⟩ := ih (fun a ha => hr a (by simp [ha])) (fun a ha b hb => hn a (by simp [ha]) b (by simp [hb]))
    rw [e]
    cases hs with
    | empty hp =>
      have e3 : firstParsers [p] = [] := by simp [firstParsers, hp]
      rw [e3, List.append_nil]
      exact ⟨i1, i2⟩
    | lit l rest hp _ h' =>
      have e2 : t'.parserChildren = t.parserChildren := by
        cases h' <;> rfl
      rw [e2]
      have e3 : firstParsers [p] = [] := by simp [firstParsers, hp]
      rw [e3, List.append_nil]
      exact ⟨i1, i2⟩
    | par a rest hp =>
      have e2 : firstParsers [p] = [a] := by simp [firstParsers, hp]
      rw [e2] at hr hn ⊢
      simp only
      rw [insPar_map]
      · exact one_each i1 i2
      · intro n hn' hh
        have : n.parser ∈ firstParsers ps := (i2 _).mp (List.mem_map_of_mem hn')
        exact sip_inj hr hn (by simp [this]) (by simp) hh

theorem sfold_each {sip : Bytes → UInt64} (qs : List Pattern) {ps : List Pattern} {t t' : SuffixTable} (hre : Reach sip ps t)
    (h : qs.foldlM (fun t p => t.addPattern sip p) t = .ok t') (hr : ∀ a ∈ firstParsers (ps ++ qs), RuntimeParser a)
    (hn : NoSipCollision sip (firstParsers (ps ++ qs))) (i1 : (t.parserEntries.map (·.parser)).Nodup)
    (i2 : ∀ a, a ∈ t.parserEntries.map (·.parser) ↔ a ∈ firstParsers ps) :
    (t'.parserEntries.map (·.parser)).Nodup ∧ ∀ a, a ∈ t'.parserEntries.map (·.parser) ↔ a ∈ firstParsers (ps ++ qs) := by
  induction qs generalizing ps t with
  | nil =>
    simp [pure, Except.pure] at h
    subst h
    rw [List.append_nil]
    exact ⟨i1, i2⟩
  | cons p qs ih =>
    obtain ⟨t1, h1, h2⟩ := reach_step hre p
    simp only [List.foldlM_cons, SuffixTable.addPattern, h1, bind, Except.bind] at h
    have e0 : ps ++ p :: qs = (ps ++ [p]) ++ qs := by simp
    rw [e0] at hr hn ⊢
    have e : firstParsers (ps ++ [p]) = firstParsers ps ++ firstParsers [p] := by simp [firstParsers]
    have e' : firstParsers (ps ++ [p] ++ qs) = firstParsers ps ++ firstParsers [p] ++ firstParsers qs := by
      rw [← e]; unfold firstParsers; rw [← List.filterMap_append]
    have key : (t1.parserEntries.map (·.parser)).Nodup ∧ ∀ a, a ∈ t1.parserEntries.map (·.parser) ↔ a ∈ firstParsers (ps ++ [p]) := by
      cases hp : p.pattern with
      | nil =>
        rw [sinsert_empty sip t p hp] at h1
        simp at h1
        have e3 : firstParsers [p] = [] := by simp [firstParsers, hp]
        rw [← h1, e, e3, List.append_nil]
        exact ⟨i1, i2⟩
      | cons tok rest =>
        cases tok with
        | literal l =>
          rw [sinsert_lit sip t p l rest hp, sinsertLiteral_run hre.sorted] at h1
          simp at h1
          have e3 : firstParsers [p] = [] := by simp [firstParsers, hp]
          rw [← h1, e, e3, List.append_nil]
          exact ⟨i1, i2⟩
        | parser a =>
          rw [sinsert_par sip t p a rest hp, sinsertParser_run] at h1
          simp only [Except.ok.injEq] at h1
          have e3 : firstParsers [p] = [a] := by simp [firstParsers, hp]
          rw [← h1, e, e3]
          rw [e', e3] at hr hn
          simp only
          rw [putPar_map]
          · exact one_each i1 i2
          · intro n hn' hh
            have : n.parser ∈ firstParsers ps := (i2 _).mp (List.mem_map_of_mem hn')
            exact sip_inj hr hn (by simp [this]) (by simp) hh
    exact ih h2 h hr hn key.1 key.2

/-- C49: the same for the suffix array. -/
theorem C49_suffix_array_one_node_each (sip : Bytes → UInt64) (ps : List Pattern) (hr : ∀ a ∈ firstParsers ps, RuntimeParser a)
    (hn : NoSipCollision sip (firstParsers ps)) (t : SuffixTable) (h : SuffixTable.build sip ps = .ok t) :
    (t.parserEntries.map (·.parser)).Nodup ∧ ∀ a, a ∈ t.parserEntries.map (·.parser) ↔ a ∈ firstParsers ps := by
  have := sfold_each ps (reach_new sip) h (by simpa using hr) (by simpa using hn) (by simp [SuffixTable.new]) (by simp [SuffixTable.new, firstParsers])
  simpa using this

/-- Two parsers with the same name and a third one that occurs twice: three nodes. -/
def mergeSample : List Pattern :=
  [Samples.pat 1 [.parser (Samples.int b!"n"), .literal b!" a"], Samples.pat 2 [.parser (Samples.set b!"n" b!"xyz")],
   Samples.pat 3 [.parser (Samples.greedy b!"g" none)], Samples.pat 4 [.parser (Samples.int b!"n")]]

example : (∀ a ∈ firstParsers mergeSample, RuntimeParser a) ∧ NoSipCollision Samples.sip (firstParsers mergeSample) := by
  refine ⟨?_, by unfold NoSipCollision; decide +kernel⟩
  intro a ha
  simp [firstParsers, mergeSample, Samples.pat] at ha
  rcases ha with rfl | rfl | rfl | rfl
  · exact ⟨by intro n hn; cases hn; exact ascii_utf8 (by decide), bsetFromIter_sorted _, (by intro n hn; cases hn), (by intro n hn; cases hn)⟩
  · exact ⟨by intro n hn; cases hn; exact ascii_utf8 (by decide), bsetFromIter_sorted _, (by intro n hn; cases hn), (by intro n hn; cases hn)⟩
  · exact ⟨by intro n hn; cases hn; exact ascii_utf8 (by decide), by intro n hn; cases hn⟩
  · exact ⟨by intro n hn; cases hn; exact ascii_utf8 (by decide), bsetFromIter_sorted _, (by intro n hn; cases hn), (by intro n hn; cases hn)⟩

end Verif
