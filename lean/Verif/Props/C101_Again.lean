import Verif.Proofs.Again
import Verif.Props.C96_AddPanics
import Verif.Props.C100_SuffixOrder
/-! C101: adding the same patterns again. -/
namespace Verif
open Spec

theorem sameTable_trans {T U V : Table} (h : SameTable T U) (h' : SameTable U V) : SameTable T V :=
  ⟨fun x => (h.1 x).trans (h'.1 x), h.2.trans h'.2⟩

theorem sameTable_fold (qs : List Pattern) : ∀ {T T' : Table}, SameTable T T' → SameTable (qs.foldl Table.add T) (qs.foldl Table.add T') := by
  induction qs with
  | nil => intro T T' h; exact h
  | cons q qs ih => intro T T' h; exact ih (sameTable_add h q)

/-- Adding the patterns any number of times leads to the table of adding them once. -/
theorem copies_table (ps : List Pattern) (n : Nat) : SameTable (Table.of (List.replicate (n + 1) ps).flatten) (Table.of ps) := by
  induction n with
  | zero => simp only [Nat.zero_add, List.replicate_one, List.flatten_singleton]; exact ⟨fun _ => rfl, rfl⟩
  | succ n ih =>
    rw [List.replicate_succ', List.flatten_append, List.flatten_singleton]
    have h1 : ∀ qs rs : List Pattern, Table.of (qs ++ rs) = rs.foldl Table.add (Table.of qs) := fun qs rs => by
      unfold Table.of; rw [List.foldl_append]
    rw [h1]
    refine sameTable_trans (sameTable_fold ps ih) ?_
    rw [← h1]
    exact again_table ps

theorem copies_mem (ps : List Pattern) (n : Nat) : ∀ p ∈ (List.replicate n ps).flatten, p ∈ ps := by
  intro p hp
  obtain ⟨l, hl, h⟩ := List.mem_flatten.mp hp
  rw [(List.mem_replicate.mp hl).2] at h
  exact h

/-- C101, the trie: adding a list of patterns any number of times, one time after the other, leads to the same outcome for every text as adding it
once. -/
theorem C101_trie (sip : Bytes → UInt64) (ps : List Pattern) (hps : Plain sip ps) (n : Nat) (text : Bytes) (hx : Utf8 text) :
    (SuffixTree.build sip (List.replicate (n + 1) ps).flatten >>= fun t => t.parse text) = (SuffixTree.build sip ps >>= fun t => t.parse text) := by
  have hm := copies_mem ps (n + 1)
  obtain ⟨t, hb, _⟩ := build_ascii sip (List.replicate (n + 1) ps).flatten (fun p hp => hps.ascii p (hm p hp))
  obtain ⟨t', hb', _⟩ := build_ascii sip ps hps.ascii
  rw [hb, hb']
  exact sameTable_parse (proper_sub hps.proper hm) hps.proper (copies_table ps n) hb hb' hx

/-- C101, the trie, for all UTF-8 literals: if the additions return. -/
theorem C101_trie_utf8 (sip : Bytes → UInt64) (ps : List Pattern) (hps : Proper sip ps) (n : Nat) (t t' : SuffixTree)
    (hb : SuffixTree.build sip (List.replicate (n + 1) ps).flatten = .ok t) (hb' : SuffixTree.build sip ps = .ok t') (text : Bytes) (hx : Utf8 text) :
    t.parse text = t'.parse text :=
  sameTable_parse (proper_sub hps (copies_mem ps (n + 1))) hps (copies_table ps n) hb hb' hx

/-- C101: the additions do not return if one of the patterns begins with a character outside ASCII: adding it a second time panics, whatever else is
added. -/
theorem C101_nonascii_panics (sip : Bytes → UInt64) (ps : List Pattern) (hps : Proper sip ps) (p : Pattern) (hp : p ∈ ps) (hl : LiteralLed p)
    (hf : NonAsciiLed p) : SuffixTree.build sip (ps ++ ps) = .error .slice := by
  obtain ⟨A, B, rfl⟩ := List.append_of_mem hp
  have e : (A ++ p :: B) ++ (A ++ p :: B) = A ++ p :: (B ++ A) ++ p :: B := by simp
  have hm : ∀ s ∈ A ++ p :: (B ++ A) ++ p :: B, s ∈ A ++ p :: B := by
    intro s hs
    rw [← e] at hs
    exact (List.mem_append.mp hs).elim id id
  rw [e]
  exact C96_nonascii_literal_excludes_others sip A (B ++ A) B p p (fun s hs => hps.utf8 s (hm s hs)) (fun s hs => hps.nonempty s (hm s hs))
    (fun s hs => hps.split s (hm s hs)) hl hl (.inl hf)

/-! The suffix array. -/

theorem leads_mem {ps qs : List Pattern} (h : ∀ p, p ∈ ps ↔ p ∈ qs) (l : Bytes) : Leads ps l ↔ Leads qs l := by
  unfold Leads
  simp only [h]

theorem chosen_mem {ps qs : List Pattern} (h : ∀ p, p ∈ ps ↔ p ∈ qs) (x l : Bytes) : Chosen ps x l ↔ Chosen qs x l := by
  unfold Chosen
  simp only [leads_mem h]

theorem lastWith_append {A ps : List Pattern} {P : List Token → Prop} {p : Pattern} (h : LastWith ps P p) : LastWith (A ++ ps) P p := by
  obtain ⟨C, D, rfl, h1, h2⟩ := h
  exact ⟨A ++ C, D, by simp, h1, h2⟩

theorem lastWith_unique {P : List Token → Prop} {p q : Pattern} : ∀ {ps : List Pattern}, LastWith ps P p → LastWith ps P q → p = q := by
  rintro ps ⟨C, D, rfl, h1, h2⟩ ⟨C', D', e, h1', h2'⟩
  rw [List.append_eq_append_iff] at e
  rcases e with ⟨c, e1, e2⟩ | ⟨c, e1, e2⟩
  · cases c with
    | nil => simp at e2; exact e2.1
    | cons s c =>
      simp only [List.cons_append, List.cons.injEq] at e2
      exact absurd h1' (h2 q (by rw [e2.2]; simp))
  · cases c with
    | nil => simp at e2; exact e2.1.symm
    | cons s c =>
      simp only [List.cons_append, List.cons.injEq] at e2
      exact absurd h1 (h2' p (by rw [e2.2]; simp))

theorem lastWith_exists {P : List Token → Prop} : ∀ {ps : List Pattern}, (∃ p ∈ ps, P p.pattern) → ∃ p, LastWith ps P p := by
  intro ps
  induction ps with
  | nil => rintro ⟨_, h, _⟩; cases h
  | cons s ps ih =>
    rintro ⟨p, hp, hP⟩
    by_cases h : ∃ p ∈ ps, P p.pattern
    · obtain ⟨q, C, D, rfl, g1, g2⟩ := ih h
      exact ⟨q, s :: C, D, rfl, g1, g2⟩
    · rcases List.mem_cons.mp hp with rfl | hp
      · exact ⟨p, [], ps, rfl, hP, fun q hq g => h ⟨q, hq, g⟩⟩
      · exact absurd ⟨p, hp, hP⟩ h

theorem lastWith_copies {ps : List Pattern} {A : List Pattern} (hA : ∀ p ∈ A, p ∈ ps) {P : List Token → Prop} {p : Pattern} :
    LastWith (A ++ ps) P p ↔ LastWith ps P p := by
  refine ⟨fun h => ?_, lastWith_append⟩
  have hp : p ∈ ps ∧ P p.pattern := by
    obtain ⟨C, D, e, h1, _⟩ := h
    have : p ∈ A ++ ps := by rw [e]; simp
    rcases List.mem_append.mp this with g | g
    · exact ⟨hA p g, h1⟩
    · exact ⟨g, h1⟩
  obtain ⟨q, hq⟩ := lastWith_exists ⟨p, hp.1, hp.2⟩
  rw [lastWith_unique h (lastWith_append hq)]
  exact hq

theorem suffixAnswer_copies {ps A : List Pattern} (hA : ∀ p ∈ A, p ∈ ps) (ht : (Table.of (A ++ ps)).parserLed = (Table.of ps).parserLed) (x : Bytes)
    (r : Option MatchResult) : SuffixAnswer (A ++ ps) x r ↔ SuffixAnswer ps x r := by
  have hm : ∀ p, p ∈ A ++ ps ↔ p ∈ ps := fun p => by
    rw [List.mem_append]
    exact ⟨fun h => h.elim (hA p) id, .inr⟩
  unfold SuffixAnswer
  simp only [leads_mem hm, chosen_mem hm, ht, lastWith_copies hA, hm]

theorem suffixTrouble_copies {ps A : List Pattern} (hA : ∀ p ∈ A, p ∈ ps) (ht : (Table.of (A ++ ps)).parserLed = (Table.of ps).parserLed) (x : Bytes) :
    SuffixTrouble (A ++ ps) x ↔ SuffixTrouble ps x := by
  have hm : ∀ p, p ∈ A ++ ps ↔ p ∈ ps := fun p => by
    rw [List.mem_append]
    exact ⟨fun h => h.elim (hA p) id, .inr⟩
  unfold SuffixTrouble
  simp only [leads_mem hm, chosen_mem hm, ht, lastWith_copies hA]

/-- C101, the suffix array: adding a list of patterns any number of times, one time after the other, leads to the same outcome for every text as adding
it once. -/
theorem C101_suffix (sip : Bytes → UInt64) (ps : List Pattern) (hu : ∀ p ∈ ps, Utf8Lits p) (hcol : NoCollision sip ps) (n : Nat) (text : Bytes)
    (hx : Utf8 text) :
    (SuffixTable.build sip (List.replicate (n + 1) ps).flatten >>= fun t => t.parse text) = (SuffixTable.build sip ps >>= fun t => t.parse text) := by
  have hm := copies_mem ps (n + 1)
  have ht := (copies_table ps n).2
  have e : (List.replicate (n + 1) ps).flatten = (List.replicate n ps).flatten ++ ps := by
    rw [List.replicate_succ', List.flatten_append, List.flatten_singleton]
  rw [e] at hm ht ⊢
  have hA := copies_mem ps n
  exact outcome_same hu hcol (fun p hp => hu p (hm p hp)) (noCollision_sub hcol hm) hx (fun r => (suffixAnswer_copies hA ht text r).mp)
    (suffixTrouble_copies hA ht text)

/-! A list that meets the hypotheses (`orderSample_plain`), added three times; re-adding a single pattern of it does change an answer. -/

example : (SuffixTree.build Samples.sip (List.replicate 3 [orderSample1, orderSample2, orderSample3, orderSample4]).flatten >>= fun t => t.parse b!"ab7;") =
    .ok (some ⟨Samples.pat 3 [], [(b!"x", b!"7")]⟩) := by decide +kernel
example (n : Nat) : (SuffixTree.build Samples.sip (List.replicate (n + 1) [orderSample1, orderSample2, orderSample3, orderSample4]).flatten >>=
    fun t => t.parse b!"ab7;") = .ok (some ⟨Samples.pat 3 [], [(b!"x", b!"7")]⟩) := by
  rw [C101_trie _ _ orderSample_plain n b!"ab7;" (ascii_utf8 (by decide))]
  decide +kernel
example : (SuffixTree.build Samples.sip ([orderSample1, orderSample2, orderSample3, orderSample4] ++ [orderSample1]) >>= fun t => t.parse b!"ab7;") =
    .ok none := by decide +kernel
example (n : Nat) : (SuffixTable.build Samples.sip (List.replicate (n + 1) [orderSample1, orderSample2, orderSample3, orderSample4]).flatten >>=
    fun t => t.parse b!"ab7;") = .ok (some ⟨Samples.pat 3 [], [(b!"x", b!"7")]⟩) := by
  rw [C101_suffix _ _ (fun p hp => asciiLits_utf8 (orderSample_plain.ascii p hp)) orderSample_plain.hashes n b!"ab7;" (ascii_utf8 (by decide))]
  decide +kernel

/-! `aé` can be added again, `é` cannot. -/
example : ((SuffixTree.build Samples.sip (List.replicate 2 [Samples.pat 1 [.literal b!"aé"]]).flatten).map fun _ => ()) = .ok () := by decide +kernel
example : ((SuffixTree.build Samples.sip ([Samples.pat 1 [.literal b!"é"]] ++ [Samples.pat 1 [.literal b!"é"]])).map fun _ => ()) = .error .slice := by
  decide +kernel

end Verif
