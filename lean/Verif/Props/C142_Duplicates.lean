import Verif.Spec.Newer
import Verif.Props.C101_Again
import Verif.Props.C128_Deleted
/-! C142: a pattern that is added again later. -/
namespace Verif
open Spec
namespace Duplicates

/-- Adding two patterns for the same literal, both of them alone or both of them going on. -/
theorem rows_again (rows : List Row) (l : Bytes) (a : Bool) (q p : Pattern) :
    SameRows (addLiteralLed (addLiteralLed rows l a q) l a p) (addLiteralLed rows l a p) := by
  intro x
  have hr : rowOf (addLiteralLed rows l a q) l = if a then { rowOf rows l with whole := some q }
      else if (rowOf rows l).more = none ∧ Extended rows l then rowOf rows l else { rowOf rows l with more := some q } := by
    rw [rowOf_rowAt, rowAt_add]; simp
  rw [rowAt_add (addLiteralLed rows l a q), rowAt_add rows l a p, hr]
  cases a with
  | true =>
    by_cases e : x = l
    · simp [e]
    · simp only [e, if_false]
      rw [rowAt_add, if_neg e]
      simp
  | false =>
    by_cases hc : (rowOf rows l).more = none ∧ Extended rows l
    · have he : Extended (addLiteralLed rows l false q) l := by
        obtain ⟨y, h1, h2, h3⟩ := extended_rowAt.mp hc.2
        refine extended_rowAt.mpr ⟨y, h1, h2, ?_⟩
        rw [rowAt_add, if_neg h2, if_neg (fun g => g.2.1 hc)]
        exact h3
      by_cases e : x = l
      · simp [e, hc, he]
      · simp only [e, if_false]
        rw [rowAt_add, if_neg e]
        simp [hc, he]
    · by_cases e : x = l
      · simp [e, hc]
      · simp only [e, if_false]
        rw [rowAt_add, if_neg e]
        by_cases g : l <+: x <;> simp [hc, g]

/-- Adding two patterns for the same parser. -/
theorem parserLed_again (a : Parser) (q p : Pattern) (rest rest' : List Token) (hp : p.pattern = .parser a :: rest) (hq : q.pattern = .parser a :: rest')
    (hk : rest = [] ↔ rest' = []) (L : List Pattern) : addParserLed a p (addParserLed a q L) = addParserLed a p L := by
  have hqh : q.pattern.head? = some (.parser a) := by rw [hq]; rfl
  have hsame : p.pattern = [.parser a] ↔ q.pattern = [.parser a] := by rw [hp, hq]; simp [hk]
  induction L with
  | nil =>
    simp only [addParserLed, if_pos hqh]
    rw [if_neg (fun h => h.2 (hsame.mp h.1))]
  | cons s L ih =>
    by_cases hs : s.pattern.head? = some (.parser a)
    · simp only [addParserLed, if_pos hs]
      by_cases h1 : q.pattern = [.parser a] ∧ s.pattern ≠ [.parser a]
      · rw [if_pos h1]
        simp only [addParserLed, if_pos hs]
      · rw [if_neg h1]
        simp only [addParserLed, if_pos hqh]
        rw [if_neg (fun h => h.2 (hsame.mp h.1)), if_neg (fun h => h1 ⟨hsame.mp h.1, h.2⟩)]
    · simp only [addParserLed, hs, if_false, ih]

theorem table_again {p q : Pattern} (h : SameKind p q) (T : Table) : SameTable ((T.add q).add p) (T.add p) := by
  obtain ⟨first, rest, rest', hp, hq, hk⟩ := h
  have he : rest'.isEmpty = rest.isEmpty := by
    cases rest <;> cases rest' <;> simp_all
  cases first with
  | literal l =>
    unfold Table.add
    rw [hp, hq]
    simp only [he]
    exact ⟨rows_again _ _ _ _ _, rfl⟩
  | parser a =>
    unfold Table.add
    rw [hp, hq]
    exact ⟨fun _ => rfl, parserLed_again a q p rest rest' hp hq hk _⟩

theorem table_without (A B C : List Pattern) {p q : Pattern} (hk : SameKind p q) (hB : ∀ b ∈ B, ¬ OrderMatters q b) :
    SameTable (Table.of (A ++ q :: B ++ p :: C)) (Table.of (A ++ B ++ p :: C)) := by
  have hrefl : ∀ T, SameTable T T := fun T => ⟨fun _ => rfl, rfl⟩
  have h := move_front Table.add SameTable hrefl (fun _ _ _ => sameTable_trans) (fun _ _ a h => sameTable_add h a) q B
    (fun b hb T => sameTable_commute q b (hB b hb) T) (Table.of A) (Table.of A) (hrefl _)
  have h1 : SameTable (((B.foldl Table.add ((Table.of A).add q))).add p) ((B.foldl Table.add (Table.of A)).add p) :=
    sameTable_trans (sameTable_add h p) (table_again hk _)
  have h2 := sameTable_fold C h1
  simpa [Table.of] using h2

theorem parserLed_fold (B : List Pattern) : ∀ {T T' : Table}, T.parserLed = T'.parserLed →
    (B.foldl Table.add T).parserLed = (B.foldl Table.add T').parserLed := by
  induction B with
  | nil => exact fun h => h
  | cons b B ih =>
    intro T T' h
    refine ih ?_
    unfold Table.add
    split
    · exact h
    · exact h
    · simp only [h]

theorem suffix_without (A B C : List Pattern) {p q : Pattern} (hk : SameKind p q)
    (hB : (∃ l, q.pattern.head? = some (.literal l)) ∨ ∀ b ∈ B, ¬ SuffixOrderMatters q b) :
    (Table.of (A ++ q :: B ++ p :: C)).parserLed = (Table.of (A ++ B ++ p :: C)).parserLed := by
  rcases hB with ⟨l, hl⟩ | hB
  · have e : ((Table.of A).add q).parserLed = (Table.of A).parserLed := by
      obtain ⟨first, rest, rest', hp, hq, _⟩ := hk
      rw [hq] at hl
      simp at hl
      unfold Table.add
      rw [hq, hl]
    have := parserLed_fold (B ++ p :: C) e
    simpa [Table.of] using this
  · have h := move_front Table.add (fun T T' => T.parserLed = T'.parserLed) (fun _ => rfl) (fun _ _ _ => Eq.trans)
      (fun _ _ a h => parserLed_fold [a] h) q B (fun b hb T => parserLed_commute q b (hB b hb) T) (Table.of A) (Table.of A) rfl
    have h1 : ((B.foldl Table.add ((Table.of A).add q)).add p).parserLed = ((B.foldl Table.add (Table.of A)).add p).parserLed :=
      (parserLed_fold [p] h).trans (table_again hk _).2
    have h2 := parserLed_fold C h1
    simpa [Table.of] using h2

theorem lastWith_without {A B : List Pattern} {q : Pattern} {P : List Token → Prop} (h : P q.pattern → ∃ p ∈ B, P p.pattern) {s : Pattern} :
    LastWith (A ++ q :: B) P s ↔ LastWith (A ++ B) P s := by
  refine ⟨fun hs => ?_, Deleted.lastWith_delete h s⟩
  have hex : ∃ p ∈ A ++ B, P p.pattern := by
    obtain ⟨C, D, e, h1, _⟩ := hs
    have hm : s ∈ A ++ q :: B := by rw [e]; simp
    rcases List.mem_append.mp hm with g | g
    · exact ⟨s, by simp [g], h1⟩
    · rcases List.mem_cons.mp g with rfl | g
      · obtain ⟨p, hp, g⟩ := h h1
        exact ⟨p, by simp [hp], g⟩
      · exact ⟨s, by simp [g], h1⟩
  obtain ⟨s', hs'⟩ := lastWith_exists hex
  rw [lastWith_unique hs (Deleted.lastWith_delete h s' hs')]
  exact hs'

end Duplicates
open Duplicates

/-- C142, trie: if a pattern of the same kind is added later, and the additions in between are of patterns whose order with it does not matter, the earlier
one can be left out: every text has the same outcome. -/
theorem C142_trie (sip : Bytes → UInt64) (A B C : List Pattern) (p q : Pattern) (hps : Plain sip (A ++ q :: B ++ p :: C)) (hk : SameKind p q)
    (hB : ∀ b ∈ B, ¬ OrderMatters q b) (text : Bytes) (hx : Utf8 text) :
    (SuffixTree.build sip (A ++ q :: B ++ p :: C) >>= fun t => t.parse text) = (SuffixTree.build sip (A ++ B ++ p :: C) >>= fun t => t.parse text) := by
  have hm : ∀ s ∈ A ++ B ++ p :: C, s ∈ A ++ q :: B ++ p :: C := by
    intro s hs
    simp only [List.mem_append, List.mem_cons] at hs ⊢
    rcases hs with (h | h) | h
    · exact .inl (.inl h)
    · exact .inl (.inr (.inr h))
    · exact .inr h
  obtain ⟨t, hb, _⟩ := build_ascii sip _ hps.ascii
  obtain ⟨t', hb', _⟩ := build_ascii sip (A ++ B ++ p :: C) (fun s hs => hps.ascii s (hm s hs))
  rw [hb, hb']
  exact sameTable_parse hps.proper (proper_sub hps.proper hm) (table_without A B C hk hB) hb hb' hx

/-- C142, trie, for all UTF-8 literals: if the additions return. -/
theorem C142_trie_utf8 (sip : Bytes → UInt64) (A B C : List Pattern) (p q : Pattern) (hps : Proper sip (A ++ q :: B ++ p :: C)) (hk : SameKind p q)
    (hB : ∀ b ∈ B, ¬ OrderMatters q b) (t t' : SuffixTree) (hb : SuffixTree.build sip (A ++ q :: B ++ p :: C) = .ok t)
    (hb' : SuffixTree.build sip (A ++ B ++ p :: C) = .ok t') (text : Bytes) (hx : Utf8 text) : t.parse text = t'.parse text := by
  refine sameTable_parse hps (proper_sub hps ?_) (table_without A B C hk hB) hb hb' hx
  intro s hs
  simp only [List.mem_append, List.mem_cons] at hs ⊢
  rcases hs with (h | h) | h
  · exact .inl (.inl h)
  · exact .inl (.inr (.inr h))
  · exact .inr h

/-- C142, suffix array: if a pattern of the same kind is added later, the earlier one can be left out, whatever is added in between if it begins with a
literal, and if only patterns whose order with it does not matter are added in between if it begins with a parser. -/
theorem C142_suffix_array (sip : Bytes → UInt64) (A B C : List Pattern) (p q : Pattern) (hu : ∀ s ∈ A ++ q :: B ++ p :: C, Utf8Lits s)
    (hcol : NoCollision sip (A ++ q :: B ++ p :: C)) (hk : SameKind p q)
    (hB : (∃ l, q.pattern.head? = some (.literal l)) ∨ ∀ b ∈ B, ¬ SuffixOrderMatters q b) (text : Bytes) (hx : Utf8 text) :
    (SuffixTable.build sip (A ++ q :: B ++ p :: C) >>= fun t => t.parse text) =
      (SuffixTable.build sip (A ++ B ++ p :: C) >>= fun t => t.parse text) := by
  have ht := suffix_without A B C hk hB
  have e1 : A ++ q :: B ++ p :: C = A ++ q :: (B ++ p :: C) := by simp
  have e2 : A ++ B ++ p :: C = A ++ (B ++ p :: C) := by simp
  rw [e1] at hu hcol ht ⊢
  rw [e2] at ht ⊢
  have hpm : p ∈ B ++ p :: C := by simp
  generalize B ++ p :: C = D at *
  obtain ⟨first, rest, rest', hp, hq, hkk⟩ := hk
  have hm : ∀ s ∈ A ++ D, s ∈ A ++ q :: D := Deleted.without_sub
  have hleads : ∀ l, Leads (A ++ q :: D) l ↔ Leads (A ++ D) l := by
    intro l
    constructor
    · rintro ⟨s, hs, e⟩
      rcases List.mem_append.mp hs with g | g
      · exact ⟨s, by simp [g], e⟩
      · rcases List.mem_cons.mp g with rfl | g
        · exact ⟨p, by simp [hpm], by rw [hp]; rw [hq] at e; exact e⟩
        · exact ⟨s, by simp [g], e⟩
    · rintro ⟨s, hs, e⟩
      exact ⟨s, hm s hs, e⟩
  have hchosen : ∀ l, Chosen (A ++ q :: D) text l ↔ Chosen (A ++ D) text l := by
    intro l
    unfold Chosen
    simp only [hleads]
  have h1 : ∀ l, q.pattern = [.literal l] → ∃ s ∈ D, s.pattern = [.literal l] := by
    intro l e
    rw [hq] at e
    simp only [List.cons.injEq] at e
    exact ⟨p, hpm, by rw [hp, e.1, hkk.mpr e.2]⟩
  have h2 : ∀ l, (∃ rest, rest ≠ [] ∧ q.pattern = .literal l :: rest) → ∃ s ∈ D, ∃ rest, rest ≠ [] ∧ s.pattern = .literal l :: rest := by
    rintro l ⟨r, hr, e⟩
    rw [hq] at e
    simp only [List.cons.injEq] at e
    refine ⟨p, hpm, rest, fun g => hr (e.2 ▸ hkk.mp g), by rw [hp, e.1]⟩
  have l1 : ∀ l s, LastWith (A ++ q :: D) (· = [.literal l]) s ↔ LastWith (A ++ D) (· = [.literal l]) s := fun l s => lastWith_without (h1 l)
  have l2 : ∀ l s, LastWith (A ++ q :: D) (fun toks => ∃ rest, rest ≠ [] ∧ toks = .literal l :: rest) s ↔
      LastWith (A ++ D) (fun toks => ∃ rest, rest ≠ [] ∧ toks = .literal l :: rest) s := fun l s => lastWith_without (h2 l)
  refine (outcome_same hu hcol (fun s hs => hu s (hm s hs)) (noCollision_sub hcol hm) hx ?_ ?_).symm
  · intro r ha
    refine ⟨fun hn => ?_, fun l hc => ?_⟩
    · rw [ht]
      exact ha.1 (fun l hl => hn l ((hleads l).mpr hl))
    · obtain ⟨k1, k2⟩ := ha.2 l ((hchosen l).mp hc)
      refine ⟨fun hx => ⟨fun s hs => (k1 hx).1 s ((l1 l s).mp hs), fun hn => (k1 hx).2 fun s hs => hn s (hm s hs)⟩,
        fun hx => ⟨fun s hs => (k2 hx).1 s ((l2 l s).mp hs), fun hn => (k2 hx).2 fun s hs => hn s (hm s hs)⟩⟩
  · unfold SuffixTrouble
    simp only [hleads, hchosen, ht, l2]

namespace Duplicates

def first : Pattern := Samples.pat 1 [.literal b!"a", .parser (Samples.int b!"x")]
def between : Pattern := Samples.pat 2 [.literal b!"ab"]
def again : Pattern := Samples.pat 3 [.literal b!"a", .parser (Samples.int b!"x")]
def other : Pattern := Samples.pat 4 [.literal b!"b", .parser (Samples.int b!"x")]
def lone : Pattern := Samples.pat 5 [.parser (Samples.int b!"y")]

theorem sample_plain {ps : List Pattern} (h : ∀ p ∈ ps, p = first ∨ p = between ∨ p = again ∨ p = other ∨ p = lone) : Plain Samples.sip ps := by
  refine ⟨?_, ?_, ?_, ?_⟩
  · intro p hp l hl
    rcases h p hp with rfl | rfl | rfl | rfl | rfl <;> simp [first, between, again, other, lone, Samples.pat] at hl <;> subst hl <;> decide
  · intro p hp l hl
    rcases h p hp with rfl | rfl | rfl | rfl | rfl <;> simp [first, between, again, other, lone, Samples.pat] at hl <;> subst hl <;> decide
  · intro p hp l rest e l'
    rcases h p hp with rfl | rfl | rfl | rfl | rfl <;> simp [first, between, again, other, lone, Samples.pat] at e <;>
      obtain ⟨_, rfl⟩ := e <;> simp
  · have key : ∀ a, (∃ p ∈ ps, p.pattern.head? = some (.parser a)) → a = Samples.int b!"y" := by
      rintro a ⟨p, hp, e⟩
      rcases h p hp with rfl | rfl | rfl | rfl | rfl <;> simp [first, between, again, other, lone, Samples.pat] at e
      exact e.symm
    intro a b ha hb _
    rw [key a ha, key b hb]

end Duplicates

/-- C142: in a trie the patterns in between count.  Two patterns with the same tokens cannot be taken for one: leaving out the earlier one can lose answers
of the later one. -/
theorem C142_earlier_counts : ¬ ∀ (sip : Bytes → UInt64) (A B C : List Pattern) (p q : Pattern), Plain sip (A ++ q :: B ++ p :: C) → p.pattern = q.pattern →
    ∀ text r, Utf8 text → (SuffixTree.build sip (A ++ q :: B ++ p :: C) >>= fun t => t.parse text) = .ok (some r) →
      (SuffixTree.build sip (A ++ B ++ p :: C) >>= fun t => t.parse text) ≠ .ok none :=
  fun h => h Samples.sip [] [between] [] again first (sample_plain (by simp)) rfl b!"a1" ⟨Samples.pat 3 [], [(b!"x", b!"1")]⟩ (ascii_utf8 (by decide))
    (by decide +kernel) (by decide +kernel)

/-- C142: and adding a pattern with the same tokens again can lose answers of a pattern added in between. -/
theorem C142_later_counts : ¬ ∀ (sip : Bytes → UInt64) (A B C : List Pattern) (p q : Pattern), Plain sip (A ++ q :: B ++ p :: C) → p.pattern = q.pattern →
    ∀ text r, Utf8 text → (SuffixTree.build sip (A ++ q :: B ++ C) >>= fun t => t.parse text) = .ok (some r) →
      (SuffixTree.build sip (A ++ q :: B ++ p :: C) >>= fun t => t.parse text) ≠ .ok none :=
  fun h => h Samples.sip [] [between] [] again first (sample_plain (by simp)) rfl b!"ab" ⟨Samples.pat 2 [], []⟩ (ascii_utf8 (by decide))
    (by decide +kernel) (by decide +kernel)

/-! `other` and `lone` may stand between `first` and `again`; in a suffix array also `between`. -/

example : (SuffixTree.build Samples.sip ([between] ++ first :: [other, lone] ++ again :: [other]) >>= fun t => t.parse b!"b1") =
    (SuffixTree.build Samples.sip ([between] ++ [other, lone] ++ again :: [other]) >>= fun t => t.parse b!"b1") :=
  C142_trie _ _ _ _ _ _ (sample_plain (by simp)) ⟨_, _, _, rfl, rfl, by simp⟩
    (by simp [OrderMatters, first, other, lone, Samples.pat]) _ (ascii_utf8 (by decide))

example : (SuffixTable.build Samples.sip ([other] ++ first :: [between] ++ again :: [lone]) >>= fun t => t.parse b!"a1") =
    (SuffixTable.build Samples.sip ([other] ++ [between] ++ again :: [lone]) >>= fun t => t.parse b!"a1") :=
  have h := sample_plain (ps := [other] ++ first :: [between] ++ again :: [lone]) (by simp)
  C142_suffix_array _ _ _ _ _ _ (fun p hp => asciiLits_utf8 (h.ascii p hp)) h.hashes ⟨_, _, _, rfl, rfl, by simp⟩ (.inl ⟨_, rfl⟩) _
    (ascii_utf8 (by decide))

example : (SuffixTable.build Samples.sip ([other] ++ first :: [between] ++ again :: [lone]) >>= fun t => t.parse b!"a1") =
    .ok (some ⟨Samples.pat 3 [], [(b!"x", b!"1")]⟩) := by decide +kernel

end Verif
