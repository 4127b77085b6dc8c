import Verif.Props.C77_C78_FileToAnswer
/-! C96: exactly when adding a pattern to the trie matcher panics. -/
namespace Verif
open Spec

/-- C96: for every history of patterns with UTF-8 literals that could be added, adding one more panics exactly if the table of the history says so. -/
theorem C96_add_panics_iff (sip : Bytes → UInt64) (ps : List Pattern) (p : Pattern) (hu : ∀ q ∈ ps ++ [p], Utf8Lits q)
    (hne : ∀ q ∈ ps ++ [p], NonemptyLits q) (hsl : ∀ q ∈ ps ++ [p], SplitLiterals q) (t : SuffixTree) (hb : SuffixTree.build sip ps = .ok t) :
    ((Table.of ps).AddPanics p → t.addPattern sip p = .error .slice) ∧ (¬(Table.of ps).AddPanics p → ∃ t', t.addPattern sip p = .ok t') := by
  have h1 := (build_outcome sip (ps ++ [p]) hu hne hsl).1
  have h2 := (build_outcome sip ps (fun q hq => hu q (by simp [hq])) (fun q hq => hne q (by simp [hq])) (fun q hq => hsl q (by simp [hq]))).1
  have hbuild : SuffixTree.build sip (ps ++ [p]) = t.addPattern sip p := by
    unfold SuffixTree.build at hb ⊢
    rw [List.foldlM_append, hb]
    simp [bind, Except.bind, pure, Except.pure]
    cases t.addPattern sip p <;> rfl
  have hno : ¬∃ A q B, ps = A ++ q :: B ∧ (Table.of A).AddPanics q := by
    intro h
    have := h2.1 h
    rw [hb] at this; simp at this
  rw [hbuild] at h1
  have hiff : (∃ A q B, ps ++ [p] = A ++ q :: B ∧ (Table.of A).AddPanics q) ↔ (Table.of ps).AddPanics p := by
    constructor
    · rintro ⟨A, q, B, he, h⟩
      rcases List.eq_nil_or_concat B with rfl | ⟨B', b, rfl⟩
      · have := List.append_inj' he rfl
        simp at this
        rw [this.1, this.2]; exact h
      · exfalso
        have he : ps ++ [p] = (A ++ q :: B') ++ [b] := by simpa using he
        have := List.append_inj' he rfl
        exact hno ⟨A, q, B', this.1, h⟩
    · intro h; exact ⟨ps, p, [], rfl, h⟩
  rw [hiff] at h1
  exact h1

/-- C96 for a whole history: it panics exactly if one of the additions does. -/
theorem C96_build_panics_iff (sip : Bytes → UInt64) (ps : List Pattern) (hu : ∀ p ∈ ps, Utf8Lits p) (hne : ∀ p ∈ ps, NonemptyLits p)
    (hsl : ∀ p ∈ ps, SplitLiterals p) :
    ((∃ A p B, ps = A ++ p :: B ∧ (Table.of A).AddPanics p) → SuffixTree.build sip ps = .error .slice) ∧
    ((∀ A p B, ps = A ++ p :: B → ¬(Table.of A).AddPanics p) → ∃ t, SuffixTree.build sip ps = .ok t) := by
  have h := (build_outcome sip ps hu hne hsl).1
  refine ⟨h.1, fun hn => h.2 ?_⟩
  rintro ⟨A, p, B, he, h1⟩
  exact hn A p B he h1

/-- C96 for patterns compiled from pattern strings: no further condition on the patterns is needed. -/
theorem C96_build_panics_iff_compiled (sip : Bytes → UInt64) (ps : List Pattern) (hc : ∀ p ∈ ps, CompiledUtf8 p) :
    ((∃ A p B, ps = A ++ p :: B ∧ (Table.of A).AddPanics p) → SuffixTree.build sip ps = .error .slice) ∧
    ((∀ A p B, ps = A ++ p :: B → ¬(Table.of A).AddPanics p) → ∃ t, SuffixTree.build sip ps = .ok t) :=
  C96_build_panics_iff sip ps (fun p hp => (compiledUtf8_lits (hc p hp)).1) (fun p hp => (compiledUtf8_lits (hc p hp)).2.1)
    (fun p hp => (compiledUtf8_lits (hc p hp)).2.2)

/-! Consequences that do not mention the table. -/

theorem addLiteralLed_has (rows : List Row) (l : Bytes) (alone : Bool) (p : Pattern) : ∃ r ∈ addLiteralLed rows l alone p, r.text = l := by
  have ht := rowOf_text rows l
  unfold addLiteralLed
  split
  · exact ⟨_, List.mem_cons_self .., ht⟩
  · split
    · exact ⟨_, List.mem_cons_self .., ht⟩
    · exact ⟨_, List.mem_cons_self .., ht⟩

/-- The pattern begins with a literal. -/
def LiteralLed (p : Pattern) : Prop := ∃ l, p.pattern.head? = some (.literal l)

/-- The pattern begins with a literal that begins with a character outside ASCII. -/
def NonAsciiLed (p : Pattern) : Prop := ∃ l, p.pattern.head? = some (.literal l) ∧ NonAsciiFirst l

theorem nonAsciiLed_literalLed {p : Pattern} (h : NonAsciiLed p) : LiteralLed p := by obtain ⟨l, h, _⟩ := h; exact ⟨l, h⟩

theorem head_literal {p : Pattern} {l : Bytes} (h : p.pattern.head? = some (.literal l)) : ∃ rest, p.pattern = .literal l :: rest := by
  cases hp : p.pattern with
  | nil => rw [hp] at h; simp at h
  | cons tok rest => rw [hp] at h; simp at h; exact ⟨rest, by rw [h]⟩

/-- C96, consequence: as soon as two patterns begin with literals and one of these begins with a character outside ASCII, they cannot both be
added, whatever their order and whatever else is added before, between and after. -/
theorem C96_nonascii_literal_excludes_others (sip : Bytes → UInt64) (A B C : List Pattern) (p q : Pattern)
    (hu : ∀ s ∈ A ++ p :: B ++ q :: C, Utf8Lits s) (hne : ∀ s ∈ A ++ p :: B ++ q :: C, NonemptyLits s)
    (hsl : ∀ s ∈ A ++ p :: B ++ q :: C, SplitLiterals s) (hp : LiteralLed p) (hq : LiteralLed q) (hf : NonAsciiLed p ∨ NonAsciiLed q) :
    SuffixTree.build sip (A ++ p :: B ++ q :: C) = .error .slice := by
  have hrowne : ∀ D : List Pattern, (∀ s ∈ D, NonemptyLits s) → ∀ r ∈ (Table.of D).rows, r.text ≠ [] := by
    intro D hD r hr
    obtain ⟨s, hs, h⟩ := table_texts D r hr
    exact hD s hs _ (List.mem_of_mem_head? h)
  rcases hf with hf | hf
  · -- the next pattern with a literal at its start after `p` cannot be added
    obtain ⟨l, hl, hnl⟩ := hf
    obtain ⟨rest, hl⟩ := head_literal hl
    suffices ∀ (B : List Pattern) (A' : List Pattern), (∀ s ∈ A', NonemptyLits s) → (∃ r ∈ (Table.of A').rows, r.text = l) →
        (∀ s ∈ B, NonemptyLits s) → ∃ B1 s B2, B ++ q :: C = B1 ++ s :: B2 ∧ (Table.of (A' ++ B1)).AddPanics s by
      obtain ⟨B1, s, B2, he, h⟩ := this B (A ++ [p]) (fun s hs => hne s (by simp at hs ⊢; rcases hs with h | h <;> simp [h]))
        (by
          have : (Table.of (A ++ [p])) = (Table.of A).add p := by simp [Table.of]
          rw [this]
          unfold Table.add
          rw [hl]
          exact addLiteralLed_has _ _ _ _)
        (fun s hs => hne s (by simp [hs]))
      refine (C96_build_panics_iff sip _ hu hne hsl).1 ⟨A ++ [p] ++ B1, s, B2, ?_, h⟩
      have : A ++ p :: B ++ q :: C = A ++ [p] ++ (B ++ q :: C) := by simp
      rw [this, he]; simp
    intro B
    have stop : ∀ (A' : List Pattern) (s : Pattern), (∃ r ∈ (Table.of A').rows, r.text = l) → LiteralLed s → NonemptyLits s →
        (Table.of A').AddPanics s := by
      rintro A' s ⟨r, hr, he⟩ ⟨m, hm⟩ hs
      have hm0 := hs m (List.mem_of_mem_head? hm)
      obtain ⟨rest', hm⟩ := head_literal hm
      exact ⟨m, rest', hm, .inl ⟨[], m, rfl, hm0, .inl rfl, ⟨r, hr, List.nil_prefix, by rw [he]; exact nonAsciiFirst_ne hnl⟩,
        .inr ⟨r, hr, l, by simpa using he, hnl⟩⟩⟩
    induction B with
    | nil =>
      intro A' _ hr _
      exact ⟨[], q, C, rfl, by simpa using stop A' q hr hq (hne q (by simp))⟩
    | cons b B ih =>
      intro A' hA' hr hB
      by_cases hb : LiteralLed b
      · exact ⟨[], b, B ++ q :: C, rfl, by simpa using stop A' b hr hb (hB b (by simp))⟩
      · obtain ⟨B1, s, B2, he, h⟩ := ih (A' ++ [b])
          (fun s hs => by simp at hs; rcases hs with h | rfl; exact hA' s h; exact hB s (by simp))
          (by
            have : (Table.of (A' ++ [b])) = (Table.of A').add b := by simp [Table.of]
            rw [this]
            have : ((Table.of A').add b).rows = (Table.of A').rows := by
              unfold Table.add
              split
              · rfl
              · rename_i m rest' hm
                exact absurd ⟨m, by rw [hm]; rfl⟩ hb
              · rfl
            rw [this]; exact hr)
          (fun s hs => hB s (by simp [hs]))
        exact ⟨b :: B1, s, B2, by rw [List.cons_append, he]; rfl, by simpa using h⟩
  · -- `q` cannot be added to a table that has a row
    obtain ⟨l, hl, hnl⟩ := hf
    obtain ⟨rest, hl⟩ := head_literal hl
    have hD : ∀ s ∈ A ++ p :: B, NonemptyLits s := fun s hs => hne s (by simp at hs ⊢; rcases hs with h | h | h <;> simp [h])
    obtain ⟨r, hr⟩ := List.exists_mem_of_ne_nil _ (table_rows_ne (ps := A ++ p :: B) ⟨p, by simp, hp⟩)
    refine (C96_build_panics_iff sip _ hu hne hsl).1 ⟨A ++ p :: B, q, C, rfl, l, rest, hl, .inl ⟨[], l, rfl, nonAsciiFirst_ne hnl, .inl rfl,
      ⟨r, hr, List.nil_prefix, hrowne _ hD r hr⟩, .inl hnl⟩⟩

/-- C96, consequence: patterns of which at most one begins with a literal can always be added. -/
theorem C96_one_literal_never_panics (sip : Bytes → UInt64) (A B : List Pattern) (p : Pattern)
    (hu : ∀ s ∈ A ++ p :: B, Utf8Lits s) (hne : ∀ s ∈ A ++ p :: B, NonemptyLits s) (hsl : ∀ s ∈ A ++ p :: B, SplitLiterals s)
    (hA : ∀ s ∈ A, ¬LiteralLed s) (hB : ∀ s ∈ B, ¬LiteralLed s) : ∃ t, SuffixTree.build sip (A ++ p :: B) = .ok t := by
  apply (C96_build_panics_iff sip _ hu hne hsl).2
  rintro D s E he ⟨l, rest, hl, h⟩
  have hs : LiteralLed s := ⟨l, by rw [hl]; rfl⟩
  have hnone : ∀ s' ∈ D, ¬LiteralLed s' := by
    rw [List.append_eq_append_iff] at he
    rcases he with ⟨c, rfl, hc⟩ | ⟨c, rfl, hc⟩
    · cases c with
      | nil => simpa using hA
      | cons c cs =>
        simp at hc
        exfalso
        exact hB s (by rw [hc.2]; simp) hs
    · intro s' hs'
      exact hA s' (by simp [hs'])
  have hrows : (Table.of D).rows = [] := by
    cases h : (Table.of D).rows with
    | nil => rfl
    | cons r rows =>
      obtain ⟨s', hs', h1⟩ := table_texts D r (by rw [h]; simp)
      exact absurd ⟨_, h1⟩ (hnone s' hs')
  rw [hrows] at h
  rcases h with ⟨_, _, _, _, _, ⟨r, hr, _⟩, _⟩ | ⟨r, hr, _⟩
  · simp at hr
  · simp at hr

/-! Cases meeting the hypotheses: `aé` cannot be added after `a`, but `a` can be added after `aé`, and `aé` after `a%{INT:x}`. -/

def addSample (l : Bytes) : Pattern := Samples.pat l.length [.literal l]

theorem addSample_ok {l : Bytes} (hl : Utf8 l) (h : l ≠ []) :
    Utf8Lits (addSample l) ∧ NonemptyLits (addSample l) ∧ SplitLiterals (addSample l) := by
  refine ⟨?_, ?_, ?_⟩
  · intro m hm; simp [addSample, Samples.pat] at hm; subst hm; exact hl
  · intro m hm; simp [addSample, Samples.pat] at hm; subst hm; exact h
  · intro m rest hm m'; simp [addSample, Samples.pat] at hm; rw [hm.2]; simp

/-- The second pattern cannot be added: the hypotheses of `C96_add_panics_iff` hold and so does `AddPanics`. -/
example (t : SuffixTree) (hb : SuffixTree.build Samples.sip [addSample b!"a"] = .ok t) : t.addPattern Samples.sip (addSample b!"aé") = .error .slice := by
  have h1 := addSample_ok (l := b!"a") ⟨['a'], by decide⟩ (by decide)
  have h2 := addSample_ok (l := b!"aé") ⟨['a', 'é'], by decide⟩ (by decide)
  refine (C96_add_panics_iff Samples.sip [addSample b!"a"] (addSample b!"aé")
    (by intro q hq; simp at hq; rcases hq with rfl | rfl; exact h1.1; exact h2.1)
    (by intro q hq; simp at hq; rcases hq with rfl | rfl; exact h1.2.1; exact h2.2.1)
    (by intro q hq; simp at hq; rcases hq with rfl | rfl; exact h1.2.2; exact h2.2.2) t hb).1 ?_
  refine ⟨b!"aé", [], rfl, .inr ⟨⟨b!"a", some (addSample b!"a"), none⟩, by decide, b!"a", b!"é", by decide, by decide, ⟨⟨['a'], by decide⟩, by decide,
    by decide, ?_⟩, ?_, .inl ⟨0xC3, [0xA9], rfl, by decide⟩⟩⟩
  · intro c' _ h _; exact h.length_le
  · rintro (h | ⟨r, hr, _, h⟩ | ⟨r, hr, s, hs, h, _⟩)
    · simp at h
    · have : r = ⟨b!"a", some (addSample b!"a"), none⟩ := by simpa [Table.of, Table.add, addLiteralLed, rowOf, addSample, Samples.pat] using hr
      rw [this] at h; exact h rfl
    · have e1 : r = ⟨b!"a", some (addSample b!"a"), none⟩ := by simpa [Table.of, Table.add, addLiteralLed, rowOf, addSample, Samples.pat] using hr
      have e2 : s = ⟨b!"a", some (addSample b!"a"), none⟩ := by simpa [Table.of, Table.add, addLiteralLed, rowOf, addSample, Samples.pat] using hs
      rw [e1, e2] at h; exact h rfl

example : (SuffixTree.build Samples.sip [addSample b!"a", addSample b!"aé"]).map (fun _ => ()) = .error .slice ∧
    (SuffixTree.build Samples.sip [addSample b!"aé", addSample b!"a"] >>= fun t => t.parse b!"a") = .ok (some ⟨Samples.pat 1 [], []⟩) ∧
    (SuffixTree.build Samples.sip [Samples.pat 9 [.literal b!"a", .parser (Samples.int b!"x")], addSample b!"aé"] >>= fun t => t.parse b!"b") =
      .ok none ∧
    (SuffixTree.build Samples.sip [addSample b!"aé", addSample b!"aè"]).map (fun _ => ()) = .error .slice ∧
    (SuffixTree.build Samples.sip [addSample b!"x", addSample b!"é"]).map (fun _ => ()) = .error .slice ∧
    (SuffixTree.build Samples.sip [addSample b!"é", addSample b!"x"]).map (fun _ => ()) = .error .slice := by decide +kernel

end Verif
