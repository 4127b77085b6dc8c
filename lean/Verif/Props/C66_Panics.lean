import Verif.Props.C65_Table
import Verif.Proofs.TrieAdd
/-! C66: exactly when the trie matcher panics, for patterns with UTF-8 literals and arbitrary UTF-8 texts. -/
namespace Verif
open Spec

/-- C66: for every history of patterns with UTF-8 literals (and any parsers) that could be added, parsing an arbitrary UTF-8 text panics exactly
if the table of the history says so, and otherwise gives the answer of the table. -/
theorem C66_panics_iff (sip : Bytes → UInt64) (ps : List Pattern) (hu : ∀ p ∈ ps, Utf8Lits p) (hne : ∀ p ∈ ps, NonemptyLits p)
    (hsl : ∀ p ∈ ps, SplitLiterals p) (hcol : NoCollision sip ps) (t : SuffixTree) (hb : SuffixTree.build sip ps = .ok t)
    (text : Bytes) (hx : Utf8 text) :
    ((Table.of ps).Panics text → t.parse text = .error .slice) ∧
    (¬(Table.of ps).Panics text → ∃ r, t.parse text = .ok r ∧ (Table.of ps).Answer text r) := by
  obtain ⟨h1, h2, h3⟩ := build_table hu hne hsl hcol hb
  have ho := table_outcome h1 ((build_outcome sip ps hu hne hsl).2 t hb) h2 (fun p hp => hu p (h3 p hp)) (fun p hp => hne p (h3 p hp)) hx
  refine ⟨ho.1, fun hn => ?_⟩
  obtain ⟨r, hr⟩ := ho.2 hn
  exact ⟨r, hr, C65_table sip ps hu hne hsl hcol t hb text hx r hr⟩

/-- C66 for ASCII literals: they can always be added. -/
theorem C66_panics_iff_ascii (sip : Bytes → UInt64) (ps : List Pattern) (hu : ∀ p ∈ ps, AsciiLits p) (hne : ∀ p ∈ ps, NonemptyLits p)
    (hsl : ∀ p ∈ ps, SplitLiterals p) (hcol : NoCollision sip ps) (text : Bytes) (hx : Utf8 text) :
    ((Table.of ps).Panics text → (SuffixTree.build sip ps >>= fun t => t.parse text) = .error .slice) ∧
    (¬(Table.of ps).Panics text → ∃ r, (SuffixTree.build sip ps >>= fun t => t.parse text) = .ok r ∧ (Table.of ps).Answer text r) := by
  obtain ⟨t, hb, _⟩ := build_ascii sip ps hu
  rw [hb]
  exact C66_panics_iff sip ps (fun p hp => asciiLits_utf8 (hu p hp)) hne hsl hcol t hb text hx

/-- C66 for patterns compiled from ASCII pattern strings: no further condition on the patterns is needed. -/
theorem C66_panics_iff_compiled (sip : Bytes → UInt64) (ps : List Pattern) (hc : ∀ p ∈ ps, CompiledAscii p) (hcol : NoCollision sip ps)
    (text : Bytes) (hx : Utf8 text) :
    ((Table.of ps).Panics text → (SuffixTree.build sip ps >>= fun t => t.parse text) = .error .slice) ∧
    (¬(Table.of ps).Panics text → ∃ r, (SuffixTree.build sip ps >>= fun t => t.parse text) = .ok r ∧ (Table.of ps).Answer text r) :=
  C66_panics_iff_ascii sip ps (fun p hp => (compiledAscii_lits (hc p hp)).1) (fun p hp => (compiledAscii_lits (hc p hp)).2.1)
    (fun p hp => (compiledAscii_lits (hc p hp)).2.2) hcol text hx

/-! Two consequences that do not mention the table. -/

theorem addLiteralLed_text {rows : List Row} {l : Bytes} {alone : Bool} {p : Pattern} {r : Row} (h : r ∈ addLiteralLed rows l alone p) :
    r.text = l ∨ r ∈ rows := by
  have ht := rowOf_text rows l
  unfold addLiteralLed at h
  split at h
  · rw [List.mem_cons, List.mem_filter] at h
    rcases h with rfl | h
    · exact .inl ht
    · exact .inr h.1
  · split at h
    · rw [List.mem_cons, List.mem_filter] at h
      rcases h with rfl | h
      · exact .inl ht
      · exact .inr h.1
    · rw [List.mem_cons, List.mem_filter] at h
      rcases h with rfl | h
      · exact .inl ht
      · exact .inr h.1

theorem table_texts (ps : List Pattern) : ∀ r ∈ (Table.of ps).rows, ∃ p ∈ ps, p.pattern.head? = some (.literal r.text) := by
  suffices ∀ (ps : List Pattern) (T : Table), ∀ r ∈ (ps.foldl Table.add T).rows,
      (∃ p ∈ ps, p.pattern.head? = some (.literal r.text)) ∨ r ∈ T.rows by
    intro r hr
    rcases this ps ⟨[], []⟩ r hr with h | h
    · exact h
    · simp at h
  intro ps
  induction ps with
  | nil => intro T r hr; exact .inr hr
  | cons p ps ih =>
    intro T r hr
    rcases ih (T.add p) r hr with ⟨q, hq, h⟩ | h
    · exact .inl ⟨q, by simp [hq], h⟩
    · unfold Table.add at h
      split at h
      · exact .inr h
      · rename_i l rest hp
        rcases addLiteralLed_text h with h | h
        · exact .inl ⟨p, by simp, by rw [hp, h]; rfl⟩
        · exact .inr h
      · exact .inr h

theorem table_rows_ne {ps : List Pattern} (h : ∃ p ∈ ps, ∃ l, p.pattern.head? = some (.literal l)) : (Table.of ps).rows ≠ [] := by
  suffices ∀ (ps : List Pattern) (T : Table), (T.rows ≠ [] ∨ ∃ p ∈ ps, ∃ l, p.pattern.head? = some (.literal l)) →
      (ps.foldl Table.add T).rows ≠ [] from this ps _ (.inr h)
  intro ps
  induction ps with
  | nil => rintro T (h | ⟨p, hp, _⟩) <;> simp_all
  | cons p ps ih =>
    intro T h
    apply ih (T.add p)
    have led : ∀ l rest, p.pattern = .literal l :: rest → (T.add p).rows ≠ [] := by
      intro l rest hp
      unfold Table.add
      rw [hp]
      simp only [addLiteralLed]
      split
      · simp
      · split <;> simp
    rcases h with h | ⟨q, hq, l, h⟩
    · left
      cases hp : p.pattern with
      | nil => unfold Table.add; rw [hp]; exact h
      | cons tok rest =>
        cases tok with
        | literal l => exact led l rest hp
        | parser a => unfold Table.add; rw [hp]; exact h
    · rcases List.mem_cons.mp hq with rfl | hq
      · left
        cases hp : q.pattern with
        | nil => rw [hp] at h; simp at h
        | cons tok rest =>
          rw [hp] at h; simp at h; subst h
          exact led l rest hp
      · exact .inr ⟨q, hq, l, h⟩

/-- C66, consequence: as soon as one pattern that begins with a literal was added, every text that begins with a character outside ASCII
makes the matcher panic. -/
theorem C66_nonascii_start_panics (sip : Bytes → UInt64) (ps : List Pattern) (hu : ∀ p ∈ ps, Utf8Lits p) (hne : ∀ p ∈ ps, NonemptyLits p)
    (hsl : ∀ p ∈ ps, SplitLiterals p) (hcol : NoCollision sip ps) (hlit : ∃ p ∈ ps, ∃ l, p.pattern.head? = some (.literal l))
    (t : SuffixTree) (hb : SuffixTree.build sip ps = .ok t) (text : Bytes) (hx : Utf8 text) (hf : NonAsciiFirst text) :
    t.parse text = .error .slice := by
  apply (C66_panics_iff sip ps hu hne hsl hcol t hb text hx).1
  obtain ⟨r, hr⟩ := List.exists_mem_of_ne_nil _ (table_rows_ne hlit)
  obtain ⟨p, hp, h⟩ := table_texts ps r hr
  exact .inl ⟨[], text, rfl, nonAsciiFirst_ne hf, .inl rfl, ⟨r, hr, List.nil_prefix, hne p hp _ (List.mem_of_mem_head? h)⟩, .inl hf⟩

/-- C66, consequence: while a pattern that begins with a character outside ASCII is in the table, every text but the empty one makes the matcher
panic. -/
theorem C66_nonascii_literal_panics (sip : Bytes → UInt64) (ps : List Pattern) (hu : ∀ p ∈ ps, Utf8Lits p) (hne : ∀ p ∈ ps, NonemptyLits p)
    (hsl : ∀ p ∈ ps, SplitLiterals p) (hcol : NoCollision sip ps) (r : Row) (hr : r ∈ (Table.of ps).rows) (hf : NonAsciiFirst r.text)
    (t : SuffixTree) (hb : SuffixTree.build sip ps = .ok t) (text : Bytes) (hx : Utf8 text) (h0 : text ≠ []) : t.parse text = .error .slice := by
  apply (C66_panics_iff sip ps hu hne hsl hcol t hb text hx).1
  exact .inl ⟨[], text, rfl, h0, .inl rfl, ⟨r, hr, List.nil_prefix, nonAsciiFirst_ne hf⟩, .inr ⟨r, hr, r.text, rfl, hf⟩⟩

theorem runsInto_noLiterals {toks : List Token} (h : ∀ l, Token.literal l ∉ toks) (ha : ∀ a v x, Token.parser a ∈ toks → ParserMatch a x v → Utf8 x → Utf8 v)
    {x : Bytes} (hx : Utf8 x) : ¬RunsInto toks x := by
  intro hr
  induction hr with
  | here l toks x _ _ => exact h l (by simp)
  | cut a toks v x hm hv => exact hv (ha a v x (by simp) hm hx)
  | literal l toks x _ _ => exact h l (by simp)
  | parser a toks v x hm _ ih =>
    exact ih (fun l hl => h l (by simp [hl])) (fun a v x hh => ha a v x (by simp [hh])) (utf8_cancel (ha a v _ (by simp) hm hx) hx)

theorem parserMatch_utf8 {a : Parser} {x v : Bytes} (h : ParserMatch a x v) (ha : AsciiParser a) (hu : Utf8Parser a) (hx : Utf8 x) : Utf8 v := by
  have hb := parserMatch_boundary h ha hu hx
  have := (boundary_split hx hb).1
  obtain ⟨y, rfl⟩ := parserMatch_prefix h
  simpa using this

/-- C66, consequence: patterns without literals never panic, if their SETs contain only ASCII characters. -/
theorem C66_no_literals_no_panic (sip : Bytes → UInt64) (ps : List Pattern) (hl : ∀ p ∈ ps, ∀ l, Token.literal l ∉ p.pattern)
    (ha : ∀ p ∈ ps, ∀ a, Token.parser a ∈ p.pattern → AsciiParser a ∧ Utf8Parser a) (hcol : NoCollision sip ps) (text : Bytes) (hx : Utf8 text) :
    ∃ r, (SuffixTree.build sip ps >>= fun t => t.parse text) = .ok r := by
  have hu : ∀ p ∈ ps, AsciiLits p := fun p hp l h => absurd h (hl p hp l)
  have hne : ∀ p ∈ ps, NonemptyLits p := fun p hp l h => absurd h (hl p hp l)
  have hsl : ∀ p ∈ ps, SplitLiterals p := fun p hp l rest h => absurd (by rw [h]; simp) (hl p hp l)
  have hrows : (Table.of ps).rows = [] := by
    cases h : (Table.of ps).rows with
    | nil => rfl
    | cons r rows =>
      obtain ⟨p, hp, h1⟩ := table_texts ps r (by rw [h]; simp)
      exact absurd (List.mem_of_mem_head? h1) (hl p hp _)
  obtain ⟨t, hb, _⟩ := build_ascii sip ps hu
  have hled := (build_table (fun p hp => asciiLits_utf8 (hu p hp)) hne hsl hcol hb).2.2
  obtain ⟨r, h, _⟩ := (C66_panics_iff_ascii sip ps hu hne hsl hcol text hx).2 (by
    rintro (⟨_, _, _, _, _, ⟨r, hr, _⟩, _⟩ | ⟨_, b, _, (⟨_, A, p, B, he, _, hp⟩ | ⟨_, r, hr, _⟩)⟩)
    · rw [hrows] at hr; simp at hr
    · have hp' := hled p (by rw [he]; simp)
      refine runsInto_noLiterals (hl p hp') ?_ hx hp
      intro a v x h1 h2 h3
      exact parserMatch_utf8 h2 (ha p hp' a h1).1 (ha p hp' a h1).2 h3
    · rw [hrows] at hr; simp at hr)
  exact ⟨r, h⟩

/-! Cases meeting the hypotheses: the sample table of C65. `apé` panics because `app` and `apricot` go on after `ap`, `appé` does not because
nothing goes on after `app` but an INT. -/

example : (SuffixTree.build Samples.sip tableSample >>= fun t => t.parse (b!"ap" ++ [0xC3, 0xA9])) = .error .slice ∧
    (SuffixTree.build Samples.sip tableSample >>= fun t => t.parse (b!"app" ++ [0xC3, 0xA9])) = .ok none ∧
    (SuffixTree.build Samples.sip tableSample >>= fun t => t.parse (b!"x" ++ [0xC3, 0xA9])) =
      .ok (some { pattern := Samples.pat 9 [], values := [(b!"g", b!"x" ++ [0xC3, 0xA9])] }) := by decide +kernel

example (t : SuffixTree) (hb : SuffixTree.build Samples.sip tableSample = .ok t) : t.parse [0xC3, 0xA9] = .error .slice :=
  C66_nonascii_start_panics _ _ (fun p hp => asciiLits_utf8 (tableSample_ok.1 p hp)) tableSample_ok.2.1 tableSample_ok.2.2 tableSample_hashes
    ⟨_, List.mem_cons_self .., b!"app", rfl⟩ t hb _ ⟨['é'], by decide⟩ ⟨0xC3, [0xA9], rfl, by decide⟩

/-- Literals outside ASCII: `aé` and `%{INT:x}é`. -/
def accentSample : List Pattern :=
  [Samples.pat 1 [.literal b!"aé"], Samples.pat 2 [.parser (Samples.int b!"x"), .literal b!"é"]]

example : (SuffixTree.build Samples.sip accentSample >>= fun t => t.parse b!"aé") = .ok (some ⟨Samples.pat 1 [], []⟩) ∧
    (SuffixTree.build Samples.sip accentSample >>= fun t => t.parse b!"ab") = .ok none ∧
    (SuffixTree.build Samples.sip accentSample >>= fun t => t.parse b!"5é") = .error .slice ∧
    (SuffixTree.build Samples.sip accentSample >>= fun t => t.parse b!"5x") = .error .slice ∧
    (SuffixTree.build Samples.sip accentSample >>= fun t => t.parse b!"5") = .ok none ∧
    (SuffixTree.build Samples.sip accentSample >>= fun t => t.parse b!"é") = .error .slice := by decide +kernel

end Verif
