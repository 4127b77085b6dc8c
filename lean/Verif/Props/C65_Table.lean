import Verif.Proofs.TriePanic
import Verif.Props.C52_EndToEnd
/-! C65: the answers of the trie matcher for every history, described by a table of leading literals. -/
namespace Verif
open Spec

/-- C65: for every history of additions, the trie answers every text as the table of the history does (all UTF-8 histories; unless `parse`
panics). -/
theorem C65_table (sip : Bytes → UInt64) (ps : List Pattern) (hu : ∀ p ∈ ps, Utf8Lits p) (hne : ∀ p ∈ ps, NonemptyLits p)
    (hsl : ∀ p ∈ ps, SplitLiterals p) (hcol : NoCollision sip ps) (t : SuffixTree) (hb : SuffixTree.build sip ps = .ok t) (text : Bytes)
    (hx : Utf8 text) (r : Option MatchResult) (hr : t.parse text = .ok r) : (Table.of ps).Answer text r := by
  obtain ⟨h1, h2, h3⟩ := build_table hu hne hsl hcol hb
  exact table_answer h1 h2 (fun p hp => hu p (h3 p hp)) (fun p hp => hne p (h3 p hp)) hx hr

/-- C65 for ASCII histories and texts, where nothing panics. -/
theorem C65_table_ascii (sip : Bytes → UInt64) (ps : List Pattern) (hu : ∀ p ∈ ps, AsciiLits p) (hne : ∀ p ∈ ps, NonemptyLits p)
    (hsl : ∀ p ∈ ps, SplitLiterals p) (hcol : NoCollision sip ps) (text : Bytes) (hx : Ascii text) :
    ∃ r, (SuffixTree.build sip ps >>= fun t => t.parse text) = .ok r ∧ (Table.of ps).Answer text r := by
  obtain ⟨t, r, h1, h2, h3⟩ := build_run_ascii (sip := sip) hu hx
  exact ⟨r, h3, C65_table sip ps (fun q hq => asciiLits_utf8 (hu q hq)) hne hsl hcol t h1 text (ascii_utf8 hx) r h2⟩

/-- The tokens of each pattern were compiled from an ASCII pattern string. -/
def CompiledAscii (p : Pattern) : Prop := ∃ s, Ascii s ∧ compile s = .ok (.ok p.pattern)

theorem compiledAscii_lits {p : Pattern} (h : CompiledAscii p) : AsciiLits p ∧ NonemptyLits p ∧ SplitLiterals p := by
  obtain ⟨s, hs, hc⟩ := h
  obtain ⟨_, h2, h3, _⟩ := C34_shape s (ascii_utf8 hs) _ hc
  refine ⟨compiled_ascii hs hc, (by intro l hl e; subst e; exact h2 hl), ?_⟩
  intro l rest e l' he
  cases rest with
  | nil => simp at he
  | cons tok rest =>
    simp at he
    subst he
    exact h3 [] l l' rest (by simpa using e)

/-- C65 for patterns compiled from ASCII pattern strings: no further condition on the patterns is needed. -/
theorem C65_table_compiled (sip : Bytes → UInt64) (ps : List Pattern) (hc : ∀ p ∈ ps, CompiledAscii p) (hcol : NoCollision sip ps)
    (text : Bytes) (hx : Ascii text) :
    ∃ r, (SuffixTree.build sip ps >>= fun t => t.parse text) = .ok r ∧ (Table.of ps).Answer text r :=
  C65_table_ascii sip ps (fun p hp => (compiledAscii_lits (hc p hp)).1) (fun p hp => (compiledAscii_lits (hc p hp)).2.1)
    (fun p hp => (compiledAscii_lits (hc p hp)).2.2) hcol text hx

/-! The table determines the answer. -/

theorem firstAnswer_unique {ps : List Pattern} {x : Bytes} {r r' : Option MatchResult} (h : FirstAnswer ps x r) (h' : FirstAnswer ps x r') :
    r = r' := by
  by_cases hc : ∀ p ∈ ps, ¬∃ caps, MatchesStrict p.pattern x caps
  · rw [h.2 hc, h'.2 hc]
  · have : ∃ A p B caps, ps = A ++ p :: B ∧ (∀ a ∈ A, ¬∃ caps, MatchesStrict a.pattern x caps) ∧ MatchesStrict p.pattern x caps := by
      clear h h'
      induction ps with
      | nil => simp at hc
      | cons q ps ih =>
        by_cases hq : ∃ caps, MatchesStrict q.pattern x caps
        · obtain ⟨caps, hq⟩ := hq
          exact ⟨[], q, ps, caps, rfl, by simp, hq⟩
        · obtain ⟨A, p, B, caps, h1, h2, h3⟩ := ih (fun h => hc (by
            intro p hp
            rcases List.mem_cons.mp hp with rfl | hp
            · exact hq
            · exact h p hp))
          refine ⟨q :: A, p, B, caps, by simp [h1], ?_, h3⟩
          intro a ha
          rcases List.mem_cons.mp ha with rfl | ha
          · exact hq
          · exact h2 a ha
    obtain ⟨A, p, B, caps, h1, h2, h3⟩ := this
    obtain ⟨res, e, hr⟩ := h.1 A p B caps h1 h2 h3
    obtain ⟨res', e', hr'⟩ := h'.1 A p B caps h1 h2 h3
    rw [e, e', isResult_unique hr hr']

/-- C65: the table leaves no choice: it has at most one answer for each text. -/
theorem C65_answer_unique (T : Table) (text : Bytes) (r r' : Option MatchResult) (h : T.Answer text r) (h' : T.Answer text r') : r = r' := by
  by_cases hrow : ∃ row ∈ T.rows, row.text = text
  · obtain ⟨row, h1, h2⟩ := hrow
    rw [h.1 row h1 h2, h'.1 row h1 h2]
  · have hno : ∀ row ∈ T.rows, row.text ≠ text := fun row h1 h2 => hrow ⟨row, h1, h2⟩
    obtain ⟨b, d, p1, p2, p3⟩ := h.2 hno
    obtain ⟨b', d', q1, q2, q3⟩ := h'.2 hno
    have := deepest_unique d d'
    subst this
    by_cases hb : b = []
    · exact firstAnswer_unique (p1 hb) (q1 hb)
    · by_cases hm : ∃ row ∈ T.rows, row.text = b ∧ row.more ≠ none
      · obtain ⟨row, h1, h2, h3⟩ := hm
        cases hp : row.more with
        | none => exact absurd hp h3
        | some p => exact firstAnswer_unique (p2 hb row h1 h2 p hp) (q2 hb row h1 h2 p hp)
      · have hn : ∀ row ∈ T.rows, row.text = b → row.more = none := by
          intro row h1 h2
          cases hp : row.more with
          | none => rfl
          | some p => exact absurd ⟨row, h1, h2, by simp [hp]⟩ hm
        rw [p3 hb hn, q3 hb hn]

/-- C65, consequence: two histories with the same table give matchers with the same answers. -/
theorem C65_same_table (sip : Bytes → UInt64) (ps qs : List Pattern) (hu : ∀ p ∈ ps ++ qs, AsciiLits p) (hne : ∀ p ∈ ps ++ qs, NonemptyLits p)
    (hsl : ∀ p ∈ ps ++ qs, SplitLiterals p) (hcol : NoCollision sip (ps ++ qs)) (h : Table.of ps = Table.of qs) (text : Bytes) (hx : Ascii text) :
    (SuffixTree.build sip ps >>= fun t => t.parse text) = (SuffixTree.build sip qs >>= fun t => t.parse text) := by
  have hc : ∀ l : List Pattern, (∀ p ∈ l, p ∈ ps ++ qs) → NoCollision sip l := by
    rintro l hl a b ⟨p, hp, e⟩ ⟨q, hq, e'⟩
    exact hcol a b ⟨p, hl p hp, e⟩ ⟨q, hl q hq, e'⟩
  have hps : ∀ p ∈ ps, p ∈ ps ++ qs := fun p hp => by simp [hp]
  have hqs : ∀ p ∈ qs, p ∈ ps ++ qs := fun p hp => by simp [hp]
  obtain ⟨r, h1, h2⟩ := C65_table_ascii sip ps (fun p hp => hu p (hps p hp)) (fun p hp => hne p (hps p hp)) (fun p hp => hsl p (hps p hp))
    (hc _ hps) text hx
  obtain ⟨r', h1', h2'⟩ := C65_table_ascii sip qs (fun p hp => hu p (hqs p hp)) (fun p hp => hne p (hqs p hp)) (fun p hp => hsl p (hqs p hp))
    (hc _ hqs) text hx
  rw [h1, h1', C65_answer_unique _ text r r' h2 (h ▸ h2')]

/-! A history meeting the hypotheses, and its table: the second `app…` pattern replaces the first one and removes `apple`, the addition to `ap`
is lost because there are longer texts, and the lone `%{INT}` does not replace the longer pattern. -/

def tableSample : List Pattern :=
  [Samples.pat 1 [.literal b!"app", .parser (Samples.int b!"i"), .literal b!"x"], Samples.pat 2 [.literal b!"apple"],
   Samples.pat 3 [.literal b!"app", .parser (Samples.int b!"j")], Samples.pat 4 [.literal b!"ap", .parser (Samples.int b!"k")],
   Samples.pat 5 [.literal b!"apricot"], Samples.pat 6 [.parser (Samples.int b!"i"), .literal b!"!"], Samples.pat 7 [.parser (Samples.int b!"i")],
   Samples.pat 8 [.literal b!"app"], Samples.pat 9 [.parser (Samples.greedy b!"g" none)]]

example : Table.of tableSample =
    ⟨[⟨b!"app", some (Samples.pat 8 [.literal b!"app"]), some (Samples.pat 3 [.literal b!"app", .parser (Samples.int b!"j")])⟩,
      ⟨b!"apricot", some (Samples.pat 5 [.literal b!"apricot"]), none⟩, ⟨b!"ap", none, none⟩],
     [Samples.pat 6 [.parser (Samples.int b!"i"), .literal b!"!"], Samples.pat 9 [.parser (Samples.greedy b!"g" none)]]⟩ := by decide +kernel

theorem tableSample_ok : (∀ p ∈ tableSample, AsciiLits p) ∧ (∀ p ∈ tableSample, NonemptyLits p) ∧ (∀ p ∈ tableSample, SplitLiterals p) := by
  refine ⟨?_, ?_, ?_⟩
  · intro p hp l hl
    simp [tableSample] at hp
    rcases hp with rfl | rfl | rfl | rfl | rfl | rfl | rfl | rfl | rfl <;> simp [Samples.pat] at hl <;> (try rcases hl with rfl | rfl) <;> (try subst hl) <;> decide
  · intro p hp l hl
    simp [tableSample] at hp
    rcases hp with rfl | rfl | rfl | rfl | rfl | rfl | rfl | rfl | rfl <;> simp [Samples.pat] at hl <;> (try rcases hl with rfl | rfl) <;> (try subst hl) <;> simp
  · intro p hp l rest h l'
    simp [tableSample] at hp
    rcases hp with rfl | rfl | rfl | rfl | rfl | rfl | rfl | rfl | rfl <;> simp [Samples.pat] at h <;> obtain ⟨_, rfl⟩ := h <;> simp

theorem tableSample_hashes : NoCollision Samples.sip tableSample := by
  rintro a b ⟨p, hp, ha⟩ ⟨q, hq, hb⟩ h
  simp [tableSample] at hp hq
  rcases hp with rfl | rfl | rfl | rfl | rfl | rfl | rfl | rfl | rfl <;> simp [Samples.pat] at ha <;> subst ha <;>
  rcases hq with rfl | rfl | rfl | rfl | rfl | rfl | rfl | rfl | rfl <;> simp [Samples.pat] at hb <;> subst hb <;>
  first | rfl | (revert h; decide +kernel)

/-- What the matcher answers: `apx` begins with the point where `app` and `apricot` part, so the GREEDY pattern is not asked. -/
example : (SuffixTree.build Samples.sip tableSample >>= fun t => t.parse b!"apx") = .ok none ∧
    (SuffixTree.build Samples.sip tableSample >>= fun t => t.parse b!"app") = .ok (some { pattern := Samples.pat 8 [], values := [] }) ∧
    (SuffixTree.build Samples.sip tableSample >>= fun t => t.parse b!"app12") =
      .ok (some { pattern := Samples.pat 3 [], values := [(b!"j", b!"12")] }) ∧
    (SuffixTree.build Samples.sip tableSample >>= fun t => t.parse b!"ax") =
      .ok (some { pattern := Samples.pat 9 [], values := [(b!"g", b!"ax")] }) := by decide +kernel

end Verif
