import Verif.Spec.ActAlike
import Verif.Proofs.Replace
import Verif.Props.C05_C10_Parsers
/-! C125: which parsers do the same on every text, and that they can be exchanged. -/
namespace Verif
open Spec

theorem calc_congr {p q : SetParser} (h : ∀ c, c ∈ p.characterSet ↔ c ∈ q.characterSet) (x : Bytes) :
    p.calculateMatchLength x = q.calculateMatchLength x := by
  induction x with
  | nil => rfl
  | cons c x ih =>
    simp only [SetParser.calculateMatchLength, ih, List.contains_iff_mem, h]

theorem runLength_iff (p : SetParser) (n : Nat) : p.isMatchLengthOk n = true ↔ RunLength p n := by
  rw [lengthOk_iff]
  rfl

theorem never_parse {p : SetParser} (h : p.characterSet = [] ∨ ∀ n, ¬ RunLength p n) (x : Bytes) : p.parse x = .ok none := by
  unfold SetParser.parse
  have : ¬ p.isMatchLengthOk (p.calculateMatchLength x) = true := by
    rw [runLength_iff]
    intro hr
    rcases h with h | h
    · have : p.calculateMatchLength x = 0 := by cases x <;> simp [SetParser.calculateMatchLength, h]
      rw [this] at hr
      exact absurd hr.1 (by omega)
    · exact h _ hr
  simp [this]

theorem runs_parse {a : Parser} {p : SetParser} (h : TakesRuns a p) (x : Bytes) : a.parse x = p.parse x := by
  rcases h with rfl | rfl <;> rfl

/-- C125: parsers with the same task give the same result for every text: the same value, no value, or a panic. -/
theorem C125_same_results {a b : Parser} (h : ActAlike a b) (text : Bytes) : a.parse text = b.parse text := by
  cases h with
  | runs _ _ p q ha hb hc hl =>
    rw [runs_parse ha, runs_parse hb]
    unfold SetParser.parse
    rw [calc_congr hc]
    have : p.isMatchLengthOk (q.calculateMatchLength text) = q.isMatchLengthOk (q.calculateMatchLength text) :=
      Bool.eq_iff_iff.mpr (by rw [runLength_iff, runLength_iff, hl])
    simp only [this]
  | never _ _ p q ha hb h1 h2 => rw [runs_parse ha, runs_parse hb, never_parse h1, never_parse h2]
  | greedy => rfl

theorem calc_replicate (p : SetParser) (c : UInt8) (n : Nat) : p.calculateMatchLength (List.replicate n c) = if p.characterSet.contains c then n else 0 := by
  induction n with
  | zero => simp [SetParser.calculateMatchLength]
  | succ n ih =>
    rw [List.replicate_succ, SetParser.calculateMatchLength, ih]
    split <;> rfl

theorem replicate_ascii {c : UInt8} (hc : c.toNat < 128) (n : Nat) : Ascii (List.replicate n c) := by
  intro x hx
  rw [(List.mem_replicate.mp hx).2]
  exact hc

theorem replicate_parse {p : SetParser} {c : UInt8} (hc : c.toNat < 128) (hm : c ∈ p.characterSet) {n : Nat} (hl : RunLength p n) :
    p.parse (List.replicate n c) = .ok (some (List.replicate n c)) := by
  have hk : p.calculateMatchLength (List.replicate n c) = n := by rw [calc_replicate]; simp [hm]
  have hs : SetMatch p.characterSet p.minLength p.maxLength (List.replicate n c) (List.replicate n c) := by
    rw [setMatch_iff, hk]
    exact ⟨(runLength_iff p n).mpr hl, by simp⟩
  rw [setParse_some]
  exact ⟨hs, ascii_prefix_boundary (List.prefix_refl _) (replicate_ascii hc n) (ascii_utf8 (replicate_ascii hc n))⟩

theorem replicate_parse_inv {p : SetParser} {c : UInt8} {n : Nat} {v : Bytes} (h : p.parse (List.replicate n c) = .ok (some v)) :
    c ∈ p.characterSet ∧ RunLength p n := by
  rw [setParse_some] at h
  obtain ⟨h1, h2⟩ := (setMatch_iff _ _ _).mp h.1
  rw [calc_replicate] at h1
  split at h1
  · rename_i hc
    exact ⟨by simpa using hc, (runLength_iff p n).mp h1⟩
  · exact absurd ((runLength_iff p 0).mp h1).1 (by omega)

theorem takes_or_never (p : SetParser) : (∃ c n, c ∈ p.characterSet ∧ RunLength p n) ∨ (p.characterSet = [] ∨ ∀ n, ¬ RunLength p n) := by
  by_cases h : ∃ n, RunLength p n
  · obtain ⟨n, hn⟩ := h
    cases hs : p.characterSet with
    | nil => exact .inr (.inl rfl)
    | cons c cs => exact .inl ⟨c, n, by simp, hn⟩
  · exact .inr (.inr fun n hn => h ⟨n, hn⟩)

theorem takesRuns_ascii {a : Parser} {p : SetParser} (h : TakesRuns a p) (ha : AsciiParser a) : Ascii p.characterSet := by
  rcases h with rfl | rfl <;> exact ha

theorem runs_alike {a b : Parser} {p q : SetParser} (ha : TakesRuns a p) (hb : TakesRuns b q) (hpa : Ascii p.characterSet) (hqa : Ascii q.characterSet)
    (h : ∀ x, Utf8 x → p.parse x = q.parse x) : ActAlike a b := by
  have hr : ∀ {c : UInt8}, c.toNat < 128 → ∀ n, p.parse (List.replicate n c) = q.parse (List.replicate n c) :=
    fun hc n => h _ (ascii_utf8 (replicate_ascii hc n))
  have forth : ∀ {c n}, c ∈ p.characterSet → RunLength p n → c ∈ q.characterSet ∧ RunLength q n := by
    intro c n hc hn
    exact replicate_parse_inv ((hr (hpa c hc) n).symm.trans (replicate_parse (hpa c hc) hc hn))
  have back : ∀ {c n}, c ∈ q.characterSet → RunLength q n → c ∈ p.characterSet ∧ RunLength p n := by
    intro c n hc hn
    exact replicate_parse_inv ((hr (hqa c hc) n).trans (replicate_parse (hqa c hc) hc hn))
  rcases takes_or_never p with ⟨c0, n0, hc0, hn0⟩ | hp
  · obtain ⟨hc1, hn1⟩ := forth hc0 hn0
    exact .runs a b p q ha hb (fun c => ⟨fun hc => (forth hc hn0).1, fun hc => (back hc hn1).1⟩)
      (fun n => ⟨fun hn => (forth hc0 hn).2, fun hn => (back hc1 hn).2⟩)
  · rcases takes_or_never q with ⟨c, n, hc, hn⟩ | hq
    · obtain ⟨h1, h2⟩ := back hc hn
      rcases hp with hp | hp
      · rw [hp] at h1; simp at h1
      · exact absurd h2 (hp n)
    · exact .never a b p q ha hb hp hq

theorem run_value_ne {p : SetParser} {x : Bytes} : p.parse x ≠ .ok (some []) := by
  intro h
  rw [setParse_some] at h
  exact h.1.nonempty rfl

/-- text before which a `GREEDY` stops at once -/
theorem greedy_stops (n e : Option Bytes) : (Parser.greedy ⟨n, e⟩).parse (e.getD []) = .ok (some []) := by
  cases e with
  | none => rfl
  | some e =>
    rw [parse_some]
    refine ⟨⟨⟨[], by simp⟩, by simp⟩, by simp [isCharBoundary]⟩

theorem end_prefix {n e' : Option Bytes} {x : Bytes} (h : (Parser.greedy ⟨n, e'⟩).parse x = .ok (some [])) : (e' = none ∧ x = []) ∨ ∃ e, e' = some e ∧ e <+: x := by
  cases e' with
  | none =>
    simp [Parser.parse, GreedyParser.parse] at h
    exact .inl ⟨rfl, h⟩
  | some e =>
    rw [parse_some] at h
    obtain ⟨⟨⟨r, hr⟩, _⟩, _⟩ := h
    exact .inr ⟨e, rfl, r, by simpa using hr.symm⟩

/-- C125: two parsers give the same result for every text exactly when they have the same task: both take runs of the same characters of the same
lengths, or both can take no run at all, or both take everything up to the same end string. -/
theorem C125_same_results_iff {a b : Parser} (ha : AsciiParser a) (hb : AsciiParser b) (hua : Utf8Parser a) (hub : Utf8Parser b) :
    (∀ text, Utf8 text → a.parse text = b.parse text) ↔ ActAlike a b := by
  refine ⟨?_, fun h text _ => C125_same_results h text⟩
  intro h
  have mixed : ∀ {n e : Option Bytes} {b : Parser} {q : SetParser}, Utf8Parser (.greedy ⟨n, e⟩) → TakesRuns b q →
      ¬ ∀ x, Utf8 x → (Parser.greedy ⟨n, e⟩).parse x = b.parse x := by
    intro n e b q hu hq h
    have hx : Utf8 (e.getD []) := by
      cases e with
      | none => exact utf8_nil
      | some e => exact hu e rfl
    have := h _ hx
    rw [greedy_stops, runs_parse hq] at this
    exact run_value_ne this.symm
  have runs : ∀ {p q : SetParser}, TakesRuns a p → TakesRuns b q → ActAlike a b := by
    intro p q hp hq
    exact runs_alike hp hq (takesRuns_ascii hp ha) (takesRuns_ascii hq hb) fun x hx => by rw [← runs_parse hp, ← runs_parse hq]; exact h x hx
  cases a with
  | set p =>
    cases b with
    | set q => exact runs (.inl rfl) (.inl rfl)
    | int q => exact runs (.inl rfl) (.inr rfl)
    | greedy q => exact absurd (fun x hx => (h x hx).symm) (mixed hub (.inl rfl))
  | int p =>
    cases b with
    | set q => exact runs (.inr rfl) (.inl rfl)
    | int q => exact runs (.inr rfl) (.inr rfl)
    | greedy q => exact absurd (fun x hx => (h x hx).symm) (mixed hub (.inr rfl))
  | greedy p =>
    cases b with
    | set q => exact absurd h (mixed hua (.inl rfl))
    | int q => exact absurd h (mixed hua (.inr rfl))
    | greedy q =>
      obtain ⟨n, e⟩ := p
      obtain ⟨n', e'⟩ := q
      have hx : ∀ {n e : Option Bytes}, Utf8Parser (.greedy ⟨n, e⟩) → Utf8 (e.getD []) := by
        intro n e hu
        cases e with
        | none => exact utf8_nil
        | some e => exact hu e rfl
      have h1 := end_prefix ((h _ (hx hua)).symm.trans (greedy_stops n e))
      have h2 := end_prefix ((h _ (hx hub)).trans (greedy_stops n' e'))
      have hee : e = e' := by
        rcases h1 with ⟨rfl, h1⟩ | ⟨w, rfl, h1⟩
        · rcases h2 with ⟨rfl, _⟩ | ⟨v, rfl, h2⟩
          · rfl
          · simp at h2
            subst h2
            exact absurd (h b!"a" (ascii_utf8 (by decide))) (by
              show ¬ (GreedyParser.parse ⟨none, some []⟩ b!"a" = .ok (some b!"a"))
              decide +kernel)
        · rcases h2 with ⟨rfl, h2⟩ | ⟨v, rfl, h2⟩
          · simp at h1
            subst h1
            exact absurd (h b!"a" (ascii_utf8 (by decide))) (by
              show ¬ (.ok (some b!"a") = GreedyParser.parse ⟨none, some []⟩ b!"a")
              decide +kernel)
          · simp at h1 h2
            rw [h2.eq_of_length_le h1.length_le]
      subst hee
      exact .greedy n n' e

/-! ### Exchanging parsers in patterns -/

theorem never_match {p : SetParser} (h : p.characterSet = [] ∨ ∀ n, ¬ RunLength p n) (x v : Bytes) :
    ¬ SetMatch p.characterSet p.minLength p.maxLength x v := fun hm =>
  (setParse_none p x).mp (never_parse h x) ⟨v, hm⟩

theorem takesRuns_match {a : Parser} {p : SetParser} (h : TakesRuns a p) (x v : Bytes) :
    ParserMatch a x v ↔ SetMatch p.characterSet p.minLength p.maxLength x v := by
  rcases h with rfl | rfl <;> exact Iff.rfl

theorem alike_match {a b : Parser} (h : ActAlike a b) (x v : Bytes) : ParserMatch b x v ↔ ParserMatch a x v := by
  cases h with
  | runs _ _ p q ha hb hc hl =>
    rw [takesRuns_match ha, takesRuns_match hb, setMatch_iff, setMatch_iff, calc_congr hc, runLength_iff, runLength_iff, hl]
  | never _ _ p q ha hb h1 h2 =>
    rw [takesRuns_match ha, takesRuns_match hb]
    exact ⟨fun h => absurd h (never_match h2 x v), fun h => absurd h (never_match h1 x v)⟩
  | greedy => exact Iff.rfl

theorem exchanges_replaces {φ : Parser → Parser} {g : Pattern → Pattern} (h : Exchanges φ g) : Replaces φ g :=
  ⟨⟨h.tokens⟩, fun a x v => alike_match (h.alike a) x v⟩

theorem capture_exchange {φ : Parser → Parser} {g : Pattern → Pattern} (h : Exchanges φ g) (caps : List (Parser × Bytes)) (k : Bytes) :
    capture (caps.map fun c => (φ c.1, c.2)) k = capture caps k := by
  unfold capture
  rw [List.find?_map]
  have : ((fun c : Parser × Bytes => decide (nameOf c.1 = some k)) ∘ fun c : Parser × Bytes => (φ c.1, c.2)) =
      fun c : Parser × Bytes => decide (nameOf c.1 = some k) := by
    funext c
    simp only [Function.comp, h.name]
  rw [this]
  cases caps.find? fun c => decide (nameOf c.1 = some k) <;> rfl

theorem sameAnswer_of_run {M : List Token → Bytes → List (Parser × Bytes) → Prop} {φ : Parser → Parser} {g : Pattern → Pattern} (hg : Exchanges φ g)
    {ps : List Pattern} {x : Bytes} {r r' : Except Panic (Option MatchResult)} (h : SameRun M φ g ps x r r') : SameAnswer g ps r r' := by
  match r, r', h with
  | .error e, .error e', h => exact h
  | .ok none, .ok none, _ => trivial
  | .ok (some m), .ok (some m'), h =>
    obtain ⟨p, hp, caps, _, h2, h3⟩ := h
    refine ⟨p, hp, h2.1, h3.1, ?_⟩
    have h4 : IsResult { pattern := { g p with pattern := [] }, values := m.values } (g p) (caps.map fun c => (φ c.1, c.2)) := by
      refine ⟨rfl, h2.2.1, ?_⟩
      intro k v
      rw [capture_exchange hg]
      exact h2.2.2 k v
    rw [isResult_unique h3 h4]

/-- C125: parsers with the same name and the same task can be exchanged in the patterns of a trie: as long as different parsers with which patterns begin
are exchanged for different ones, all texts are matched to the same patterns with the same values. -/
theorem C125_trie (sip : Bytes → UInt64) (ps : List Pattern) (h : Proper sip ps) (φ : Parser → Parser) (g : Pattern → Pattern) (hg : Exchanges φ g)
    (hk : KeepsApart φ ps) (hcol : NoCollision sip (ps.map g)) (text : Bytes) (hx : Utf8 text) :
    SameAnswer g ps (SuffixTree.build sip ps >>= fun t => t.parse text) (SuffixTree.build sip (ps.map g) >>= fun t => t.parse text) :=
  sameAnswer_of_run hg (replace_trie sip ps h φ g (exchanges_replaces hg) hk hcol text hx)

/-- C125 for the suffix array. -/
theorem C125_suffix_array (sip : Bytes → UInt64) (ps : List Pattern) (hu : ∀ p ∈ ps, Utf8Lits p) (hcol : NoCollision sip ps) (φ : Parser → Parser)
    (g : Pattern → Pattern) (hg : Exchanges φ g) (hk : KeepsApart φ ps) (hcol' : NoCollision sip (ps.map g)) (text : Bytes) (hx : Utf8 text) :
    SameAnswer g ps (SuffixTable.build sip ps >>= fun t => t.parse text) (SuffixTable.build sip (ps.map g) >>= fun t => t.parse text) :=
  sameAnswer_of_run hg (replace_suffix sip ps hu hcol φ g (exchanges_replaces hg) hk hcol' text hx)

/-! Cases: `INT` and the `SET` of the digits; a lower limit of 0 or 1 is no limit; limits that exclude each other. -/

example (n : Option Bytes) (x : Bytes) : (mkInt n none (some 3)).parse x = (Parser.set (mkSet n b!"9876543210" (some 1) (some 3))).parse x := by
  refine C125_same_results (.runs _ _ _ _ (.inr rfl) (.inl rfl) (fun c => ?_) (fun n => ?_)) x
  · show c ∈ bsetFromIter intDigits ↔ c ∈ bsetFromIter b!"9876543210"
    rw [mem_bsetFromIter, mem_bsetFromIter]
    simp [intDigits]
    grind
  · simp [RunLength, mkInt, mkSet]

example (n : Option Bytes) (x : Bytes) :
    (Parser.set (mkSet n b!"abc" (some 3) (some 2))).parse x = (Parser.set (mkSet n b!"xyz" none (some 0))).parse x :=
  C125_same_results (.never _ _ _ _ (.inl rfl) (.inl rfl) (.inr fun n h => by have := h.2.1 3 rfl; have := h.2.2 2 rfl; omega)
    (.inr fun n h => by have := h.1; have := h.2.2 0 rfl; omega)) x

/-- `INT` is exchanged for the `SET` of the digits. -/
def intAsSet : Parser → Parser
  | .int p => .set p
  | a => a

def intAsSetPattern (p : Pattern) : Pattern := { p with pattern := p.pattern.map (replaceToken intAsSet) }

theorem intAsSet_exchanges : Exchanges intAsSet intAsSetPattern := by
  refine ⟨fun a => ?_, fun a => by cases a <;> rfl, fun _ => rfl⟩
  cases a with
  | set p => exact .runs _ _ p p (.inl rfl) (.inl rfl) (fun _ => Iff.rfl) (fun _ => Iff.rfl)
  | int p => exact .runs _ _ p p (.inr rfl) (.inl rfl) (fun _ => Iff.rfl) (fun _ => Iff.rfl)
  | greedy p => exact .greedy _ _ _

example : Proper Samples.sip [orderSample1, orderSample2, orderSample3, orderSample4] ∧
    KeepsApart intAsSet [orderSample1, orderSample2, orderSample3, orderSample4] ∧
    NoCollision Samples.sip ([orderSample1, orderSample2, orderSample3, orderSample4].map intAsSetPattern) := by
  refine ⟨orderSample_plain.proper, ?_, ?_⟩
  · have key : ∀ a, (∃ p ∈ [orderSample1, orderSample2, orderSample3, orderSample4], p.pattern.head? = some (.parser a)) → a = Samples.int b!"y" := by
      rintro a ⟨p, hp, e⟩
      simp only [List.mem_cons, List.not_mem_nil, or_false] at hp
      rcases hp with rfl | rfl | rfl | rfl <;> simp [orderSample1, orderSample2, orderSample3, orderSample4, Samples.pat] at e
      rw [← e]
    intro a b ha hb _
    rw [key a ha, key b hb]
  · have key : ∀ a, (∃ p ∈ [orderSample1, orderSample2, orderSample3, orderSample4].map intAsSetPattern, p.pattern.head? = some (.parser a)) →
        a = intAsSet (Samples.int b!"y") := by
      rintro a ⟨p, hp, e⟩
      simp only [List.map_cons, List.map_nil, List.mem_cons, List.not_mem_nil, or_false] at hp
      rcases hp with rfl | rfl | rfl | rfl <;> simp [intAsSetPattern, replaceToken, orderSample1, orderSample2, orderSample3, orderSample4, Samples.pat] at e
      rw [← e]
    intro a b ha hb _
    rw [key a ha, key b hb]

/-- C125, the condition is needed: `%{INT:a}x` and the same with the `SET` of the digits and `y` are both matched; if `INT` is exchanged for the `SET`, the
first pattern no longer matches `1x`. -/
theorem C125_condition_needed : ∃ (ps : List Pattern) (φ : Parser → Parser) (g : Pattern → Pattern) (text : Bytes), Proper Samples.sip ps ∧
    Exchanges φ g ∧ NoCollision Samples.sip (ps.map g) ∧ (∃ m, (SuffixTree.build Samples.sip ps >>= fun t => t.parse text) = .ok (some m)) ∧
    (SuffixTree.build Samples.sip (ps.map g) >>= fun t => t.parse text) = .ok none := by
  refine ⟨[Samples.pat 1 [.parser (Samples.int b!"a"), .literal b!"x"], Samples.pat 2 [.parser (intAsSet (Samples.int b!"a")), .literal b!"y"]], intAsSet,
    intAsSetPattern, b!"1x", ⟨?_, ?_, ?_, ?_⟩, intAsSet_exchanges, ?_, ?_, ?_⟩
  · intro p hp l hl
    simp at hp
    rcases hp with rfl | rfl <;> simp [Samples.pat] at hl <;> subst hl <;> exact ascii_utf8 (by decide)
  · intro p hp l hl
    simp at hp
    rcases hp with rfl | rfl <;> simp [Samples.pat] at hl <;> subst hl <;> decide
  · intro p hp l rest e l'
    simp at hp
    rcases hp with rfl | rfl <;> simp [Samples.pat] at e
  · intro a b ha hb
    have key : ∀ a, (∃ p ∈ [Samples.pat 1 [.parser (Samples.int b!"a"), .literal b!"x"],
        Samples.pat 2 [.parser (intAsSet (Samples.int b!"a")), .literal b!"y"]],
        p.pattern.head? = some (.parser a)) → a = Samples.int b!"a" ∨ a = intAsSet (Samples.int b!"a") := by
      rintro a ⟨p, hp, e⟩
      simp at hp
      rcases hp with rfl | rfl <;> simp [Samples.pat] at e <;> simp [e]
    rcases key a ha with rfl | rfl <;> rcases key b hb with rfl | rfl <;> decide +kernel
  · intro a b ha hb
    have key : ∀ a, (∃ p ∈ [Samples.pat 1 [.parser (Samples.int b!"a"), .literal b!"x"],
        Samples.pat 2 [.parser (intAsSet (Samples.int b!"a")), .literal b!"y"]].map intAsSetPattern,
        p.pattern.head? = some (.parser a)) → a = intAsSet (Samples.int b!"a") := by
      rintro a ⟨p, hp, e⟩
      simp at hp
      rcases hp with rfl | rfl <;> simp [Samples.pat, intAsSetPattern, replaceToken] at e <;> rw [← e] <;> rfl
    intro _
    rw [key a ha, key b hb]
  · exact ⟨⟨Samples.pat 1 [], [(b!"a", b!"1")]⟩, by decide +kernel⟩
  · decide +kernel

end Verif
