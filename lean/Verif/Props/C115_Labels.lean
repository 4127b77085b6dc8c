import Verif.Spec.Relabel
import Verif.Proofs.Replace
/-! C115: names of parsers and what describes a pattern are only labels. -/
namespace Verif
open Spec

variable {ρ : Option Bytes → Option Bytes} {g : Pattern → Pattern}

theorem relabel_replaces (hg : Relabels ρ g) : Replaces (relabelParser ρ) g :=
  ⟨⟨hg⟩, fun a _ _ => by cases a <;> exact Iff.rfl⟩

/-- C115: names of parsers and what describes a pattern are only labels: if they are changed, so that different parsers with which patterns begin stay
different, the trie matches the same texts with the same patterns and the same captures, and it panics for the same texts. -/
theorem C115_trie (sip : Bytes → UInt64) (ps : List Pattern) (h : Proper sip ps) (ρ : Option Bytes → Option Bytes) (g : Pattern → Pattern)
    (hg : Relabels ρ g) (hk : KeepsApart (relabelParser ρ) ps) (hcol : NoCollision sip (ps.map g)) (text : Bytes) (hx : Utf8 text) :
    SameRun Matches (relabelParser ρ) g ps text (SuffixTree.build sip ps >>= fun t => t.parse text)
      (SuffixTree.build sip (ps.map g) >>= fun t => t.parse text) :=
  replace_trie sip ps h _ g (relabel_replaces hg) hk hcol text hx

/-- C115 for the suffix array (whose captures are those of loose matches). -/
theorem C115_suffix (sip : Bytes → UInt64) (ps : List Pattern) (hu : ∀ p ∈ ps, Utf8Lits p) (hcol : NoCollision sip ps) (ρ : Option Bytes → Option Bytes)
    (g : Pattern → Pattern) (hg : Relabels ρ g) (hk : KeepsApart (relabelParser ρ) ps) (hcol' : NoCollision sip (ps.map g)) (text : Bytes)
    (hx : Utf8 text) : SameRun LooseMatches (relabelParser ρ) g ps text (SuffixTable.build sip ps >>= fun t => t.parse text)
      (SuffixTable.build sip (ps.map g) >>= fun t => t.parse text) :=
  replace_suffix sip ps hu hcol _ g (relabel_replaces hg) hk hcol' text hx

/-! ### Consequences -/

theorem relabel_name (a : Parser) : nameOf (relabelParser ρ a) = ρ (nameOf a) := by cases a <;> rfl

theorem relabelParser_inj (hi : ∀ a b, ρ a = ρ b → a = b) {a b : Parser} (h : relabelParser ρ a = relabelParser ρ b) : a = b := by
  cases a with
  | set p =>
    cases b with
    | set q => cases p; cases q; simp [relabelParser] at h; obtain ⟨h1, h2⟩ := h; rw [hi _ _ h1]; simp [h2]
    | int q => simp [relabelParser] at h
    | greedy q => simp [relabelParser] at h
  | int p =>
    cases b with
    | int q => cases p; cases q; simp [relabelParser] at h; obtain ⟨h1, h2⟩ := h; rw [hi _ _ h1]; simp [h2]
    | set q => simp [relabelParser] at h
    | greedy q => simp [relabelParser] at h
  | greedy p =>
    cases b with
    | greedy q => cases p; cases q; simp [relabelParser] at h; obtain ⟨h1, h2⟩ := h; rw [hi _ _ h1]; simp [h2]
    | set q => simp [relabelParser] at h
    | int q => simp [relabelParser] at h

theorem capture_relabel (hi : ∀ a b, ρ a = ρ b → a = b) {k k' : Bytes} (h : ρ (some k) = some k') (caps : List (Parser × Bytes)) :
    capture (caps.map fun c => (relabelParser ρ c.1, c.2)) k' = capture caps k := by
  unfold capture
  rw [List.find?_map]
  have : ((fun c : Parser × Bytes => decide (nameOf c.1 = some k')) ∘ fun c : Parser × Bytes => (relabelParser ρ c.1, c.2)) = fun c : Parser × Bytes => decide (nameOf c.1 = some k) := by
    funext c
    simp only [Function.comp, relabel_name, ← h]
    congr 1
    exact propext ⟨fun e => hi _ _ e, fun e => by rw [e]⟩
  rw [this]
  cases caps.find? fun c => decide (nameOf c.1 = some k) <;> rfl

theorem capture_named {caps : List (Parser × Bytes)} {k' v : Bytes} (h : capture (caps.map fun c => (relabelParser ρ c.1, c.2)) k' = some v) :
    ∃ c ∈ caps, ρ (nameOf c.1) = some k' := by
  unfold capture at h
  rw [Option.map_eq_some_iff] at h
  obtain ⟨c, h1, _⟩ := h
  have h2 := List.mem_of_find?_eq_some h1
  have h3 := List.find?_some h1
  rw [List.mem_map] at h2
  obtain ⟨c0, h4, rfl⟩ := h2
  simp [relabel_name] at h3
  exact ⟨c0, h4, h3⟩

/-- C115: if every name is replaced by another one, different names by different ones, an answer of the trie becomes an answer of the same pattern, and
its values keep their texts and get the new names. -/
theorem C115_renamed (sip : Bytes → UInt64) (ps : List Pattern) (h : Proper sip ps) (f : Bytes → Bytes) (hf : ∀ a b, f a = f b → a = b)
    (g : Pattern → Pattern) (hg : Relabels (Option.map f) g) (hcol : NoCollision sip (ps.map g)) (text : Bytes) (hx : Utf8 text) (m : MatchResult)
    (hm : (SuffixTree.build sip ps >>= fun t => t.parse text) = .ok (some m)) :
    ∃ p ∈ ps, ∃ m', (SuffixTree.build sip (ps.map g) >>= fun t => t.parse text) = .ok (some m') ∧
      m.pattern = { p with pattern := [] } ∧ m'.pattern = { g p with pattern := [] } ∧ OrderedMap m'.values ∧
      ∀ k v, (k, v) ∈ m'.values ↔ ∃ k0, (k0, v) ∈ m.values ∧ k = f k0 := by
  have hi : ∀ a b : Option Bytes, a.map f = b.map f → a = b := by
    intro a b e
    cases a <;> cases b <;> simp at e ⊢
    exact hf _ _ e
  have key := C115_trie sip ps h (Option.map f) g hg (fun a b _ _ e => relabelParser_inj hi e) hcol text hx
  rw [hm] at key
  rcases hr : (SuffixTree.build sip (ps.map g) >>= fun t => t.parse text) with e | r'
  · rw [hr] at key; exact absurd key id
  · rw [hr] at key
    cases r' with
    | none => exact absurd key id
    | some m' =>
      obtain ⟨p, hp, caps, _, h2, h3⟩ := key
      refine ⟨p, hp, m', rfl, h2.1, h3.1, h3.2.1, ?_⟩
      intro k v
      rw [h3.2.2]
      constructor
      · intro hc
        obtain ⟨c, hc1, hc2⟩ := capture_named hc
        rw [Option.map_eq_some_iff] at hc2
        obtain ⟨k0, _, rfl⟩ := hc2
        rw [capture_relabel hi (k := k0) rfl] at hc
        exact ⟨k0, (h2.2.2 k0 v).mpr hc, rfl⟩
      · rintro ⟨k0, hk, rfl⟩
        rw [capture_relabel hi (k := k0) rfl]
        exact (h2.2.2 k0 v).mp hk

/-- C115: name, uuid, values, tags and test messages of the patterns have no influence on the answers of the trie: if only they are changed, the answers
have the changed patterns and the same values. -/
theorem C115_descriptions (sip : Bytes → UInt64) (ps : List Pattern) (h : Proper sip ps) (g : Pattern → Pattern) (hg : ∀ p, (g p).pattern = p.pattern)
    (text : Bytes) (hx : Utf8 text) (m : MatchResult) (hm : (SuffixTree.build sip ps >>= fun t => t.parse text) = .ok (some m)) :
    ∃ p ∈ ps, m.pattern = { p with pattern := [] } ∧
      (SuffixTree.build sip (ps.map g) >>= fun t => t.parse text) = .ok (some { pattern := { g p with pattern := [] }, values := m.values }) := by
  have hid : ∀ a : Parser, relabelParser id a = a := by intro a; cases a <;> rfl
  have hgid : Relabels id g := by
    intro p
    rw [hg p]
    symm
    refine (List.map_congr_left (g := id) ?_).trans (List.map_id _)
    intro t _
    cases t with
    | literal l => rfl
    | parser a => simp [replaceToken, hid]
  have hcol : NoCollision sip (ps.map g) := by
    intro a b ha hb e
    refine h.hashes a b ?_ ?_ e
    · obtain ⟨q, hq, h1⟩ := ha
      obtain ⟨p, hp, rfl⟩ := List.mem_map.mp hq
      exact ⟨p, hp, by rw [← hg p]; exact h1⟩
    · obtain ⟨q, hq, h1⟩ := hb
      obtain ⟨p, hp, rfl⟩ := List.mem_map.mp hq
      exact ⟨p, hp, by rw [← hg p]; exact h1⟩
  have key := C115_trie sip ps h id g hgid (fun a b _ _ e => by rwa [hid, hid] at e) hcol text hx
  rw [hm] at key
  rcases hr : (SuffixTree.build sip (ps.map g) >>= fun t => t.parse text) with e | r'
  · rw [hr] at key; exact absurd key id
  · rw [hr] at key
    cases r' with
    | none => exact absurd key id
    | some m' =>
      obtain ⟨p, hp, caps, _, h2, h3⟩ := key
      refine ⟨p, hp, h2.1, ?_⟩
      have e : (caps.map fun c => (relabelParser id c.1, c.2)) = caps := by
        refine (List.map_congr_left (g := id) ?_).trans (List.map_id _)
        intro c _
        simp [hid]
      rw [e] at h3
      have h4 : IsResult { pattern := { g p with pattern := [] }, values := m.values } (g p) caps := ⟨rfl, h2.2⟩
      rw [isResult_unique h3 h4]

/-- C115, the condition is needed: if the parsers of `%{INT:a}x` and `%{INT:b}y` get the same name, the first pattern no longer matches `1x`. -/
theorem C115_condition_needed : ∃ (ps : List Pattern) (f : Bytes → Bytes) (g : Pattern → Pattern) (text : Bytes), Proper Samples.sip ps ∧
    Relabels (Option.map f) g ∧ NoCollision Samples.sip (ps.map g) ∧
    (∃ m, (SuffixTree.build Samples.sip ps >>= fun t => t.parse text) = .ok (some m)) ∧
    (SuffixTree.build Samples.sip (ps.map g) >>= fun t => t.parse text) = .ok none := by
  refine ⟨[Samples.pat 1 [.parser (Samples.int b!"a"), .literal b!"x"], Samples.pat 2 [.parser (Samples.int b!"b"), .literal b!"y"]], fun _ => b!"n",
    fun p => { p with pattern := p.pattern.map (replaceToken (relabelParser (Option.map fun _ => b!"n"))) }, b!"1x", ⟨?_, ?_, ?_, ?_⟩, fun _ => rfl, ?_, ?_, ?_⟩
  · intro p hp l hl
    simp at hp
    rcases hp with rfl | rfl <;> simp [Samples.pat] at hl <;> subst hl <;> exact ascii_utf8 (by decide)
  · intro p hp l hl
    simp at hp
    rcases hp with rfl | rfl <;> simp [Samples.pat] at hl <;> subst hl <;> decide
  · intro p hp l rest e l'
    simp at hp
    rcases hp with rfl | rfl <;> simp [Samples.pat] at e
  · intro a b ha hb
    have key : ∀ a, (∃ p ∈ [Samples.pat 1 [.parser (Samples.int b!"a"), .literal b!"x"], Samples.pat 2 [.parser (Samples.int b!"b"), .literal b!"y"]],
        p.pattern.head? = some (.parser a)) → a = Samples.int b!"a" ∨ a = Samples.int b!"b" := by
      rintro a ⟨p, hp, e⟩
      simp at hp
      rcases hp with rfl | rfl <;> simp [Samples.pat] at e <;> simp [e]
    rcases key a ha with rfl | rfl <;> rcases key b hb with rfl | rfl <;> decide +kernel
  · intro a b ha hb
    have key : ∀ a, (∃ p ∈ [Samples.pat 1 [.parser (Samples.int b!"a"), .literal b!"x"], Samples.pat 2 [.parser (Samples.int b!"b"), .literal b!"y"]].map
        fun p => { p with pattern := p.pattern.map (replaceToken (relabelParser (Option.map fun _ => b!"n"))) },
        p.pattern.head? = some (.parser a)) → a = Samples.int b!"n" := by
      rintro a ⟨p, hp, e⟩
      simp at hp
      rcases hp with rfl | rfl <;> simp [Samples.pat, replaceToken] at e <;> rw [← e] <;> rfl
    intro _
    rw [key a ha, key b hb]
  · exact ⟨⟨Samples.pat 1 [], [(b!"a", b!"1")]⟩, by decide +kernel⟩
  · decide +kernel

/-! A case: four patterns, of which the first and the third begin with the same literal, with new names and new uuids. -/

def relabelSample (p : Pattern) : Pattern :=
  { p with pattern := p.pattern.map (replaceToken (relabelParser (Option.map fun n => n ++ b!"1"))), uuid := p.uuid + 100 }

example : Relabels (Option.map fun n => n ++ b!"1") relabelSample ∧ ∀ a b : Bytes, a ++ b!"1" = b ++ b!"1" → a = b :=
  ⟨fun _ => rfl, fun _ _ h => List.append_cancel_right h⟩

example : Proper Samples.sip [orderSample1, orderSample2, orderSample3, orderSample4] ∧
    NoCollision Samples.sip ([orderSample1, orderSample2, orderSample3, orderSample4].map relabelSample) := by
  refine ⟨orderSample_plain.proper, ?_⟩
  have key : ∀ a, (∃ p ∈ [orderSample1, orderSample2, orderSample3, orderSample4].map relabelSample, p.pattern.head? = some (.parser a)) →
      a = Samples.int b!"y1" := by
    rintro a ⟨p, hp, e⟩
    simp only [List.map_cons, List.map_nil, List.mem_cons, List.not_mem_nil, or_false] at hp
    rcases hp with rfl | rfl | rfl | rfl <;> simp [relabelSample, replaceToken, orderSample1, orderSample2, orderSample3, orderSample4, Samples.pat] at e
    rw [← e]; rfl
  intro a b ha hb _
  rw [key a ha, key b hb]

end Verif
