import Verif.Spec.Filled
import Verif.Props.C11_C14_TrieSound
import Verif.Props.C25_C31_SuffixArray
/-! C110: an answer of the trie determines the message. -/
namespace Verif
open Spec

theorem parserNames_of_matches {toks : List Token} {x : Bytes} {caps : List (Parser × Bytes)} (h : Matches toks x caps) :
    parserNames toks = caps.map fun c => nameOf c.1 := by
  induction h with
  | nil => rfl
  | literal l toks x caps _ ih => simpa [parserNames] using ih
  | parser a toks v x caps _ _ ih => simp [parserNames, ih]

theorem capture_of_distinct {caps : List (Parser × Bytes)} (hd : (caps.map fun c => nameOf c.1).Nodup) {a : Parser} {v k : Bytes}
    (hm : (a, v) ∈ caps) (hk : nameOf a = some k) : capture caps k = some v := by
  induction caps with
  | nil => simp at hm
  | cons c caps ih =>
    obtain ⟨b, w⟩ := c
    simp only [List.map_cons, List.nodup_cons] at hd
    rcases List.mem_cons.mp hm with h | h
    · obtain ⟨rfl, rfl⟩ := Prod.mk.inj h
      simp [capture, hk]
    · have hne : nameOf b ≠ some k := by
        intro e
        exact hd.1 (by rw [e, ← hk]; exact List.mem_map.mpr ⟨(a, v), h, rfl⟩)
      have := ih hd.2 h
      simpa [capture, hne] using this

theorem filled_of_matches {values : BMap} {toks : List Token} {x : Bytes} {caps : List (Parser × Bytes)} (h : Matches toks x caps)
    (hn : none ∉ parserNames toks) (hv : ∀ a v k, (a, v) ∈ caps → nameOf a = some k → (k, v) ∈ values) : Filled values toks x := by
  induction h with
  | nil => exact .nil
  | literal l toks x caps _ ih => exact .literal l toks x (ih (by simpa [parserNames] using hn) hv)
  | parser a toks v x caps _ _ ih =>
    simp only [parserNames, List.mem_cons, not_or] at hn
    cases hk : nameOf a with
    | none => exact absurd hk.symm hn.1
    | some k =>
      exact .parser a toks k v x hk (hv a v k (by simp) hk) (ih hn.2 fun b w j hb hj => hv b w j (by simp [hb]) hj)

theorem orderedMap_unique {m : BMap} (h : OrderedMap m) {k v w : Bytes} (hv : (k, v) ∈ m) (hw : (k, w) ∈ m) : v = w := by
  have irr : ∀ s : Bytes, ¬ List.Lex (fun x y : UInt8 => x.toNat < y.toNat) s s := by
    intro s
    induction s with
    | nil => intro h; cases h
    | cons b s ih =>
      intro h
      cases h with
      | rel h => omega
      | cons h => exact ih h
  induction m with
  | nil => simp at hv
  | cons e m ih =>
    obtain ⟨k', u⟩ := e
    simp only [OrderedMap, List.map_cons, List.pairwise_cons] at h
    have key : ∀ z, (k', z) ∈ m → False := fun z hz => irr k' (h.1 k' (List.mem_map.mpr ⟨(k', z), hz, rfl⟩))
    rcases List.mem_cons.mp hv with h1 | h1 <;> rcases List.mem_cons.mp hw with h2 | h2
    · rw [(Prod.mk.inj h1).2, (Prod.mk.inj h2).2]
    · obtain ⟨rfl, -⟩ := Prod.mk.inj h1; exact absurd h2 (key w)
    · obtain ⟨rfl, -⟩ := Prod.mk.inj h2; exact absurd h1 (key v)
    · exact ih h.2 h1 h2

theorem filled_unique {m : BMap} (h : OrderedMap m) {toks : List Token} {x y : Bytes} (hx : Filled m toks x) (hy : Filled m toks y) : x = y := by
  induction hx generalizing y with
  | nil => cases hy; rfl
  | literal l toks x _ ih => cases hy with | literal _ _ z hz => rw [ih hz]
  | parser a toks k v x hk hv _ ih =>
    cases hy with
    | parser _ _ k' w z hk' hw hz =>
      rw [hk] at hk'
      obtain rfl : k = k' := by simpa using hk'
      rw [ih hz, orderedMap_unique h hv hw]

/-- C110: the message is the pattern of the answer with the values of the answer written in the places of its parsers; there is no other text with
this property. -/
theorem C110_filled (sip : Bytes → UInt64) (ps : List Pattern) (hu : ∀ p ∈ ps, Utf8Lits p) (hcol : NoCollision sip ps)
    (hn : ∀ p ∈ ps, DistinctlyNamed p) (t : SuffixTree) (hb : SuffixTree.build sip ps = .ok t) (text : Bytes) (hx : Utf8 text)
    (r : MatchResult) (hr : t.parse text = .ok (some r)) :
    ∃ p ∈ ps, r.pattern = { p with pattern := [] } ∧ ∀ y, Filled r.values p.pattern y ↔ y = text := by
  obtain ⟨p, hp, caps, h1, h2, h3, h4⟩ := C11_trie_sound sip ps hu hcol t hb text hx r hr
  have hd := hn p hp
  have hf : Filled r.values p.pattern text := by
    refine filled_of_matches h1 hd.1 fun a v k hm hk => (h4 k v).mpr (capture_of_distinct ?_ hm hk)
    rw [← parserNames_of_matches h1]; exact hd.2
  exact ⟨p, hp, h2, fun y => ⟨fun hy => filled_unique h3 hy hf, fun e => e ▸ hf⟩⟩

/-- C110: two messages with the same uuid and the same values in their answers are the same message. -/
theorem C110_injective (sip : Bytes → UInt64) (ps : List Pattern) (hu : ∀ p ∈ ps, Utf8Lits p) (hcol : NoCollision sip ps)
    (hn : ∀ p ∈ ps, DistinctlyNamed p) (huuid : UuidsTell ps) (t : SuffixTree) (hb : SuffixTree.build sip ps = .ok t)
    (x y : Bytes) (hx : Utf8 x) (hy : Utf8 y) (r s : MatchResult) (hr : t.parse x = .ok (some r)) (hs : t.parse y = .ok (some s))
    (he : r.pattern.uuid = s.pattern.uuid) (hv : r.values = s.values) : x = y := by
  obtain ⟨p, hp, h1, h2⟩ := C110_filled sip ps hu hcol hn t hb x hx r hr
  obtain ⟨q, hq, h3, h4⟩ := C110_filled sip ps hu hcol hn t hb y hy s hs
  have e : p.pattern = q.pattern := huuid p hp q hq (by rw [h1, h3] at he; exact he)
  rw [e, hv] at h2
  exact ((h4 x).mp ((h2 x).mpr rfl))

/-- The patterns `user %{INT:uid} from %{GREEDY:host}` and `%{SET("ab"):word}-%{INT:n}`. -/
def filledSample : List Pattern :=
  [Samples.pat 1 [.literal b!"user ", .parser (Samples.int b!"uid"), .literal b!" from ", .parser (Samples.greedy b!"host" none)],
   Samples.pat 2 [.parser (Samples.set b!"word" b!"ab"), .literal b!"-", .parser (Samples.int b!"n")]]

example : (∀ p ∈ filledSample, DistinctlyNamed p) ∧ UuidsTell filledSample := by decide
example : ∀ p ∈ filledSample, Utf8Lits p := by
  intro p hp l hl
  simp [filledSample, Samples.pat] at hp
  rcases hp with rfl | rfl <;> simp at hl
  · rcases hl with rfl | rfl <;> exact ascii_utf8 (by decide)
  · subst hl; exact ascii_utf8 (by decide)
example : NoCollision Samples.sip filledSample := by
  rintro a b ⟨p, hp, ha⟩ ⟨q, hq, hb⟩ _
  simp [filledSample, Samples.pat] at hp hq
  rcases hp with rfl | rfl <;> rcases hq with rfl | rfl <;> simp_all
example : (match SuffixTree.build Samples.sip filledSample with
    | .ok t => t.parse b!"user 7 from a:b"
    | .error e => .error e) = .ok (some { pattern := Samples.pat 1 [], values := [(b!"host", b!"a:b"), (b!"uid", b!"7")] }) := by decide +kernel

/-- Not so in a suffix array: the messages `app` and `appl` have the same answer. -/
theorem C110_not_in_suffix_array : ∃ (t : SuffixTable) (r : MatchResult), SuffixTable.build Samples.sip [Samples.pat 1 [.literal b!"apple"]] = .ok t ∧
    t.parse b!"app" = .ok (some r) ∧ t.parse b!"appl" = .ok (some r) := by
  cases h : SuffixTable.build Samples.sip [Samples.pat 1 [.literal b!"apple"]] with
  | error e =>
    exact absurd (show (match SuffixTable.build Samples.sip [Samples.pat 1 [.literal b!"apple"]] with | .ok _ => true | .error _ => false) = true by
      decide +kernel) (by rw [h]; simp)
  | ok t =>
    have h1 : (match SuffixTable.build Samples.sip [Samples.pat 1 [.literal b!"apple"]] with
      | .ok t => t.parse b!"app" | .error e => .error e) = .ok (some (MatchResult.new (Samples.pat 1 []))) := by decide +kernel
    have h2 : (match SuffixTable.build Samples.sip [Samples.pat 1 [.literal b!"apple"]] with
      | .ok t => t.parse b!"appl" | .error e => .error e) = .ok (some (MatchResult.new (Samples.pat 1 []))) := by decide +kernel
    rw [h] at h1 h2
    exact ⟨t, _, rfl, h1, h2⟩

end Verif
