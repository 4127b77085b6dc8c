import Verif.Spec.Filled
import Verif.Props.C110_Filled
import Verif.Props.C40_C45_Loader
/-! C112: the additional values of a pattern and the values of an answer. -/
namespace Verif
open Spec

/-- `sshd: %{INT:pid}` with the additional value `service`=`ssh` and a test message that expects it. -/
def additionalSample : Pattern :=
  { Samples.pat 1 [.literal b!"sshd: ", .parser (Samples.int b!"pid")] with
    values := some [(b!"service", b!"ssh")],
    testMessages := some [{ message := b!"sshd: 7", values := [(b!"service", b!"ssh")], tags := none }] }

/-- The answer for `sshd: 7`. -/
def additionalAnswer : MatchResult :=
  { pattern := { additionalSample with pattern := [], testMessages := some [] }, values := [(b!"pid", b!"7")] }

/-- The answer after loading, or `none` if loading fails. -/
def afterLoading (ps : List Pattern) (text : Bytes) : Option (M (Option MatchResult)) :=
  match fromSource (trieMatcher Samples.sip) (ps.map .ok) with
  | .ok (.ok t, _) => some (t.parse text)
  | _ => none

/-- C112 is false: the values of an answer need not contain the additional values of its pattern, and a test message that expects such a value is
accepted nevertheless. -/
theorem C112_refuted : ¬ ∀ (ps : List Pattern) (t : SuffixTree) (rest : List BuildResult) (text : Bytes) (r : MatchResult),
    fromSource (trieMatcher Samples.sip) (ps.map .ok) = .ok (.ok t, rest) → t.parse text = .ok (some r) →
    ∀ p ∈ ps, r.pattern.uuid = p.uuid → ∀ vs, p.values = some vs → ∀ kv ∈ vs, some kv.1 ∉ parserNames p.pattern → kv ∈ r.values := by
  intro h
  have key : afterLoading [additionalSample] b!"sshd: 7" = some (.ok (some additionalAnswer)) := by decide +kernel
  unfold afterLoading at key
  split at key
  · rename_i t rest ht
    have := h [additionalSample] t rest b!"sshd: 7" additionalAnswer ht (by simpa using key) additionalSample (by simp) rfl _ rfl
      (b!"service", b!"ssh") (by simp) (by decide)
    exact absurd this (by decide)
  · simp at key

theorem caps_names {toks : List Token} {x : Bytes} {caps : List (Parser × Bytes)} (h : Matches toks x caps) {k v : Bytes}
    (hc : capture caps k = some v) : some k ∈ parserNames toks := by
  rw [parserNames_of_matches h]
  simp only [capture, Option.map_eq_some_iff] at hc
  obtain ⟨c, h1, -⟩ := hc
  have h2 := List.find?_some h1
  simp at h2
  exact List.mem_map.mpr ⟨c, List.mem_of_find?_eq_some h1, h2⟩

/-- C112, what is true instead: the keys of the values of an answer are names of parsers of its pattern, so an additional value under another key is
never among them; the additional values are there through the pattern of the answer. -/
theorem C112_keys_partial (sip : Bytes → UInt64) (ps : List Pattern) (hu : ∀ p ∈ ps, Utf8Lits p) (hcol : NoCollision sip ps)
    (t : SuffixTree) (hb : SuffixTree.build sip ps = .ok t) (text : Bytes) (hx : Utf8 text) (r : MatchResult) (hr : t.parse text = .ok (some r)) :
    ∃ p ∈ ps, r.pattern = { p with pattern := [] } ∧ r.pattern.values = p.values ∧
      ∀ kv ∈ r.values, some kv.1 ∈ parserNames p.pattern := by
  obtain ⟨p, hp, caps, h1, h2, -, h4⟩ := C11_trie_sound sip ps hu hcol t hb text hx r hr
  exact ⟨p, hp, h2, by rw [h2], fun kv hkv => caps_names h1 ((h4 kv.1 kv.2).mp hkv)⟩

/-- C112, what is true instead: whoever puts the additional values under the values of an answer, as the check of the test messages does, gets all
of both, the values from the message where both have the key. -/
theorem C112_merged_partial (r : MatchResult) (h : OrderedMap r.values) (h' : ∀ vs, r.pattern.values = some vs → OrderedMap vs) (k v : Bytes) :
    valueOf r k = some v ↔ (k, v) ∈ r.values ∨ ((∀ w, (k, w) ∉ r.values) ∧ ∃ vs, r.pattern.values = some vs ∧ (k, v) ∈ vs) := by
  have get : ∀ {m : BMap}, OrderedMap m → ∀ w, m.get? k = some w ↔ (k, w) ∈ m := by
    intro m hm w
    induction m with
    | nil => simp [BMap.get?]
    | cons e m ih =>
      obtain ⟨k', u⟩ := e
      simp only [BMap.get?]
      by_cases hk : k' = k
      · subst hk
        simp only [if_pos, Option.some.injEq]
        constructor
        · rintro rfl; simp
        · intro hw; exact orderedMap_unique hm (by simp) hw
      · rw [if_neg hk, ih (by simp only [OrderedMap, List.map_cons, List.pairwise_cons] at hm; exact hm.2)]
        simp
        intro e
        exact absurd e.symm hk
  rw [C44_value r h h' k]
  cases hg : r.values.get? k with
  | some w =>
    have hw := (get h w).mp hg
    constructor
    · intro e
      simp at e
      exact .inl (e ▸ hw)
    · rintro (hv | ⟨hv, -⟩)
      · simp [orderedMap_unique h hw hv]
      · exact absurd hw (hv w)
  | none =>
    have hn : ∀ w, (k, w) ∉ r.values := fun w hw => by rw [(get h w).mpr hw] at hg; cases hg
    cases hp : r.pattern.values with
    | none => simp [hn]
    | some vs =>
      simp only [Option.none_or, Option.bind_some]
      rw [get (h' vs hp) v]
      constructor
      · exact fun hv => .inr ⟨hn, vs, rfl, hv⟩
      · rintro (hv | ⟨-, vs', e, hv⟩)
        · exact absurd hv (hn v)
        · cases e; exact hv

/-- A case: the answer above. -/
example : valueOf additionalAnswer b!"service" = some b!"ssh" ∧ valueOf additionalAnswer b!"pid" = some b!"7" := by decide
example : OrderedMap additionalAnswer.values ∧ ∀ vs, additionalAnswer.pattern.values = some vs → OrderedMap vs := by
  constructor
  · simp [OrderedMap, additionalAnswer]
  · intro vs h
    cases h
    simp [OrderedMap]

end Verif
