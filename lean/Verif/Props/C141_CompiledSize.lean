import Verif.Spec.CompiledSize
import Verif.Props.C32_C39_Grammar
import Verif.Props.C52_EndToEnd
import Verif.Props.C87_Size
import Verif.Props.C89_C90_Converted
/-! C141: the size of compiled patterns and of matchers in terms of the pattern strings. -/
namespace Verif
open Spec

namespace CompiledSize

theorem insert_length (x : UInt8) (l : List UInt8) : (bsetInsert x l).length ≤ l.length + 1 := by
  induction l with
  | nil => simp [bsetInsert]
  | cons y ys ih =>
    rw [bsetInsert]
    split <;> simp only [List.length_cons] <;> omega

theorem fromIter_length (l : List UInt8) : (bsetFromIter l).length ≤ l.length := by
  have key : ∀ (l s : List UInt8), (l.foldl (fun s x => bsetInsert x s) s).length ≤ s.length + l.length := by
    intro l
    induction l with
    | nil => intro s; simp
    | cons x l ih =>
      intro s
      have h1 := ih (bsetInsert x s)
      have h2 := insert_length x s
      simp only [List.foldl_cons, List.length_cons]
      omega
  have := key l []
  simpa [bsetFromIter] using this

theorem name_length {n : Option Bytes} {x : Bytes} (h : NameText n x) : (n.getD []).length ≤ x.length := by
  cases h <;> simp

/-- What is shown of the tokens of a string. -/
structure Small (ts : List Token) (s : Bytes) : Prop where
  number : ts.length ≤ s.length
  bytes : (ts.map tokenBytes).sum ≤ 2 * s.length
  lits : weight List.length 0 ts ≤ s.length
  nodes : weight (fun _ => 2) 1 ts ≤ 2 * s.length

theorem small_cons {t : Token} {ts : List Token} {w s : Bytes} (h : Small ts s) (h0 : w ≠ []) (h1 : tokenBytes t ≤ 2 * w.length)
    (h2 : weight List.length 0 [t] ≤ w.length) : Small (t :: ts) (w ++ s) := by
  have hl := List.length_pos_iff.mpr h0
  obtain ⟨g1, g2, g3, g4⟩ := h
  refine ⟨?_, ?_, ?_, ?_⟩
  · simp; omega
  · simp only [List.map_cons, List.sum_cons, List.length_append]; omega
  · simp only [weight, List.map_cons, List.sum_cons, List.length_append, List.map_nil, List.sum_nil] at *; omega
  · simp only [weight, List.map_cons, List.sum_cons, List.length_append] at *
    cases t <;> simp only <;> omega

theorem small : ∀ (es : List Elem) (s : Bytes), Written es s → Small (tokens es) s
  | [], s, h => by
    cases h
    exact ⟨by simp [tokens], by simp [tokens], by simp [tokens, weight], by simp [tokens, weight]⟩
  | [.greedy n], s, h => by
    cases h with
    | cons _ _ w s hw hs _ =>
      cases hw with
      | greedy _ x hx =>
        have := name_length hx
        cases hs
        rw [tokens]
        · exact small_cons ⟨by simp [tokens], by simp [tokens], by simp [tokens, weight], by simp [tokens, weight]⟩ (by simp)
            (by simp [tokenBytes]; omega) (by simp [weight])
        · intro _ _ h; cases h
  | .greedy n :: .literal raw :: es, s, h => by
    cases h with
    | cons _ _ w s hw hs _ =>
      cases hs with
      | cons _ _ w' s' hw' hs' _ =>
        have ih := small es s' hs'
        cases hw with
        | greedy _ x hx =>
          have hn := name_length hx
          cases hw' with
          | literal _ h0 _ =>
            have hl := List.length_pos_iff.mpr h0
            obtain ⟨g1, g2, g3, g4⟩ := ih
            rw [tokens]
            refine ⟨?_, ?_, ?_, ?_⟩
            · simp; omega
            · simp [tokenBytes]; omega
            · simp only [weight, List.map_cons, List.sum_cons, List.length_append] at *; omega
            · simp only [weight, List.map_cons, List.sum_cons, List.length_append] at *
              simp; omega
  | .greedy n :: .int os m :: es, s, h => by
    cases h with
    | cons _ _ w s hw hs _ =>
      have ih := small _ s hs
      cases hw with
      | greedy _ x hx =>
        have := name_length hx
        rw [tokens]
        · exact small_cons ih (by simp) (by simp [tokenBytes]; omega) (by simp [weight])
        · intro _ _ h; cases h
  | .greedy n :: .set cs os m :: es, s, h => by
    cases h with
    | cons _ _ w s hw hs _ =>
      have ih := small _ s hs
      cases hw with
      | greedy _ x hx =>
        have := name_length hx
        rw [tokens]
        · exact small_cons ih (by simp) (by simp [tokenBytes]; omega) (by simp [weight])
        · intro _ _ h; cases h
  | .greedy n :: .greedy m :: es, s, h => by
    cases h with
    | cons _ _ w s hw hs _ =>
      have ih := small _ s hs
      cases hw with
      | greedy _ x hx =>
        have := name_length hx
        rw [tokens]
        · exact small_cons ih (by simp) (by simp [tokenBytes]; omega) (by simp [weight])
        · intro _ _ h; cases h
  | .literal raw :: es, s, h => by
    cases h with
    | cons _ _ w s hw hs _ =>
      have ih := small es s hs
      cases hw with
      | literal _ h0 _ =>
        have := unescape_length raw
        rw [tokens]
        exact small_cons ih h0 (by simp [tokenBytes]; omega) (by simpa [weight] using this)
  | .int os n :: es, s, h => by
    cases h with
    | cons _ _ w s hw hs _ =>
      have ih := small es s hs
      cases hw with
      | int _ _ w x hw hx =>
        have := name_length hx
        rw [tokens]
        exact small_cons ih (by simp) (by simp [tokenBytes, intParser]; omega) (by simp [weight])
  | .set cs os n :: es, s, h => by
    cases h with
    | cons _ _ w s hw hs _ =>
      have ih := small es s hs
      cases hw with
      | set _ _ _ w x _ _ hw hx =>
        have := name_length hx
        have := fromIter_length cs
        rw [tokens]
        exact small_cons ih (by simp) (by simp [tokenBytes, setParser]; omega) (by simp [weight])

theorem weight_literal (ts : List Token) : weight List.length 0 ts = literalBytes ts := by
  unfold weight literalBytes
  congr 1

end CompiledSize

/-- C141: a pattern string compiles to at most as many tokens as it has bytes, with at most as many bytes in literals and at most twice as many in all (the
text after a GREEDY is stored twice, and INT stands for its ten digits). -/
theorem C141_compiled (s : Bytes) (hu : Utf8 s) (ts : List Token) (h : compile s = .ok (.ok ts)) :
    ts.length ≤ s.length ∧ literalBytes ts ≤ s.length ∧ (ts.map tokenBytes).sum ≤ 2 * s.length := by
  obtain ⟨es, _, h2, rfl⟩ := (C58_language s hu ts).mp h
  have := CompiledSize.small es s h2
  exact ⟨this.number, by rw [← CompiledSize.weight_literal]; exact this.lits, this.bytes⟩

/-- C141: the size of a trie is linear in the length of the pattern strings from which its patterns were compiled. -/
theorem C141_trie (sip : Bytes → UInt64) (sources : List (Bytes × Pattern)) (hu : ∀ c ∈ sources, Utf8 c.1)
    (hc : ∀ c ∈ sources, compile c.1 = .ok (.ok c.2.pattern)) (t : SuffixTree) (h : SuffixTree.build sip (sources.map (·.2)) = .ok t) :
    t.nodes ≤ 2 * (sources.map fun c => c.1.length).sum ∧ t.labelBytes ≤ (sources.map fun c => c.1.length).sum := by
  have hl : ∀ p ∈ sources.map (·.2), Utf8Lits p := by
    intro p hp
    obtain ⟨c, hcm, rfl⟩ := List.mem_map.mp hp
    exact (C34_utf8 c.1 (hu c hcm) _ (hc c hcm)).1
  obtain ⟨h1, h2⟩ := C87_trie sip _ hl t h
  have small : ∀ c ∈ sources, CompiledSize.Small c.2.pattern c.1 := by
    intro c hcm
    obtain ⟨es, _, g2, g3⟩ := (C58_language c.1 (hu c hcm) _).mp (hc c hcm)
    rw [← g3]; exact CompiledSize.small es c.1 g2
  have sums : ∀ (L : List (Bytes × Pattern)), (∀ c ∈ L, CompiledSize.Small c.2.pattern c.1) →
      (L.map fun c => weight (fun _ => 2) 1 c.2.pattern).sum ≤ 2 * (L.map fun c => c.1.length).sum ∧
      (L.map fun c => weight List.length 0 c.2.pattern).sum ≤ (L.map fun c => c.1.length).sum := by
    intro L
    induction L with
    | nil => intro _; simp
    | cons c L ih =>
      intro hs
      have g := hs c (by simp)
      have := ih fun d hd => hs d (by simp [hd])
      have g1 := g.nodes
      have g2 := g.lits
      simp only [List.map_cons, List.sum_cons]
      omega
  have := sums sources small
  simp only [List.map_map, Function.comp_def] at h1 h2
  omega

/-- C141 for the suffix array. -/
theorem C141_suffix_array (sip : Bytes → UInt64) (sources : List (Bytes × Pattern)) (hu : ∀ c ∈ sources, Utf8 c.1)
    (hc : ∀ c ∈ sources, compile c.1 = .ok (.ok c.2.pattern)) (t : SuffixTable) (h : SuffixTable.build sip (sources.map (·.2)) = .ok t) :
    t.entries ≤ (sources.map fun c => c.1.length).sum ∧ t.labelBytes ≤ (sources.map fun c => c.1.length).sum := by
  obtain ⟨h1, h2⟩ := C87_suffix_array sip _ t h
  have small : ∀ c ∈ sources, CompiledSize.Small c.2.pattern c.1 := by
    intro c hcm
    obtain ⟨es, _, g2, g3⟩ := (C58_language c.1 (hu c hcm) _).mp (hc c hcm)
    rw [← g3]; exact CompiledSize.small es c.1 g2
  have sums : ∀ (L : List (Bytes × Pattern)), (∀ c ∈ L, CompiledSize.Small c.2.pattern c.1) →
      (L.map fun c => c.2.pattern.length).sum ≤ (L.map fun c => c.1.length).sum ∧
      (L.map fun c => weight List.length 0 c.2.pattern).sum ≤ (L.map fun c => c.1.length).sum := by
    intro L
    induction L with
    | nil => intro _; simp
    | cons c L ih =>
      intro hs
      have g := hs c (by simp)
      have := ih fun d hd => hs d (by simp [hd])
      have g1 := g.number
      have g2 := g.lits
      simp only [List.map_cons, List.sum_cons]
      omega
  have := sums sources small
  simp only [List.map_map, Function.comp_def] at h1 h2
  omega

/-- C141: nothing less than twice the length would do: the text after a GREEDY is stored twice, however long it is. -/
theorem C141_twice (n : Nat) : ∃ (s : Bytes) (ts : List Token), s.length = n + 10 ∧ compile s = .ok (.ok ts) ∧ (ts.map tokenBytes).sum = 2 * (n + 1) := by
  have ha : Ascii (b!"%{GREEDY}" ++ List.replicate (n + 1) 120) := by
    intro c hc
    rcases List.mem_append.mp hc with h | h
    · clear hc; revert c; decide
    · rw [(List.mem_replicate.mp h).2]; decide
  refine ⟨b!"%{GREEDY}" ++ List.replicate (n + 1) 120, tokens [.greedy none, .literal (List.replicate (n + 1) 120)], by simp, ?_, ?_⟩
  · rw [C58_language _ (ascii_utf8 ha)]
    refine ⟨_, by simp, ?_, rfl⟩
    refine .cons _ _ b!"%{GREEDY}" _ (.greedy none [] .none) ?_ (fun h => by simp [Elem.isLiteral] at h)
    have := Written.cons (.literal (List.replicate (n + 1) 120)) [] _ [] (.literal (List.replicate (n + 1) 120) (by simp) ?_) .nil (fun _ => rfl)
    · simpa using this
    · rintro ⟨a, b, h⟩
      have : (37 : UInt8) ∈ List.replicate (n + 1) (120 : UInt8) := by rw [← h]; simp
      exact absurd (List.mem_replicate.mp this).2 (by decide)
  · simp [tokens, tokenBytes]; omega

end Verif
