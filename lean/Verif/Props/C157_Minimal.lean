import Verif.Props.C156_Anywhere
/-! C157: sources that fail to load, reduced as far as possible, are small. -/
namespace Verif
open Spec Fewer

namespace Minimal

/-- The patterns have the property, but no smaller part of them has it. -/
def Least (Bad : List Pattern → Prop) (ps : List Pattern) : Prop := Bad ps ∧ ∀ qs : List Pattern, qs.Sublist ps → qs ≠ ps → ¬Bad qs

/-- The source does not load: it is refused, or loading it panics. -/
def DoesNotLoad {T : Type} (I : MatcherImpl T) (ps : List Pattern) : Prop := ¬∃ m, fromSource I (ps.map .ok) = .ok (.ok m, [])

/-- Adding the patterns to a trie or parsing the text panics. -/
def PanicsFor (sip : Bytes → UInt64) (text : Bytes) (ps : List Pattern) : Prop := ¬∃ r, (SuffixTree.build sip ps >>= fun t => t.parse text) = .ok r

theorem least_small {Bad : List Pattern → Prop} {ps : List Pattern} {n : Nat} (h : (∀ qs : List Pattern, qs.Sublist ps → qs.length ≤ n → ¬Bad qs) → ¬Bad ps)
    (hl : Least Bad ps) : ps.length ≤ n := by
  refine Classical.byContradiction fun hn => h (fun qs h1 h2 => hl.2 qs h1 fun k => ?_) hl.1
  subst k
  exact hn h2

/-- Every list with the property has a least part with it. -/
theorem least_exists (Bad : List Pattern → Prop) : ∀ (n : Nat) (ps : List Pattern), ps.length ≤ n → Bad ps → ∃ qs : List Pattern, qs.Sublist ps ∧ Least Bad qs := by
  intro n
  induction n with
  | zero =>
    intro ps hn hb
    have : ps = [] := List.length_eq_zero_iff.mp (by omega)
    subst this
    exact ⟨[], List.Sublist.refl _, hb, fun qs h1 h2 => absurd (List.sublist_nil.mp h1) h2⟩
  | succ n ih =>
    intro ps hn hb
    by_cases hl : Least Bad ps
    · exact ⟨ps, List.Sublist.refl _, hl⟩
    · have : ∃ qs : List Pattern, qs.Sublist ps ∧ qs ≠ ps ∧ Bad qs := Classical.byContradiction fun hno =>
        hl ⟨hb, fun qs h1 h2 h3 => hno ⟨qs, h1, h2, h3⟩⟩
      obtain ⟨qs, h1, h2, h3⟩ := this
      have hlt : qs.length < ps.length := Nat.lt_of_le_of_ne h1.length_le fun k => h2 (h1.eq_of_length k)
      obtain ⟨rs, k1, k2⟩ := ih qs (by omega) h3
      exact ⟨rs, k1.trans h1, k2⟩

end Minimal
open Minimal

/-- C157, trie: a source that fails, of which every smaller part loads, has at most three patterns; and every source that fails has such a part. -/
theorem C157_trie (sip : Bytes → UInt64) (ps : List Pattern) (hps : Proper sip ps) (hd : ps.Pairwise fun p q => p.uuid ≠ q.uuid)
    (hmsg : ∀ p ∈ ps, ∀ msg ∈ testsOf p, Utf8 msg.message) :
    (Least (DoesNotLoad (trieMatcher sip)) ps → ps.length ≤ 3) ∧
    (DoesNotLoad (trieMatcher sip) ps → ∃ qs : List Pattern, qs.Sublist ps ∧ Least (DoesNotLoad (trieMatcher sip)) qs ∧ qs.length ≤ 3) := by
  have key : ∀ qs : List Pattern, qs.Sublist ps → Least (DoesNotLoad (trieMatcher sip)) qs → qs.length ≤ 3 := fun qs hq hl =>
    least_small (fun h k => k (C155_load sip qs (proper_sub hps fun _ g => hq.subset g) (hd.sublist hq) (fun p hp => hmsg p (hq.subset hp))
      fun rs h1 h2 => Classical.not_not.mp (h rs h1 h2))) hl
  refine ⟨key ps (List.Sublist.refl _), fun hf => ?_⟩
  obtain ⟨qs, h1, h2⟩ := least_exists _ ps.length ps (Nat.le_refl _) hf
  exact ⟨qs, h1, h2, key qs h1 h2⟩

/-- C157, suffix array: the same, with two patterns. -/
theorem C157_suffix_array (sip : Bytes → UInt64) (ps : List Pattern) (hu : ∀ q ∈ ps, Utf8Lits q) (hcol : NoCollision sip ps)
    (hd : ps.Pairwise fun p q => p.uuid ≠ q.uuid) (hmsg : ∀ p ∈ ps, ∀ msg ∈ testsOf p, Utf8 msg.message) :
    (Least (DoesNotLoad (suffixArrayMatcher sip)) ps → ps.length ≤ 2) ∧
    (DoesNotLoad (suffixArrayMatcher sip) ps → ∃ qs : List Pattern, qs.Sublist ps ∧ Least (DoesNotLoad (suffixArrayMatcher sip)) qs ∧ qs.length ≤ 2) := by
  have key : ∀ qs : List Pattern, qs.Sublist ps → Least (DoesNotLoad (suffixArrayMatcher sip)) qs → qs.length ≤ 2 := fun qs hq hl =>
    least_small (fun h k => k (C152_load sip qs (fun q g => hu q (hq.subset g)) (noCollision_sub hcol fun _ g => hq.subset g) (hd.sublist hq)
      (fun p hp => hmsg p (hq.subset hp)) fun rs h1 h2 => Classical.not_not.mp (h rs h1 h2))) hl
  refine ⟨key ps (List.Sublist.refl _), fun hf => ?_⟩
  obtain ⟨qs, h1, h2⟩ := least_exists _ ps.length ps (Nat.le_refl _) hf
  exact ⟨qs, h1, h2, key qs h1 h2⟩

/-- C157, panics of the trie: patterns that panic when they are added, or when the text is parsed, and of which no smaller part does, are at most three. -/
theorem C157_panics (sip : Bytes → UInt64) (ps : List Pattern) (hps : Proper sip ps) (text : Bytes) (hx : Utf8 text) :
    (Least (PanicsFor sip text) ps → ps.length ≤ 3) ∧
    (PanicsFor sip text ps →
      ∃ qs : List Pattern, qs.Sublist ps ∧ Least (PanicsFor sip text) qs ∧ qs.length ≤ 3) := by
  have key : ∀ qs : List Pattern, qs.Sublist ps → Least (PanicsFor sip text) qs → qs.length ≤ 3 := by
    intro qs hq hl
    refine least_small (fun h k => k ?_) hl
    have hqs := proper_sub hps fun s g => hq.subset g
    have small : ∀ rs : List Pattern, rs.Sublist qs → rs.length ≤ 3 → ∃ r, (SuffixTree.build sip rs >>= fun t => t.parse text) = .ok r :=
      fun rs h1 h2 => Classical.not_not.mp (h rs h1 h2)
    obtain ⟨t, hb⟩ := C154_add sip qs hqs fun rs h1 h2 => by
      obtain ⟨r, hr⟩ := small rs h1 h2
      cases hb : SuffixTree.build sip rs with
      | error e => rw [hb] at hr; simp [bind, Except.bind] at hr
      | ok t => exact ⟨t, rfl⟩
    obtain ⟨r, hr⟩ := C154_parse sip qs hqs t hb text hx fun rs h1 h2 => small rs h1 (by omega)
    exact ⟨r, by rw [hb]; exact hr⟩
  refine ⟨key ps (List.Sublist.refl _), fun hf => ?_⟩
  obtain ⟨qs, h1, h2⟩ := least_exists _ ps.length ps (Nat.le_refl _) hf
  exact ⟨qs, h1, h2, key qs h1 h2⟩

/-- C157: there are such sources with three patterns for the trie, and with two for the suffix array. -/
theorem C157_sizes_count : (∃ ps : List Pattern, ps.length = 3 ∧ Proper Samples.sip ps ∧ (ps.Pairwise fun p q => p.uuid ≠ q.uuid) ∧
      (∀ p ∈ ps, ∀ msg ∈ testsOf p, Utf8 msg.message) ∧ Least (DoesNotLoad (trieMatcher Samples.sip)) ps) ∧
    ∃ ps : List Pattern, ps.length = 2 ∧ (ps.Pairwise fun p q => p.uuid ≠ q.uuid) ∧ Least (DoesNotLoad (suffixArrayMatcher Samples.sip)) ps := by
  constructor
  · refine ⟨[SmallPanics.more, SmallPanics.accent, SmallPanics.accentB], rfl,
      proper_sub SmallPanics.all_proper (by intro s hs; simp at hs ⊢; rcases hs with h | h | h <;> simp [h]), by decide +kernel, ?_, ?_, ?_⟩
    · intro p hp msg hm
      simp [SmallPanics.more, SmallPanics.accent, SmallPanics.accentB] at hp
      rcases hp with rfl | rfl | rfl <;> simp [testsOf, Samples.pat, Pattern.withUuid] at hm
    · unfold DoesNotLoad
      rw [← loads_iff]
      decide +kernel
    · have key : ∀ qs ∈ Three.subs [SmallPanics.more, SmallPanics.accent, SmallPanics.accentB], qs ≠ [SmallPanics.more, SmallPanics.accent, SmallPanics.accentB] →
          loads (fromSource (trieMatcher Samples.sip) (qs.map .ok)) = true := by decide +kernel
      exact fun qs hs hne => fun k => k (loads_iff.mp (key qs (Three.mem_subs hs) hne))
  · refine ⟨[SuffixLoads.one, SuffixLoads.same], rfl, by decide +kernel, ?_, ?_⟩
    · unfold DoesNotLoad
      rw [← loads_iff]
      decide +kernel
    · have key : ∀ qs ∈ Three.subs [SuffixLoads.one, SuffixLoads.same], qs ≠ [SuffixLoads.one, SuffixLoads.same] →
          loads (fromSource (suffixArrayMatcher Samples.sip) (qs.map .ok)) = true := by decide +kernel
      exact fun qs hs hne => fun k => k (loads_iff.mp (key qs (Three.mem_subs hs) hne))

/-- A source that fails, with four patterns: a part with at most three fails. -/
example : ∃ qs : List Pattern, qs.Sublist [SmallPanics.more, SmallPanics.accent, SmallPanics.other, SmallPanics.accentB] ∧
    Least (DoesNotLoad (trieMatcher Samples.sip)) qs ∧ qs.length ≤ 3 := by
  refine (C157_trie Samples.sip _ SmallPanics.all_proper (by decide +kernel) ?_).2 ?_
  · intro p hp msg hm
    simp [SmallPanics.more, SmallPanics.accent, SmallPanics.other, SmallPanics.accentB] at hp
    rcases hp with rfl | rfl | rfl | rfl <;> simp [testsOf, Samples.pat, Pattern.withUuid] at hm
  · unfold DoesNotLoad
    rw [← loads_iff]
    decide +kernel

end Verif
