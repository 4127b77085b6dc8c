import Verif.Spec.Strings
import Verif.Proofs.CommonPrefix
/-! C01, C02: the string helpers of /repo/src/utils/common_prefix.rs. -/
namespace Verif
open Spec

/-- C01 on bytes: `common_prefix_len` is a common prefix, ends on a character boundary of both strings, and is the
greatest such length. -/
theorem C01_common_prefix_len_greatest (a b : Bytes) (ha : Utf8 a) (hb : Utf8 b) :
    a.take (commonPrefixLen a b) = b.take (commonPrefixLen a b) ∧
    isCharBoundary a (commonPrefixLen a b) = true ∧ isCharBoundary b (commonPrefixLen a b) = true ∧
    ∀ m, isCharBoundary a m = true → m ≤ b.length → a.take m = b.take m → m ≤ commonPrefixLen a b :=
  ⟨cpl_take a b, cpl_boundary_left ha hb, cpl_boundary_right ha hb, fun _ h1 h2 h3 => cpl_max h1 h2 h3⟩

/-- C01 on characters: the common prefix length is the number of bytes of the longest common prefix of the two
*character* sequences. -/
theorem C01_common_prefix_len_chars (cs ds : List Char) :
    commonPrefixLen (encode cs) (encode ds) = (encode (commonPrefix cs ds)).length := by
  have hu : ∀ l, Utf8 (encode l) := fun l => ⟨l, rfl⟩
  -- the encoding of the common prefix is a common prefix
  have hp : ∀ cs ds, encode (commonPrefix cs ds) <+: encode cs ∧ encode (commonPrefix cs ds) <+: encode ds := by
    intro cs
    induction cs with
    | nil => intro ds; simp [commonPrefix, encode]
    | cons c cs ih =>
      intro ds
      cases ds with
      | nil => simp [commonPrefix, encode]
      | cons d ds =>
        unfold commonPrefix
        split
        · rename_i h; subst h
          simp only [encode, List.flatMap_cons] at ih ⊢
          have := ih ds
          simpa [List.prefix_append_right_inj] using this
        · simp [encode]
  -- it cannot be extended
  have hmax : ∀ cs ds xs, encode xs <+: encode cs → encode xs <+: encode ds →
      (encode xs).length ≤ (encode (commonPrefix cs ds)).length := by
    intro cs
    induction cs with
    | nil => intro ds xs h _; have := h.length_le; simp only [encode, List.flatMap_nil, List.length_nil] at this ⊢; omega
    | cons c cs ih =>
      intro ds xs h1 h2
      cases xs with
      | nil => simp [encode]
      | cons x xs =>
        cases ds with
        | nil => simp only [encode, List.flatMap_nil, List.prefix_nil] at h2; simp at h2
        | cons d ds =>
          obtain ⟨r1, h1⟩ := h1
          obtain ⟨r2, h2⟩ := h2
          simp only [encode, List.flatMap_cons, List.append_assoc] at h1 h2
          obtain ⟨e1, h1'⟩ := enc_prefix h1
          obtain ⟨e2, h2'⟩ := enc_prefix h2
          have := enc_inj e1
          have := enc_inj e2
          subst_vars
          unfold commonPrefix
          simp only [if_pos, encode, List.flatMap_cons, List.length_append] at ih ⊢
          have := ih ds xs ⟨r1, h1'⟩ ⟨r2, h2'⟩
          omega
  obtain ⟨h1, h2⟩ := hp cs ds
  apply Nat.le_antisymm
  · have hb := (boundary_split (hu cs) (cpl_boundary_left (hu cs) (hu ds))).1
    obtain ⟨xs, hxs⟩ := hb
    have := hmax cs ds xs (by rw [encode, ← hxs]; exact List.take_prefix _ _)
      (by rw [encode, ← hxs, cpl_take]; exact List.take_prefix _ _)
    rw [encode, ← hxs] at this
    have hle := cpl_le (encode cs) (encode ds)
    rw [List.length_take] at this
    omega
  · apply cpl_max
    · rw [boundary_iff (hu cs)]
      refine ⟨h1.length_le, ?_⟩
      rw [← List.prefix_iff_eq_take.mp h1]; exact hu _
    · exact h2.length_le
    · rw [← List.prefix_iff_eq_take.mp h1, ← List.prefix_iff_eq_take.mp h2]

/-- Non-vacuity and a multi-byte case: `®` and `¾` share their first byte but no character. -/
example : commonPrefixLen (encode ['a', '®', 'x']) (encode ['a', '¾']) = 1 := by decide +kernel
example : Utf8 b!"a®x" ∧ Utf8 b!"a¾" := ⟨⟨['a', '®', 'x'], by decide⟩, ⟨['a', '¾'], by decide⟩⟩

/-- C02: the common prefix length is symmetric. -/
theorem C02_common_prefix_symmetric (a b : Bytes) (ha : Utf8 a) (hb : Utf8 b) :
    commonPrefixLen a b = commonPrefixLen b a := cpl_comm ha hb

/-- C02: `has_common_prefix` is `None` exactly when one string is empty or the first characters differ; otherwise it is the
common prefix length, which is positive. -/
theorem C02_has_common_prefix (cs ds : List Char) :
    (hasCommonPrefix (encode cs) (encode ds) = none ↔ cs = [] ∨ ds = [] ∨ cs.head? ≠ ds.head?) ∧
    (∀ n, hasCommonPrefix (encode cs) (encode ds) = some n → n = commonPrefixLen (encode cs) (encode ds) ∧ 0 < n) := by
  constructor
  · unfold hasCommonPrefix
    simp only [C01_common_prefix_len_chars]
    cases cs with
    | nil => simp [commonPrefix, encode]
    | cons c cs =>
      cases ds with
      | nil => simp [commonPrefix, encode]
      | cons d ds =>
        by_cases h : c = d
        · subst h
          have : 0 < (String.utf8EncodeChar c).length := List.length_pos_iff.mpr (enc_ne_nil c)
          simp only [commonPrefix, encode, if_pos, List.flatMap_cons, List.length_append]
          rw [if_pos (by omega)]; simp
        · simp [commonPrefix, encode, h]
  · intro n h
    unfold hasCommonPrefix at h
    simp only at h
    split at h
    · simp at h; subst h; exact ⟨rfl, by assumption⟩
    · simp at h

/-- C02: truncating either string at the common prefix never panics, and gives the rest of the string: the (same) common prefix followed by the
truncated part is the string itself. `rtrunc` by the remaining length gives the common prefix. -/
theorem C02_truncation (a b : Bytes) (ha : Utf8 a) (hb : Utf8 b) :
    ∃ p ra rb, ltrunc a (commonPrefixLen a b) = .ok ra ∧ ltrunc b (commonPrefixLen a b) = .ok rb ∧
      rtrunc a (a.length - commonPrefixLen a b) = .ok p ∧ rtrunc b (b.length - commonPrefixLen a b) = .ok p ∧
      a = p ++ ra ∧ b = p ++ rb ∧ p.length = commonPrefixLen a b ∧ Utf8 p ∧ Utf8 ra ∧ Utf8 rb := by
  have h1 := cpl_boundary_left ha hb
  have h2 := cpl_boundary_right ha hb
  have hle := cpl_le a b
  have ht := cpl_take a b
  have hs1 := boundary_split ha h1
  have hs2 := boundary_split hb h2
  generalize commonPrefixLen a b = n at *
  refine ⟨a.take n, a.drop n, b.drop n, sliceFrom_ok h1, sliceFrom_ok h2, ?_, ?_, by simp, by rw [ht]; simp, ?_, hs1.1, hs1.2, hs2.2⟩
  · unfold rtrunc
    rw [if_neg (by omega), show a.length - (a.length - n) = n by omega]; exact sliceTo_ok h1
  · unfold rtrunc
    rw [if_neg (by omega), show b.length - (b.length - n) = n by omega, ht]; exact sliceTo_ok h2
  · rw [List.length_take]; omega

example : hasCommonPrefix (encode ['é', 'a']) (encode ['é', 'b']) = some 2 := by decide +kernel

end Verif
