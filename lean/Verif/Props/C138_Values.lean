import Verif.Props.C11_C14_TrieSound
import Verif.Props.C15_C24_Trie
import Verif.Props.C25_C31_SuffixArray
import Verif.Props.C111_AnyScript
import Verif.Spec.Filled
/-! C138: the values of an answer depend only on the message and on which pattern is reported. -/
namespace Verif
open Spec

namespace SameValues

theorem captures_unique {m m' : BMap} {caps} (h : HasCaptures m caps) (h' : HasCaptures m' caps) : m = m' := by
  refine orderedMap_ext h.1 h'.1 fun k => ?_
  apply Option.ext
  intro v
  rw [← mem_iff_get h.1, ← mem_iff_get h'.1, h.2, h'.2]

theorem loose_unique {toks : List Token} {x : Bytes} {c1 c2} (h1 : LooseMatches toks x c1) (h2 : LooseMatches toks x c2) : c1 = c2 := by
  induction h1 generalizing c2 with
  | nil => cases h2; rfl
  | last l x hp =>
    generalize ht : [Token.literal l] = toks at h2
    cases h2 with
    | nil => rfl
    | last => rfl
    | literal l' c y toks caps hne => simp at ht; exact absurd ht.2 hne
    | parser => simp at ht
  | literal l c y toks caps hne hc hy _ ih =>
    generalize hx : c ++ y = x at h2
    generalize ht : Token.literal l :: toks = toks' at h2
    cases h2 with
    | nil => simp at ht
    | last => simp at ht; exact absurd ht.2 hne
    | literal l' c' y' toks' caps' _ hc' _ h3 =>
      simp at ht
      obtain ⟨rfl, rfl⟩ := ht
      rw [hx] at hc
      have := longestCommonPrefix_unique hc hc'
      subst this
      have := List.append_cancel_left hx
      subst this
      exact ih h3
    | parser => simp at ht
  | parser a toks v y caps hm _ ih =>
    generalize hx : v ++ y = x at h2
    generalize ht : Token.parser a :: toks = toks' at h2
    cases h2 with
    | nil => simp at ht
    | last => simp at ht
    | literal => simp at ht
    | parser a' toks' v' y' caps' hm' h3 =>
      simp at ht
      obtain ⟨rfl, rfl⟩ := ht
      rw [hx] at hm
      have := parserMatch_unique hm hm'
      subst this
      have := List.append_cancel_left hx
      subst this
      rw [ih h3]

/-- A text that is matched and loosely matched gives the same captures. -/
theorem matches_loose {toks : List Token} (hu : ∀ l, Token.literal l ∈ toks → Utf8 l) {x : Bytes} {c1 c2} (h1 : Matches toks x c1)
    (h2 : LooseMatches toks x c2) : c1 = c2 := by
  induction h1 generalizing c2 with
  | nil => cases h2; rfl
  | literal l toks x caps h ih =>
    generalize hx : l ++ x = z at h2
    generalize ht : Token.literal l :: toks = toks' at h2
    cases h2 with
    | nil => simp at ht
    | last l' z hp =>
      simp at ht
      obtain ⟨rfl, rfl⟩ := ht
      cases h; rfl
    | literal l' c y toks' caps' _ hc _ h3 =>
      simp at ht
      obtain ⟨rfl, rfl⟩ := ht
      have h4 : c.length ≤ l.length := hc.2.1.length_le
      have h5 : l.length ≤ c.length := hc.2.2.2 l (hu l (by simp)) (List.prefix_refl l) (by rw [← hx]; exact List.prefix_append _ _)
      have : c = l := hc.2.1.eq_of_length (by omega)
      subst this
      have := List.append_cancel_left hx
      subst this
      exact ih (fun l hl => hu l (by simp [hl])) h3
    | parser => simp at ht
  | parser a toks v x caps hm _ ih =>
    generalize hx : v ++ x = z at h2
    generalize ht : Token.parser a :: toks = toks' at h2
    cases h2 with
    | nil => simp at ht
    | last => simp at ht
    | literal => simp at ht
    | parser a' toks' v' y' caps' hm' h3 =>
      simp at ht
      obtain ⟨rfl, rfl⟩ := ht
      rw [hx] at hm
      have := parserMatch_unique hm hm'
      subst this
      have := List.append_cancel_left hx
      subst this
      rw [ih (fun l hl => hu l (by simp [hl])) h3]

end SameValues

/-- C138: two tries, whatever else they hold. -/
theorem C138_trie (sip sip' : Bytes → UInt64) (ps ps' : List Pattern) (hu : ∀ p ∈ ps ++ ps', Utf8Lits p) (hcol : NoCollision sip ps)
    (hcol' : NoCollision sip' ps') (ht : UuidsTell (ps ++ ps')) (t t' : SuffixTree) (hb : SuffixTree.build sip ps = .ok t)
    (hb' : SuffixTree.build sip' ps' = .ok t') (text : Bytes) (hx : Utf8 text) (r r' : MatchResult) (hr : t.parse text = .ok (some r))
    (hr' : t'.parse text = .ok (some r')) (he : r.pattern.uuid = r'.pattern.uuid) : r.values = r'.values := by
  obtain ⟨p, hp, caps, h1, h2⟩ := C11_trie_sound sip ps (fun p hp => hu p (by simp [hp])) hcol t hb text hx r hr
  obtain ⟨p', hp', caps', h1', h2'⟩ := C11_trie_sound sip' ps' (fun p hp => hu p (by simp [hp])) hcol' t' hb' text hx r' hr'
  have e := ht p (by simp [hp]) p' (by simp [hp']) (by rw [h2.1, h2'.1] at he; exact he)
  rw [e] at h1
  have := matches_unique h1 h1'
  subst this
  exact SameValues.captures_unique h2.2 h2'.2

/-- C138: two suffix arrays. -/
theorem C138_suffix_array (sip sip' : Bytes → UInt64) (ps ps' : List Pattern) (hu : ∀ p ∈ ps ++ ps', Utf8Lits p) (hcol : NoCollision sip ps)
    (hcol' : NoCollision sip' ps') (ht : UuidsTell (ps ++ ps')) (t t' : SuffixTable) (hb : SuffixTable.build sip ps = .ok t)
    (hb' : SuffixTable.build sip' ps' = .ok t') (text : Bytes) (hx : Utf8 text) (r r' : MatchResult) (hr : t.parse text = .ok (some r))
    (hr' : t'.parse text = .ok (some r')) (he : r.pattern.uuid = r'.pattern.uuid) : r.values = r'.values := by
  obtain ⟨p, hp, caps, h1, h2⟩ := C28_loose_partial sip ps (fun p hp => hu p (by simp [hp])) hcol t hb text hx r hr
  obtain ⟨p', hp', caps', h1', h2'⟩ := C28_loose_partial sip' ps' (fun p hp => hu p (by simp [hp])) hcol' t' hb' text hx r' hr'
  have e := ht p (by simp [hp]) p' (by simp [hp']) (by rw [h2.1, h2'.1] at he; exact he)
  rw [e] at h1
  have := SameValues.loose_unique h1 h1'
  subst this
  exact SameValues.captures_unique h2.2 h2'.2

/-- C138: a trie and a suffix array. -/
theorem C138_both (sip sip' : Bytes → UInt64) (ps ps' : List Pattern) (hu : ∀ p ∈ ps ++ ps', Utf8Lits p) (hcol : NoCollision sip ps)
    (hcol' : NoCollision sip' ps') (ht : UuidsTell (ps ++ ps')) (t : SuffixTree) (t' : SuffixTable) (hb : SuffixTree.build sip ps = .ok t)
    (hb' : SuffixTable.build sip' ps' = .ok t') (text : Bytes) (hx : Utf8 text) (r r' : MatchResult) (hr : t.parse text = .ok (some r))
    (hr' : t'.parse text = .ok (some r')) (he : r.pattern.uuid = r'.pattern.uuid) : r.values = r'.values := by
  obtain ⟨p, hp, caps, h1, h2⟩ := C11_trie_sound sip ps (fun p hp => hu p (by simp [hp])) hcol t hb text hx r hr
  obtain ⟨p', hp', caps', h1', h2'⟩ := C28_loose_partial sip' ps' (fun p hp => hu p (by simp [hp])) hcol' t' hb' text hx r' hr'
  have e := ht p (by simp [hp]) p' (by simp [hp']) (by rw [h2.1, h2'.1] at he; exact he)
  rw [← e] at h1'
  have := SameValues.matches_loose (fun l hl => hu p (by simp [hp]) l hl) h1 h1'
  subst this
  exact SameValues.captures_unique h2.2 h2'.2

end Verif
