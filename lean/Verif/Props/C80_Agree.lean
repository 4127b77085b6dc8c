import Verif.Props.C79_Change
import Verif.Props.C75_C76_Families
import Verif.Proofs.SuffixChange
/-! C80: when the two matchers give the same answer. -/
namespace Verif
open Spec

theorem lastWith_of {ps : List Pattern} {P : List Token → Prop} {p : Pattern} (hp : p ∈ ps) (h : P p.pattern)
    (hu : ps.Pairwise fun p q => P p.pattern → ¬ P q.pattern) : LastWith ps P p := by
  obtain ⟨A, B, rfl⟩ := List.append_of_mem hp
  refine ⟨A, B, rfl, h, ?_⟩
  intro q hq
  exact (List.pairwise_cons.mp (List.pairwise_append.mp hu).2.1).1 q hq h

theorem both_answer {sip : Bytes → UInt64} {ps : List Pattern} (hps : Proper sip ps) (hd : Undisturbed ps) {text : Bytes} (hx : Utf8 text)
    {p : Pattern} (hp : p ∈ ps) {l : Bytes} {rest : List Token} (hl : p.pattern = .literal l :: rest) {caps} (hm : MatchesStrict p.pattern text caps)
    (hfar : ∀ l', Leading ps l' → l' ≠ l → ∀ c, c <+: l' → c <+: text → c.length < l.length)
    {r r' : Option MatchResult} (t2 : (Table.of ps).Answer text r) (s2 : SuffixAnswer ps text r') :
    ∃ res, IsResult res p caps ∧ r = some res ∧ r' = some res := by
  have hux := hx
  have hul : ∀ l', Leading ps l' → Utf8 l' := by
    rintro l' ⟨q, hq, r, e⟩
    exact hps.utf8 q hq l' (by rw [e]; simp)
  have hlead : Leading ps l := ⟨p, hp, rest, hl⟩
  have hne : l ≠ [] := hps.nonempty p hp l (by rw [hl]; simp)
  have hinv : l <+: text ∧ (rest = [] → text = l ∧ caps = []) ∧ (rest ≠ [] → text ≠ l) := by
    have hm' := hm
    rw [hl] at hm'
    cases hm' with
    | literal _ _ y _ hy hmy =>
      refine ⟨List.prefix_append _ _, ?_, ?_⟩
      · rintro rfl
        cases hmy
        exact ⟨by simp, rfl⟩
      · intro hr e
        exact hy hr (by simpa using e)
  obtain ⟨hpre, hnil, hcons⟩ := hinv
  -- the trie
  have hf := family_answer (lists_of hd) t2
  have ht : ∃ res, r = some res ∧ IsResult res p caps := by
    by_cases hr : rest = []
    · obtain ⟨rfl, rfl⟩ := hnil hr
      refine ⟨_, hf.1 p ⟨hp, by rw [hl, hr]⟩, rfl, ?_⟩
      exact ⟨by simp [OrderedMap], fun k v => by simp [capture]⟩
    · have hlong : l.length < text.length := by
        rcases Nat.lt_or_ge l.length text.length with h | h
        · exact h
        · exact absurd (prefix_eq hpre h).symm (hcons hr)
      refine C76_literal_led ps text r hf l hne p ⟨hp, rest, hr, hl⟩ ?_ ?_ caps hm
      · intro h
        have := hfar text h (hcons hr) text (List.prefix_refl _) (List.prefix_refl _)
        omega
      · rintro b (rfl | ⟨q, hq, rest', _, e⟩ | ⟨l1, l2, h1, h2, h12, hc⟩) hb
        · simp
        · by_cases e' : b = l
          · rw [e']; exact Nat.le_refl _
          · exact Nat.le_of_lt (hfar b ⟨q, hq, rest', e⟩ e' b (List.prefix_refl _) hb)
        · by_cases e1 : l1 = l
          · exact Nat.le_of_lt (hfar l2 h2 (fun e2 => h12 (e1.trans e2.symm)) b hc.2.1 hb)
          · exact Nat.le_of_lt (hfar l1 h1 e1 b hc.1 hb)
  obtain ⟨res, rfl, hres⟩ := ht
  refine ⟨res, hres, rfl, ?_⟩
  -- the suffix array
  have hleads : ∀ l', Leads ps l' ↔ Leading ps l' := by
    intro l'
    constructor
    · rintro ⟨q, hq, e⟩
      cases hqp : q.pattern with
      | nil => rw [hqp] at e; simp at e
      | cons tok toks => rw [hqp] at e; simp at e; subst e; exact ⟨q, hq, toks, hqp⟩
    · rintro ⟨q, hq, toks, e⟩
      exact ⟨q, hq, by rw [e]; rfl⟩
  have hchosen : Chosen ps text l := by
    refine ⟨(hleads l).mpr hlead, ?_⟩
    by_cases e : l = text
    · exact .inl e
    · right
      have hlong : l.length < text.length := by
        rcases Nat.lt_or_ge l.length text.length with h | h
        · exact h
        · exact absurd (prefix_eq hpre h) e
      refine ⟨?_, ?_⟩
      · intro h
        have := hfar text ((hleads text).mp h) (Ne.symm e) text (List.prefix_refl _) (List.prefix_refl _)
        omega
      · intro l' h1 h2
        have h1' := (hleads l').mp h1
        have hlcp : LongestCommonPrefix l text l :=
          ⟨hul l hlead, List.prefix_refl _, hpre, fun c' _ h _ => h.length_le⟩
        refine ⟨?_, ?_⟩
        · intro c c' hc hc'
          have g1 := hc.2.2.2 l (hul l hlead) (List.prefix_refl _) hpre
          have g2 := hfar l' h1' h2 c' hc'.2.1 hc'.2.2.1
          omega
        · intro hn
          have hc' : LongestCommonPrefix l' text (text.take (commonPrefixLen l' text)) := (lcp_iff (hul l' h1') hux).mpr rfl
          have g1 := hn _ _ hc' hlcp
          have g2 := hfar l' h1' h2 _ hc'.2.1 hc'.2.2.1
          omega
  obtain ⟨a1, a2⟩ := s2.2 l hchosen
  have hr' : ∃ res', r' = some res' ∧ IsResult res' p caps := by
    by_cases hr : rest = []
    · obtain ⟨rfl, rfl⟩ := hnil hr
      refine ⟨_, (a1 (List.prefix_refl _)).1 p (lastWith_of hp (by rw [hl, hr]) ?_), rfl, ?_⟩
      · refine hd.imp ?_
        intro p q hpq e1 e2
        have := (hpq.1 text [] text [] e1 e2).1 rfl
        simp at this
      · exact ⟨by simp [OrderedMap], fun k v => by simp [capture]⟩
    · have hnp : ¬ text <+: l := fun h => hcons hr (List.IsPrefix.eq_of_length_le h hpre.length_le)
      have hfl := (a2 hnp).1 p (lastWith_of hp ⟨rest, hr, hl⟩ (by
        refine hd.imp ?_
        rintro p q hpq ⟨r1, g1, e1⟩ ⟨r2, g2, e2⟩
        exact g1 (((hpq.1 l r1 l r2 e1 e2).1 rfl).mpr g2)))
      exact hfl.1 [] p [] caps rfl (by simp) (strict_loose hm (fun l' hl' => hps.utf8 p hp l' hl'))
  obtain ⟨res', rfl, hres'⟩ := hr'
  rw [isResult_unique hres' hres]

/-- C80: if a text matches a pattern of an undisturbed list that begins with a literal, and every other leading literal has less in common with the
text than this one, both matchers answer with this pattern and its values. -/
theorem C80_agree (sip : Bytes → UInt64) (ps : List Pattern) (hps : Plain sip ps) (hd : Undisturbed ps) (text : Bytes) (hx : Ascii text)
    (p : Pattern) (hp : p ∈ ps) (l : Bytes) (rest : List Token) (hl : p.pattern = .literal l :: rest) (caps) (hm : MatchesStrict p.pattern text caps)
    (hfar : ∀ l', Leading ps l' → l' ≠ l → ∀ c, c <+: l' → c <+: text → c.length < l.length) :
    ∃ res, IsResult res p caps ∧ (SuffixTree.build sip ps >>= fun t => t.parse text) = .ok (some res) ∧
      (SuffixTable.build sip ps >>= fun t => t.parse text) = .ok (some res) := by
  obtain ⟨r, t1, t2⟩ := C65_table_ascii sip ps hps.ascii hps.nonempty hps.split hps.hashes text hx
  obtain ⟨r', s1, s2⟩ := C74_ascii sip ps (fun q hq => asciiLits_utf8 (hps.ascii q hq)) hps.hashes text hx
  obtain ⟨res, h1, rfl, rfl⟩ := both_answer hps.proper hd (ascii_utf8 hx) hp hl hm hfar t2 s2
  exact ⟨res, h1, t1, s1⟩

/-- C80 for patterns and texts in any script: both matchers answer with this pattern and its values, unless they panic. -/
theorem C80_agree_utf8 (sip : Bytes → UInt64) (ps : List Pattern) (hps : Proper sip ps) (hd : Undisturbed ps) (text : Bytes) (hx : Utf8 text)
    (p : Pattern) (hp : p ∈ ps) (l : Bytes) (rest : List Token) (hl : p.pattern = .literal l :: rest) (caps) (hm : MatchesStrict p.pattern text caps)
    (hfar : ∀ l', Leading ps l' → l' ≠ l → ∀ c, c <+: l' → c <+: text → c.length < l.length) :
    ∃ res, IsResult res p caps ∧
      (∀ r, (SuffixTree.build sip ps >>= fun t => t.parse text) = .ok r → r = some res) ∧
      (∀ r, (SuffixTable.build sip ps >>= fun t => t.parse text) = .ok r → r = some res) := by
  obtain ⟨r0, h0⟩ := C65_answer_exists ps text
  obtain ⟨r1, h1⟩ := suffixAnswer_exists hps.utf8 hx
  obtain ⟨res, hres, rfl, rfl⟩ := both_answer hps hd hx hp hl hm hfar h0 h1
  refine ⟨res, hres, fun r hr => C65_answer_unique _ _ _ _ (proper_answer hps hx hr) h0, fun r hr => ?_⟩
  obtain ⟨t, hb, hs⟩ := C73_answer sip ps hps.utf8 hps.hashes
  rw [hb] at hr
  exact C73_answer_unique ps hps.utf8 text hx _ _ (hs text hx r hr) h1

/-- The pattern `apple %{GREEDY:g}` of the sample list and the text `apple 1` meet the hypotheses. -/
example : Plain Samples.sip familySample ∧ Undisturbed familySample ∧ Samples.pat 2 [.literal b!"apple ", .parser (Samples.greedy b!"g" none)] ∈ familySample :=
  ⟨⟨familySample_lits.1, familySample_lits.2.1, familySample_lits.2.2, familySample_hashes⟩, familySample_undisturbed, by simp [familySample]⟩

example : ∀ l', Leading familySample l' → l' ≠ b!"apple " → ∀ c, c <+: l' → c <+: b!"apple 1" → c.length < b!"apple ".length := by
  rintro l' ⟨p, hp, rest, e⟩ hne c hc _
  have hlen := hc.length_le
  simp [familySample] at hp
  rcases hp with rfl | rfl | rfl | rfl | rfl | rfl | rfl <;> simp [Samples.pat] at e
  · rw [← e.1] at hlen; simp at hlen ⊢; omega
  · exact absurd e.1.symm hne
  · rw [← e.1] at hlen; simp at hlen ⊢; omega
  · rename_i h
    rw [← e.1] at hc
    rcases Nat.lt_or_ge c.length 6 with g | g
    · exact g
    · exfalso
      have hcx : c <+: b!"apple 1" := h
      have : c.take 3 = b!"apr" := by
        obtain ⟨y, hy⟩ := hc
        have := congrArg (List.take 3) hy
        rw [List.take_append_of_le_length (by omega)] at this
        simpa using this
      have h2 : c.take 3 = b!"app" := by
        obtain ⟨y, hy⟩ := hcx
        have := congrArg (List.take 3) hy
        rw [List.take_append_of_le_length (by omega)] at this
        simpa using this
      rw [this] at h2
      simp at h2
  · rw [← e.1] at hlen; simp at hlen ⊢; omega

/-- Without this condition they differ: `applx` has more in common with `apple ` than with `app`, and only the trie asks `app%{GREEDY}`. -/
example : (SuffixTree.build Samples.sip [Samples.pat 1 [.literal b!"app", .parser (Samples.greedy b!"g" none)],
      Samples.pat 2 [.literal b!"apple ", .parser (Samples.int b!"i")]] >>= fun t => t.parse b!"applx") =
      .ok (some { pattern := Samples.pat 1 [], values := [(b!"g", b!"lx")] }) ∧
    (SuffixTable.build Samples.sip [Samples.pat 1 [.literal b!"app", .parser (Samples.greedy b!"g" none)],
      Samples.pat 2 [.literal b!"apple ", .parser (Samples.int b!"i")]] >>= fun t => t.parse b!"applx") = .ok none := by decide +kernel

end Verif
