import Verif.Props.C116_Kept
import Verif.Props.C101_Again
import Verif.Props.C100_SuffixOrder
/-! C118: which patterns a suffix array keeps. -/
namespace Verif
open Spec

theorem lastOfKind_alone {ps : List Pattern} {l : Bytes} {p : Pattern} (h : LastOfKind ps l p) (hp : p.pattern = [.literal l]) :
    LastWith ps (· = [.literal l]) p := by
  obtain ⟨A, B, rest, e, h1, h2⟩ := h
  refine ⟨A, B, e, hp, ?_⟩
  intro q hq hq'
  rw [hp] at h1
  simp only [List.cons.injEq, true_and] at h1
  have := (h2 q hq [] hq').mp rfl
  exact this h1.symm

theorem lastOfKind_more {ps : List Pattern} {l : Bytes} {p : Pattern} (h : LastOfKind ps l p) (hp : GoesOn p l) :
    LastWith ps (fun toks => ∃ rest, rest ≠ [] ∧ toks = .literal l :: rest) p := by
  obtain ⟨A, B, rest, e, h1, h2⟩ := h
  refine ⟨A, B, e, hp, ?_⟩
  rintro q hq ⟨rest', g1, g2⟩
  obtain ⟨r, g3, g4⟩ := hp
  rw [h1] at g4
  simp only [List.cons.injEq, true_and] at g4
  exact g1 ((h2 q hq rest' g2).mpr (g4 ▸ g3))

theorem leads_leading {ps : List Pattern} {l : Bytes} : Leads ps l ↔ Leading ps l := by
  constructor
  · rintro ⟨q, hq, e⟩
    cases hqp : q.pattern with
    | nil => rw [hqp] at e; simp at e
    | cons tok toks => rw [hqp] at e; simp at e; subst e; exact ⟨q, hq, toks, hqp⟩
  · rintro ⟨q, hq, toks, e⟩
    exact ⟨q, hq, by rw [e]; rfl⟩

/-- A leading literal the text begins with is chosen if every other one has less in common with the text. -/
theorem chosen_far {ps : List Pattern} (hu : ∀ p ∈ ps, Utf8Lits p) {text : Bytes} (hx : Utf8 text) {l : Bytes} (hlead : Leading ps l) (hpre : l <+: text)
    (hfar : ∀ l', Leading ps l' → l' ≠ l → ∀ c, c <+: l' → c <+: text → c.length < l.length) : Chosen ps text l := by
  have hul : ∀ l', Leading ps l' → Utf8 l' := by
    rintro l' ⟨q, hq, r, e⟩
    exact hu q hq l' (by rw [e]; simp)
  refine ⟨leads_leading.mpr hlead, ?_⟩
  by_cases e : l = text
  · exact .inl e
  · right
    have hlong : l.length < text.length := by
      rcases Nat.lt_or_ge l.length text.length with h | h
      · exact h
      · exact absurd (prefix_eq hpre h) e
    refine ⟨?_, ?_⟩
    · intro h
      have := hfar text (leads_leading.mp h) (Ne.symm e) text (List.prefix_refl _) (List.prefix_refl _)
      omega
    · intro l' h1 h2
      have h1' := leads_leading.mp h1
      have hlcp : LongestCommonPrefix l text l := ⟨hul l hlead, List.prefix_refl _, hpre, fun c' _ h _ => h.length_le⟩
      refine ⟨?_, ?_⟩
      · intro c c' hc hc'
        have g1 := hc.2.2.2 l (hul l hlead) (List.prefix_refl _) hpre
        have g2 := hfar l' h1' h2 c' hc'.2.1 hc'.2.2.1
        omega
      · intro hn
        have hc' : LongestCommonPrefix l' text (text.take (commonPrefixLen l' text)) := (lcp_iff (hul l' h1') hx).mpr rfl
        have g1 := hn _ _ hc' hlcp
        have g2 := hfar l' h1' h2 _ hc'.2.1 hc'.2.2.1
        omega

/-- C118: the last pattern of its kind that begins with a literal is the answer for every text it matches with which every other leading literal has less in
common. -/
theorem C118_found (sip : Bytes → UInt64) (ps : List Pattern) (hu : ∀ p ∈ ps, Utf8Lits p) (hcol : NoCollision sip ps) (p : Pattern) (l : Bytes)
    (hp : LastOfKind ps l p) (text : Bytes) (hx : Utf8 text) (caps) (hm : MatchesStrict p.pattern text caps)
    (hfar : ∀ l', Leading ps l' → l' ≠ l → ∀ c, c <+: l' → c <+: text → c.length < l.length) (r : Option MatchResult)
    (hr : (SuffixTable.build sip ps >>= fun t => t.parse text) = .ok r) : ∃ res, r = some res ∧ IsResult res p caps := by
  have ha := suffix_answer_of hu hcol hx hr
  have hp' := hp
  obtain ⟨A, B, rest, e, h1, h2⟩ := hp
  have hmem : p ∈ ps := by rw [e]; simp
  obtain ⟨y, ey, hy, hmy⟩ := strict_lit_inv (h1 ▸ hm)
  have hpre : l <+: text := ⟨y, ey.symm⟩
  obtain ⟨a1, a2⟩ := ha.2 l (chosen_far hu hx ⟨p, hmem, rest, h1⟩ hpre hfar)
  by_cases hrest : rest = []
  · subst hrest
    obtain ⟨rfl, rfl⟩ := strict_nil_inv hmy
    have et : text = l := by simpa using ey
    exact ⟨_, (a1 (by rw [et]; exact List.prefix_refl _)).1 p (lastOfKind_alone hp' h1), rfl, by simp [OrderedMap], fun k v => by simp [capture]⟩
  · have hyl : 0 < y.length := List.length_pos_iff.mpr (hy hrest)
    have hnp : ¬ text <+: l := by
      intro h
      have := h.length_le
      rw [ey, List.length_append] at this
      omega
    exact ((a2 hnp).1 p (lastOfKind_more hp' ⟨rest, hrest, h1⟩)).1 [] p [] caps rfl (by simp) (strict_loose hm (fun l' hl' => hu p hmem l' hl'))

/-- C118: the last pattern that is a literal alone is the answer for this literal, whatever else was added. -/
theorem C118_literal (sip : Bytes → UInt64) (ps : List Pattern) (hu : ∀ p ∈ ps, Utf8Lits p) (hcol : NoCollision sip ps) (p : Pattern) (l : Bytes)
    (hp : LastOfKind ps l p) (hl : p.pattern = [.literal l]) (r : Option MatchResult)
    (hr : (SuffixTable.build sip ps >>= fun t => t.parse l) = .ok r) : r = some { pattern := { p with pattern := [] }, values := [] } := by
  have hmem : p ∈ ps := by obtain ⟨A, B, rest, e, _⟩ := hp; rw [e]; simp
  have ha := suffix_answer_of hu hcol (hu p hmem l (by rw [hl]; simp)) hr
  exact ((ha.2 l ⟨leads_leading.mpr ⟨p, hmem, [], hl⟩, .inl rfl⟩).1 (List.prefix_refl _)).1 p (lastOfKind_alone hp hl)

/-- C118: once some pattern begins with a literal, every answer is that of a pattern that is the last of its kind.  Patterns that begin with a parser and those
that were replaced are the answer for no text. -/
theorem C118_only_last (sip : Bytes → UInt64) (ps : List Pattern) (hu : ∀ p ∈ ps, Utf8Lits p) (hcol : NoCollision sip ps) (hl : ∃ l, Leading ps l)
    (text : Bytes) (hx : Utf8 text) (res : MatchResult) (hr : (SuffixTable.build sip ps >>= fun t => t.parse text) = .ok (some res)) :
    ∃ s l, LastOfKind ps l s ∧ res.pattern = { s with pattern := [] } := by
  have ha := suffix_answer_of hu hcol hx hr
  obtain ⟨l0, hc, _⟩ := C73_chosen ps hu text hx (hl.imp fun l h => leads_leading.mpr h)
  obtain ⟨a1, a2⟩ := ha.2 l0 hc
  by_cases hpre : text <+: l0
  · rcases lastWith_or (ps := ps) (· = [.literal l0]) with ⟨s, hs⟩ | hw
    · have e1 := (a1 hpre).1 s hs
      simp only [Option.some.injEq] at e1
      obtain ⟨A, B, e2, e3, e4⟩ := hs
      refine ⟨s, l0, ⟨A, B, [], e2, e3, ?_⟩, by rw [e1]⟩
      intro q hq rest' e
      constructor
      · rintro rfl; exact absurd e (e4 q hq)
      · intro h; exact absurd rfl h
    · simpa using (a1 hpre).2 hw
  · rcases lastWith_or (ps := ps) (fun toks => ∃ rest, rest ≠ [] ∧ toks = .literal l0 :: rest) with ⟨s, hs⟩ | hw
    · have hf := (a2 hpre).1 s hs
      have e1 : res.pattern = { s with pattern := [] } := by
        by_cases hm : ∃ caps, LooseMatches s.pattern text caps
        · obtain ⟨caps, hm⟩ := hm
          obtain ⟨res', e, h⟩ := hf.1 [] s [] caps rfl (by simp) hm
          simp only [Option.some.injEq] at e
          rw [e]
          exact h.1
        · have := hf.2 (by simpa using hm)
          simp at this
      obtain ⟨A, B, e2, ⟨r, e3, e3'⟩, e4⟩ := hs
      refine ⟨s, l0, ⟨A, B, r, e2, e3', ?_⟩, e1⟩
      intro q hq rest' e
      constructor
      · intro _; exact e3
      · intro _
        false_or_by_contra
        rename_i h
        exact e4 q hq ⟨rest', h, e⟩
    · have := (a2 hpre).2 fun p hp rest h e => hw p hp ⟨rest, h, e⟩
      simp at this

theorem lastOfKind_unique {ps : List Pattern} {l : Bytes} {p q : Pattern} (hp : LastOfKind ps l p) (hq : LastOfKind ps l q)
    (h : p.pattern = [.literal l] ↔ q.pattern = [.literal l]) : p = q := by
  by_cases hb : p.pattern = [.literal l]
  · exact lastWith_unique (lastOfKind_alone hp hb) (lastOfKind_alone hq (h.mp hb))
  · have hg : ∀ s, LastOfKind ps l s → s.pattern ≠ [.literal l] → GoesOn s l := by
      rintro s ⟨A, B, rest, _, e, _⟩ hs
      exact ⟨rest, by rintro rfl; exact hs e, e⟩
    exact lastWith_unique (lastOfKind_more hp (hg p hp hb)) (lastOfKind_more hq (hg q hq fun e => hb (h.mpr e)))

/-- C118: a pattern that begins with a literal and is followed by one of its kind with another identifier is replaced: it is the answer for no text. -/
theorem C118_replaced (sip : Bytes → UInt64) (ps : List Pattern) (hu : ∀ p ∈ ps, Utf8Lits p) (hcol : NoCollision sip ps) (huuid : UuidsTell ps)
    (p q : Pattern) (hp : p ∈ ps) (l : Bytes) (rest rest' : List Token) (hpl : p.pattern = .literal l :: rest) (hql : q.pattern = .literal l :: rest')
    (hkind : rest = [] ↔ rest' = []) (hlast : LastOfKind ps l q) (hne : q.uuid ≠ p.uuid) (text : Bytes) (hx : Utf8 text) (res : MatchResult)
    (hr : (SuffixTable.build sip ps >>= fun t => t.parse text) = .ok (some res)) : res.pattern.uuid ≠ p.uuid := by
  intro hid
  obtain ⟨s, l', hs, e⟩ := C118_only_last sip ps hu hcol ⟨l, p, hp, rest, hpl⟩ text hx res hr
  have hsm : s ∈ ps ∧ ∃ r, s.pattern = .literal l' :: r := by obtain ⟨A, B, r, e1, e2, _⟩ := hs; exact ⟨by rw [e1]; simp, r, e2⟩
  obtain ⟨hsm, r, hsp⟩ := hsm
  have e4 := huuid s hsm p hp (by rw [← hid, e])
  have e5 := e4
  rw [hsp, hpl] at e5
  simp only [List.cons.injEq, Token.literal.injEq] at e5
  obtain ⟨rfl, _⟩ := e5
  have := lastOfKind_unique hlast hs (by rw [e4, hql, hpl]; simp [hkind])
  subst this
  exact hne (by rw [← hid, e])

/-- C118: once some pattern begins with a literal, one that begins with a parser is the answer for no text. -/
theorem C118_parser_led (sip : Bytes → UInt64) (ps : List Pattern) (hu : ∀ p ∈ ps, Utf8Lits p) (hcol : NoCollision sip ps) (huuid : UuidsTell ps)
    (p : Pattern) (hp : p ∈ ps) (a : Parser) (rest : List Token) (hpl : p.pattern = .parser a :: rest) (hl : ∃ l, Leading ps l) (text : Bytes)
    (hx : Utf8 text) (res : MatchResult) (hr : (SuffixTable.build sip ps >>= fun t => t.parse text) = .ok (some res)) : res.pattern.uuid ≠ p.uuid := by
  intro hid
  obtain ⟨s, l', hs, e⟩ := C118_only_last sip ps hu hcol hl text hx res hr
  obtain ⟨A, B, r, e1, e2, _⟩ := hs
  have e4 := huuid s (by rw [e1]; simp) p hp (by rw [← hid, e])
  rw [e2, hpl] at e4
  simp at e4

/-! `ab%{INT:x}`, `ab`, `ab%{INT:x};`: the first one is replaced by the third. -/

example : LastOfKind [orderSample1, Samples.pat 2 [.literal b!"ab"], orderSample3] b!"ab" orderSample3 ∧
    LastOfKind [orderSample1, Samples.pat 2 [.literal b!"ab"], orderSample3] b!"ab" (Samples.pat 2 [.literal b!"ab"]) := by
  refine ⟨⟨[orderSample1, Samples.pat 2 [.literal b!"ab"]], [], _, rfl, rfl, by simp⟩, ⟨[orderSample1], [orderSample3], [], rfl, rfl, ?_⟩⟩
  intro q hq rest' e
  simp only [List.mem_singleton] at hq
  subst hq
  simp only [orderSample3, Samples.pat, List.cons.injEq, true_and] at e
  simp [← e]

example : (SuffixTable.build Samples.sip [orderSample1, Samples.pat 2 [.literal b!"ab"], orderSample3] >>= fun t => t.parse b!"ab7") =
      .ok (some ⟨Samples.pat 3 [], [(b!"x", b!"7")]⟩) ∧
    (SuffixTable.build Samples.sip [orderSample1, Samples.pat 2 [.literal b!"ab"], orderSample3] >>= fun t => t.parse b!"ab7;") =
      .ok (some ⟨Samples.pat 3 [], [(b!"x", b!"7")]⟩) ∧
    (SuffixTable.build Samples.sip [orderSample1, Samples.pat 2 [.literal b!"ab"], orderSample3] >>= fun t => t.parse b!"ab") =
      .ok (some ⟨Samples.pat 2 [], []⟩) := by decide +kernel

end Verif
