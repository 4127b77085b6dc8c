import Verif.Props.C111_AnyScript
import Verif.Props.C32_C39_Grammar
/-! C120: which texts can be written as literals, and that every message text can be written as a pattern. -/
namespace Verif
open Spec

/-- The first occurrence of `\%\{`. -/
theorem first_escaped {m : Bytes} (h : b!"\\%\\{" <:+: m) : ∃ a b, m = a ++ 92 :: (b!"%\\{" ++ b) ∧ ¬ b!"\\%\\{" <:+: a := by
  have hE : b!"\\%\\{" = 92 :: b!"%\\{" := by decide
  suffices H : ∀ n, ∀ a b, a.length ≤ n → m = a ++ (b!"\\%\\{" ++ b) → ∃ a b, m = a ++ (b!"\\%\\{" ++ b) ∧ ¬ b!"\\%\\{" <:+: a by
    obtain ⟨a, b, e⟩ := h
    obtain ⟨a, b, e, hn⟩ := H a.length a b (Nat.le_refl _) (by rw [← e]; simp)
    exact ⟨a, b, by rw [e, hE]; simp, hn⟩
  intro n
  induction n with
  | zero =>
    intro a b hl e
    have ha : a = [] := List.length_eq_zero_iff.mp (Nat.le_zero.mp hl)
    subst ha
    exact ⟨[], b, e, by decide⟩
  | succ n ih =>
    intro a b hl e
    by_cases hin : b!"\\%\\{" <:+: a
    · obtain ⟨c, d, hc⟩ := hin
      refine ih c (d ++ (b!"\\%\\{" ++ b)) ?_ (by rw [e, ← hc]; simp)
      have := congrArg List.length hc
      have h4 : (b!"\\%\\{").length = 4 := by decide
      simp only [List.length_append] at this
      omega
    · exact ⟨a, b, e, hin⟩

/-- The unnamed parser that takes exactly one backslash. -/
def oneBackslash : Parser := .set ⟨none, [92], none, some 1⟩

theorem oneBackslash_good : GoodParser oneBackslash := by
  refine ⟨nofun, nofun, ?_, by decide, by decide, by decide, by unfold Ascii; decide⟩
  intro n hn
  cases hn
  decide

theorem oneBackslash_value {x v : Bytes} (h : ParserMatch oneBackslash x v) : v = [92] := by
  obtain ⟨_, h2, h3, _, _, h6⟩ := h
  have h6 := h6 1 rfl
  cases v with
  | nil => exact absurd rfl h2
  | cons b v =>
    have : v = [] := List.length_eq_zero_iff.mp (by simp at h6; simp [h6])
    subst this
    have := h3 b (by simp)
    simp at this
    rw [this]

theorem oneBackslash_match {b : UInt8} {y : Bytes} (h : b ≠ 92) : ParserMatch oneBackslash ([92] ++ b :: y) [92] := by
  refine ⟨List.prefix_append _ _, by simp, by simp, ?_, nofun, ?_⟩
  · intro c r e
    simp at e
    rw [← e.1]
    simpa using h
  · intro n hn
    cases hn
    decide

/-- What is needed of the token list for a text: it can be written, it matches exactly this text, it has no names, and matching does not run into
trouble. -/
structure TokensFor (m : Bytes) (ts : List Token) : Prop where
  good : WellFormed ts
  some : ts ≠ []
  only : ∀ x caps, MatchesStrict ts x caps → x = m ∧ ∀ c ∈ caps, nameOf c.1 = none
  self : ∃ caps, MatchesStrict ts m caps
  quiet : ¬NonAsciiFirst m → ∀ x, (Ascii x ∨ x = m) → ¬RunsInto ts x

theorem nonAsciiFirst_ascii {x : Bytes} (h : Ascii x) : ¬NonAsciiFirst x := by
  rintro ⟨b, t, rfl, hb⟩
  have := h b (by simp)
  omega

theorem ascii_right {a b : Bytes} (h : Ascii (a ++ b)) : Ascii b := fun c hc => h c (by simp [hc])

/-- In front of the tokens for a text beginning with `%`: the parser for one backslash. -/
theorem tokensFor_backslash {y : Bytes} {ts : List Token} (h : TokensFor (37 :: y) ts) : TokensFor (92 :: 37 :: y) (.parser oneBackslash :: ts) := by
  refine ⟨.parser _ _ oneBackslash_good h.good, by simp, ?_, ?_, ?_⟩
  · intro x caps hm
    obtain ⟨v, z, caps', rfl, rfl, h1, h2⟩ := strict_par_inv hm
    obtain ⟨rfl, hn⟩ := h.only z caps' h2
    rw [oneBackslash_value h1]
    refine ⟨rfl, fun c hc => ?_⟩
    rcases List.mem_cons.mp hc with rfl | hc
    · rfl
    · exact hn c hc
  · obtain ⟨caps, hc⟩ := h.self
    exact ⟨_, .parser oneBackslash ts [92] (37 :: y) caps (oneBackslash_match (by decide)) hc⟩
  · intro _ x hx hr
    have hq := h.quiet (by rintro ⟨b, t, e, hb⟩; simp at e; rw [← e.1] at hb; simp at hb)
    obtain ⟨v, hv⟩ := runsInto_par_match hr
    have hpre := parserMatch_prefix hv
    have e := oneBackslash_value hv
    subst e
    obtain ⟨z, rfl⟩ := hpre
    have := runsInto_par (ascii_utf8 (by unfold Ascii; decide)) hv hr
    refine hq z ?_ this
    rcases hx with hx | hx
    · exact .inl (ascii_right hx)
    · exact .inr (by simpa using hx)

/-- In front of the tokens for a text beginning with a backslash: a literal. -/
theorem tokensFor_literal {a y : Bytes} {ts : List Token} (h0 : a ≠ []) (hu : Utf8 a) (hn : ¬ b!"\\%\\{" <:+: a)
    (h : TokensFor y ts) (hy : y ≠ []) (hf : NoLiteralFirst ts) (hfirst : ¬NonAsciiFirst y) : TokensFor (a ++ y) (.literal a :: ts) := by
  refine ⟨.literal _ _ h0 hu hn h.good hf, by simp, ?_, ?_, ?_⟩
  · intro x caps hm
    obtain ⟨z, rfl, _, h2⟩ := strict_lit_inv hm
    obtain ⟨rfl, hn⟩ := h.only z caps h2
    exact ⟨rfl, hn⟩
  · obtain ⟨caps, hc⟩ := h.self
    exact ⟨_, .literal a ts y caps (fun _ => hy) hc⟩
  · intro hm x hx hr
    have ha : ¬NonAsciiFirst a := by
      rintro ⟨b, t, rfl, hb⟩
      exact hm ⟨b, t ++ y, rfl, hb⟩
    rcases runsInto_lit_start hr with ⟨_, h1 | h1⟩ | ⟨z, rfl⟩
    · rcases hx with hx | rfl
      · exact nonAsciiFirst_ascii hx h1
      · exact hm h1
    · exact ha h1
    · refine h.quiet hfirst z ?_ (runsInto_lit ha h0 hr)
      rcases hx with hx | hx
      · exact .inl (ascii_right hx)
      · exact .inr (by simpa using hx)

theorem tokensFor_last {m : Bytes} (h0 : m ≠ []) (hu : Utf8 m) (hn : ¬ b!"\\%\\{" <:+: m) : TokensFor m [.literal m] := by
  refine ⟨.literal _ _ h0 hu hn .nil (by intro l ts'; simp), by simp, ?_, ?_, ?_⟩
  · intro x caps hm
    obtain ⟨z, rfl, _, h2⟩ := strict_lit_inv hm
    obtain ⟨rfl, rfl⟩ := strict_nil_inv h2
    simp
  · exact ⟨[], by simpa using MatchesStrict.literal m [] [] [] (by simp) .nil⟩
  · intro hm x hx hr
    rcases runsInto_lit_start hr with ⟨_, h1 | h1⟩ | ⟨z, rfl⟩
    · rcases hx with hx | rfl
      · exact nonAsciiFirst_ascii hx h1
      · exact hm h1
    · exact hm h1
    · exact nomatch runsInto_lit hm h0 hr

theorem tokensFor_exists (n : Nat) : ∀ m : Bytes, m.length ≤ n → m ≠ [] → Utf8 m → ∃ ts, TokensFor m ts := by
  induction n with
  | zero => intro m hl h0; exact absurd (List.length_eq_zero_iff.mp (Nat.le_zero.mp hl)) h0
  | succ n ih =>
    intro m hl h0 hu
    by_cases hin : b!"\\%\\{" <:+: m
    · obtain ⟨a, b, e, hn⟩ := first_escaped hin
      have hb : b!"%\\{" ++ b = 37 :: ([92, 123] ++ b) := by
        have : b!"%\\{" = [37, 92, 123] := by decide
        rw [this]; rfl
      rw [hb] at e
      subst e
      obtain ⟨ua, ub⟩ := utf8_split_ascii (by decide) hu
      obtain ⟨ts, ht⟩ := ih (37 :: ([92, 123] ++ b)) (by simp at hl ⊢; omega) (by simp) ub
      have hs := tokensFor_backslash ht
      by_cases ha : a = []
      · subst ha
        exact ⟨_, hs⟩
      · exact ⟨_, tokensFor_literal ha ua hn hs (by simp) (by intro l ts'; simp)
          (by rintro ⟨b, t, e, hb⟩; simp at e; rw [← e.1] at hb; simp at hb)⟩
    · exact ⟨_, tokensFor_last h0 hu hin⟩

/-- C120: the texts a pattern string can denote literally are exactly the non-empty ones in which `\%\{` does not occur. -/
theorem C120_literal (m : Bytes) (hm : Utf8 m) :
    (∃ s, Utf8 s ∧ compile s = .ok (.ok [.literal m])) ↔ m ≠ [] ∧ ¬ b!"\\%\\{" <:+: m := by
  constructor
  · rintro ⟨s, hs, hc⟩
    obtain ⟨hw, _, _⟩ := C33_compiled_wellFormed s hs _ hc (by intro p hp; simp at hp)
    cases hw with
    | literal _ _ h1 _ h3 => exact ⟨h1, h3⟩
  · rintro ⟨h0, hn⟩
    exact ⟨_, C33_round_trip _ (tokensFor_last h0 hm hn).good (by simp)⟩

/-- C120: for every non-empty text there is a pattern string that matches this text and no other.  A trie holding the pattern never gives a wrong
answer about any text, without values; it answers without a panic for the text itself and for all ASCII texts, unless the text begins with a
character outside ASCII. -/
theorem C120_every_text (m : Bytes) (h0 : m ≠ []) (hm : Utf8 m) : ∃ s ts, Utf8 s ∧ compile s = .ok (.ok ts) ∧
    (∀ x, (∃ caps, MatchesStrict ts x caps) ↔ x = m) ∧
    ∀ (sip : Bytes → UInt64) (p : Pattern), p.pattern = ts → ∀ x, Utf8 x →
      (∀ r, (SuffixTree.build sip [p] >>= fun t => t.parse x) = .ok r → r = if x = m then some ⟨{ p with pattern := [] }, []⟩ else none) ∧
      (¬NonAsciiFirst m → Ascii x ∨ x = m → ∃ r, (SuffixTree.build sip [p] >>= fun t => t.parse x) = .ok r) := by
  obtain ⟨ts, ht⟩ := tokensFor_exists m.length m (Nat.le_refl _) h0 hm
  obtain ⟨hs, hc⟩ := C33_round_trip ts ht.good ht.some
  refine ⟨_, ts, hs, hc, fun x => ⟨fun ⟨caps, h⟩ => (ht.only x caps h).1, fun h => h ▸ ht.self⟩, ?_⟩
  intro sip p hp x hx
  subst hp
  obtain ⟨h1, h2⟩ := C52_exactly sip _ hs p hc x hx
  refine ⟨fun r hr => ?_, fun hf hq => ?_⟩
  · by_cases hrun : RunsInto p.pattern x
    · rw [h1 hrun] at hr; cases hr
    · obtain ⟨r', hr', ha, hb⟩ := h2 hrun
      rw [hr] at hr'
      cases hr'
      split
      · rename_i e
        subst e
        obtain ⟨caps, hcaps⟩ := ht.self
        obtain ⟨res, rfl, h3, h4, h5⟩ := ha caps hcaps
        have hv : res.values = [] := by
          cases hval : res.values with
          | nil => rfl
          | cons kv rest =>
            obtain ⟨k, v⟩ := kv
            have := (h5 k v).mp (by rw [hval]; simp)
            unfold capture at this
            cases hfind : caps.find? fun c => decide (nameOf c.1 = some k) with
            | none => rw [hfind] at this; simp at this
            | some c =>
              have h6 := List.find?_some hfind
              have h7 := (ht.only x caps hcaps).2 c (List.mem_of_find?_eq_some hfind)
              simp [h7] at h6
        obtain ⟨rp, rv⟩ := res
        simp only at h3 hv
        rw [h3, hv]
      · rename_i hne
        cases r with
        | none => rfl
        | some res =>
          obtain ⟨caps, hcaps, _⟩ := hb res rfl
          exact absurd (ht.only x caps hcaps).1 hne
  · obtain ⟨r, hr, _⟩ := h2 (ht.quiet hf x hq)
    exact ⟨r, hr⟩

/-- C120: the empty text is the exception: a trie holding one pattern that answers the empty text answers every text. -/
theorem C120_empty (sip : Bytes → UInt64) (s : Bytes) (hs : Utf8 s) (p : Pattern) (hc : compile s = .ok (.ok p.pattern))
    (res : MatchResult) (h : (SuffixTree.build sip [p] >>= fun t => t.parse []) = .ok (some res)) (x : Bytes) (hx : Utf8 x) :
    ∃ res', (SuffixTree.build sip [p] >>= fun t => t.parse x) = .ok (some res') := by
  obtain ⟨h1, h2, _, h4⟩ := C34_shape s hs _ hc
  obtain ⟨g1, g2⟩ := C52_exactly sip s hs p hc [] utf8_nil
  have hmatch : ∃ caps, MatchesStrict p.pattern [] caps := by
    by_cases hr : RunsInto p.pattern []
    · rw [g1 hr] at h; cases h
    · obtain ⟨r, hr', _, hb⟩ := g2 hr
      rw [h] at hr'
      cases hr'
      obtain ⟨caps, hcaps, _⟩ := hb res rfl
      exact ⟨caps, hcaps⟩
  obtain ⟨caps, hcaps⟩ := hmatch
  have hgreedy : ∃ g rest caps', p.pattern = .parser (.greedy g) :: rest ∧ g.endString = none ∧ MatchesStrict rest [] caps' := by
    cases hp : p.pattern with
    | nil => exact absurd hp h1
    | cons t rest =>
      rw [hp] at hcaps
      cases t with
      | literal l =>
        obtain ⟨y, e, _⟩ := strict_lit_inv hcaps
        simp at e
        exact absurd (by rw [hp, e.1]; simp) h2
      | parser a =>
        obtain ⟨v, y, caps', e, _, hm, hr⟩ := strict_par_inv hcaps
        simp at e
        obtain ⟨rfl, rfl⟩ := e
        cases a with
        | set q => exact absurd rfl (SetMatch.nonempty hm)
        | int q => exact absurd rfl (SetMatch.nonempty hm)
        | greedy g =>
          cases he : g.endString with
          | none => exact ⟨g, rest, caps', rfl, he, hr⟩
          | some e =>
            simp only [ParserMatch, he] at hm
            obtain ⟨⟨r, hr'⟩, _⟩ := hm
            simp at hr'
            obtain ⟨post, hpost⟩ := (h4 [] g rest hp e).mp he
            exact absurd (by rw [hp, hpost, hr'.1]; simp) h2
  obtain ⟨g, rest, caps', hp, he, hr⟩ := hgreedy
  have hm : ∀ x, ParserMatch (.greedy g) (x ++ []) x := fun x => by simp [ParserMatch, he]
  obtain ⟨_, k2⟩ := C52_exactly sip s hs p hc x hx
  have hq : ¬RunsInto p.pattern x := by
    intro hrun
    rw [hp, ← List.append_nil x] at hrun
    exact runsInto_nil (fun l hl e => h2 (by rw [hp, ← e]; simp [hl])) (runsInto_par hx (hm x) hrun)
  obtain ⟨r, hr', ha, _⟩ := k2 hq
  obtain ⟨res', hres, _⟩ := ha ((.greedy g, x) :: caps') (by
    rw [hp]
    simpa using MatchesStrict.parser (.greedy g) rest x [] caps' (hm x) hr)
  exact ⟨res', by rw [hr', hres]⟩

/-! ### examples -/

/-- C120: a text with the escape sequence itself. -/
example : b!"100\\%\\{a}" ≠ [] ∧ Utf8 b!"100\\%\\{a}" ∧ b!"\\%\\{" <:+: b!"100\\%\\{a}" ∧ ¬NonAsciiFirst b!"100\\%\\{a}" :=
  ⟨by decide, ⟨"100\\%\\{a}".toList, by decide +kernel⟩, by decide, by rintro ⟨b, t, e, hb⟩; simp at e; rw [← e.1] at hb; simp at hb⟩

/-- C120: the pattern string for it compiles to a literal, the parser for the backslash, and a literal. -/
example : compile b!"100%{SET(\"\\\",max_len=1)}%\\{a}" = .ok (.ok [.literal b!"100", .parser oneBackslash, .literal b!"%\\{a}"]) := by
  decide +kernel

/-- C120: a text with `%{` is written with the escape sequence. -/
example : compile b!"a\\%\\{b}" = .ok (.ok [.literal b!"a%{b}"]) ∧ ¬ b!"\\%\\{" <:+: b!"a%{b}" := ⟨by decide +kernel, by decide⟩

/-- C120: a pattern that answers the empty text. -/
example : compile b!"%{GREEDY:x}" = .ok (.ok [.parser (.greedy ⟨some b!"x", none⟩)]) ∧
    ∃ res, (SuffixTree.build (fun _ => 0) [⟨none, 0, [.parser (.greedy ⟨some b!"x", none⟩)], none, none, none⟩] >>= fun t => t.parse []) = .ok (some res) :=
  ⟨by decide +kernel, ⟨⟨⟨none, 0, [], none, none, none⟩, [(b!"x", [])]⟩, by decide +kernel⟩⟩

end Verif
