import Verif.Props.C136_Lengths
import Verif.Props.C111_AnyScript
/-! C136: without an upper limit the messages of a pattern get longer and longer. -/
namespace Verif
open Spec

namespace Lengths

/-- `é` over and over -/
def accents : Nat → Bytes
  | 0 => []
  | n + 1 => [195, 169] ++ accents n

theorem accents_length (n : Nat) : (accents n).length = 2 * n := by
  induction n with
  | zero => rfl
  | succ n ih => simp [accents, ih]; omega

theorem accents_utf8 (n : Nat) : Utf8 (accents n) := by
  induction n with
  | zero => exact ascii_utf8 (by decide)
  | succ n ih => exact utf8_append ⟨['é'], by decide +kernel⟩ ih

theorem accents_high (n : Nat) : ∀ b ∈ accents n, 128 ≤ b.toNat := by
  induction n with
  | zero => simp [accents]
  | succ n ih =>
    intro b hb
    simp [accents] at hb
    rcases hb with rfl | rfl | hb
    · decide
    · decide
    · exact ih b hb

theorem accents_before {d : UInt8} {e y : Bytes} (hd : d.toNat < 128) (n : Nat) : BeforeFirst (d :: e) (accents n ++ (d :: e ++ y)) (accents n) := by
  refine ⟨⟨y, by simp⟩, fun v' r' h => Nat.le_of_not_lt fun hlt => ?_⟩
  have h1 : (accents n ++ (d :: e ++ y))[v'.length]? = some d := by rw [h]; simp
  rw [List.getElem?_append_left hlt] at h1
  have := accents_high n d (List.mem_of_getElem? h1)
  omega

/-- A long text for satisfiable tokens. -/
theorem long_text {toks : List Token} (N : Nat) (hs : Satisfiable toks) (hc : CompiledShape toks) (hps : PlainSets toks)
    (hl : ∀ l, Token.literal l ∈ toks → Ascii l) (av : SetParser) (ha : Ascii av.characterSet)
    (hav : ∀ t ∈ toks.head?, CanFollow (.parser (.set av)) t) :
    ∃ x caps, Utf8 x ∧ MatchesStrict toks x caps ∧ ¬RunsInto toks x ∧ (longest toks = none → N ≤ x.length) ∧ (toks ≠ [] → x ≠ []) ∧
      ∀ b ∈ x.head?, b ∉ av.characterSet := by
  induction toks generalizing av with
  | nil => exact ⟨[], [], ascii_utf8 (by decide), .nil, (by intro h; cases h), by simp [longest], by simp, by simp⟩
  | cons t toks ih =>
    have ht : Possible t := hs.1 t (by simp)
    have hs' : Satisfiable toks := ⟨fun u hu => hs.1 u (by simp [hu]), fun A a b B e => hs.2 (t :: A) a b B (by simp [e])⟩
    have hnext : ∀ u ∈ toks.head?, CanFollow t u := by
      intro u hu
      cases toks with
      | nil => simp at hu
      | cons w toks =>
        simp at hu; subst hu
        exact hs.2 [] t w toks rfl
    have ih := ih hs' hc.tail hps.tail fun l hm => hl l (by simp [hm])
    have hcf := hav t (by simp)
    have free : ∀ u ∈ toks.head?, CanFollow (.parser (.set { av with characterSet := [] })) u := by
      intro u hu
      cases u with
      | literal l' => intro c _ hm; simp at hm
      | parser a =>
        have hpos := hs'.1 _ (List.mem_of_mem_head? hu)
        cases a with
        | set q => obtain ⟨c, hc⟩ := List.exists_mem_of_ne_nil _ hpos.1; exact ⟨c, hc, by simp⟩
        | int q => obtain ⟨c, hc⟩ := List.exists_mem_of_ne_nil _ hpos.1; exact ⟨c, hc, by simp⟩
        | greedy g => trivial
    cases t with
    | literal l =>
      have hl0 : l ≠ [] := by rintro rfl; exact hc.lits (by simp)
      have hla : Ascii l := hl l (by simp)
      obtain ⟨x, caps, h1, h2, h3, h4, h5, -⟩ := ih _ (by intro b hb; simp at hb) free
      refine ⟨l ++ x, caps, utf8_append (ascii_utf8 hla) h1, .literal l toks x caps h5 h2, fun h => h3 (runsInto_lit ?_ hl0 h), ?_, by simp [hl0], ?_⟩
      · rintro ⟨b, r, rfl, hb⟩
        have : b.toNat < 128 := hla b (by simp)
        omega
      · intro h
        have := h4 (by simpa [longest] using h)
        simp; omega
      · intro b hb
        refine hcf b ?_
        cases l with
        | nil => exact absurd rfl hl0
        | cons c l => simpa using hb
    | parser a =>
      have key : ∀ q : SetParser, (Token.parser (.set q) ∈ Token.parser a :: toks ∨ Token.parser (.int q) ∈ Token.parser a :: toks) →
          Possible (.parser (.set q)) → (∃ c ∈ q.characterSet, c ∉ av.characterSet) → (∀ u ∈ toks.head?, CanFollow (.parser (.set q)) u) →
          (∀ x v, SetMatch q.characterSet q.minLength q.maxLength x v → ParserMatch a x v) →
          (longest (.parser a :: toks) = (do return (← q.maxLength) + (← longest toks))) →
          ∃ x caps, Utf8 x ∧ MatchesStrict (.parser a :: toks) x caps ∧ ¬RunsInto (.parser a :: toks) x ∧
            (longest (.parser a :: toks) = none → N ≤ x.length) ∧ (Token.parser a :: toks ≠ [] → x ≠ []) ∧ ∀ b ∈ x.head?, b ∉ av.characterSet := by
        rintro q hq ⟨-, hz, hmm⟩ ⟨c, hc1, hc2⟩ hn hm hlong
        have hqa := (hps.sets q hq).1
        obtain ⟨x, caps, h1, h2, h3, h4, -, h6⟩ := ih q hqa hn
        obtain ⟨k, hk, hkN⟩ : ∃ k, (1 ≤ k ∧ (∀ j, q.minLength = some j → j ≤ k) ∧ ∀ j, q.maxLength = some j → k ≤ j) ∧ (q.maxLength = none → N ≤ k) := by
          cases hx : q.maxLength with
          | none => exact ⟨1 + q.minLength.getD 0 + N, ⟨by omega, fun j hj => by simp [hj]; omega, by simp⟩, fun _ => by omega⟩
          | some mx =>
            refine ⟨mx, ⟨?_, fun j hj => hmm j hj mx hx, by simp⟩, by simp⟩
            have : mx ≠ 0 := fun e => hz (by rw [hx, e])
            omega
        have hrep : Ascii (List.replicate k c) := by
          intro b hb; rw [List.eq_of_mem_replicate hb]; exact hqa c hc1
        have hpm := hm _ _ (run_match hc1 hk h6)
        refine ⟨List.replicate k c ++ x, _, utf8_append (ascii_utf8 hrep) h1, .parser a toks _ x caps hpm h2,
          fun h => h3 (runsInto_par (ascii_utf8 hrep) hpm h), ?_, ?_, ?_⟩
        · intro h
          rw [hlong] at h
          cases hx : q.maxLength with
          | none => have := hkN hx; simp; omega
          | some mx =>
            cases hy : longest toks with
            | none => have := h4 hy; simp; omega
            | some m => simp [hx, hy] at h
        · intro _ e; have := congrArg List.length e; simp at this; omega
        · intro b hb
          obtain ⟨j, rfl⟩ : ∃ j, k = j + 1 := ⟨k - 1, by omega⟩
          simp [List.replicate_succ] at hb
          subst hb; exact hc2
      cases a with
      | set q => exact key q (by simp) ht hcf hnext (fun _ _ h => h) rfl
      | int q => exact key q (by simp) ht hcf hnext (fun _ _ h => h) rfl
      | greedy g =>
        have hhead : ∀ y : Bytes, ∀ b ∈ (accents (N + 1) ++ y).head?, b ∉ av.characterSet := by
          intro y b hb hm
          simp [accents] at hb
          subst hb
          have := ha _ hm
          simp at this
        have hne : ∀ y : Bytes, accents (N + 1) ++ y ≠ [] := by intro y; simp [accents]
        have hlen : ∀ y : Bytes, N ≤ (accents (N + 1) ++ y).length := by intro y; simp [accents_length]; omega
        cases hg : g.endString with
        | none =>
          obtain ⟨caps, hm⟩ := only_greedy_empty hs' hnext hg
          have hpm : ParserMatch (.greedy g) (accents (N + 1) ++ []) (accents (N + 1)) := by simp [ParserMatch, hg]
          refine ⟨accents (N + 1) ++ [], _, by simpa using accents_utf8 _, .parser (.greedy g) toks _ [] caps hpm hm, fun h => ?_,
            fun _ => hlen _, fun _ => hne _, hhead _⟩
          exact runsInto_nil (fun l hl e => hc.tail.lits (e ▸ hl)) (runsInto_par (accents_utf8 _) hpm h)
        | some e =>
          obtain ⟨post, rfl⟩ := (hc.greedy [] g toks rfl e).mp hg
          obtain ⟨x, caps, h1, h2, h3, h4, h5, -⟩ := ih _ (by intro b hb; simp at hb) free
          obtain ⟨y, rfl⟩ : ∃ y, x = e ++ y := by cases h2 with | literal _ _ y _ _ _ => exact ⟨y, rfl⟩
          cases e with
          | nil => exact absurd (by simp) hc.lits
          | cons d e =>
            have hd : d.toNat < 128 := hl (d :: e) (by simp) d (by simp)
            have hpm : ParserMatch (.greedy g) (accents (N + 1) ++ (d :: e ++ y)) (accents (N + 1)) := by
              simp only [ParserMatch, hg]; exact accents_before hd _
            exact ⟨accents (N + 1) ++ (d :: e ++ y), _, utf8_append (accents_utf8 _) h1, .parser (.greedy g) _ _ _ caps hpm h2,
              fun h => h3 (runsInto_par (accents_utf8 _) hpm h), fun _ => hlen _, fun _ => hne _, hhead _⟩

end Lengths

/-- C136: if there is no longest text, because of a GREEDY or of a SET or INT without max_len, then a pattern string that can match anything is the
answer for messages longer than any bound. -/
theorem C136_unbounded (sip : Bytes → UInt64) (s : Bytes) (hs : Ascii s) (p : Pattern) (hc : compile s = .ok (.ok p.pattern))
    (h : Satisfiable p.pattern) (hl : longest p.pattern = none) (N : Nat) :
    ∃ text r, Utf8 text ∧ N ≤ text.length ∧ (SuffixTree.build sip [p] >>= fun t => t.parse text) = .ok (some r) := by
  obtain ⟨x, caps, h1, h2, h3, h4, -, -⟩ := Lengths.long_text N h (compiledShape (ascii_utf8 hs) hc) (compiled_plainSets hs hc) (compiled_ascii hs hc)
    ⟨none, [], none, none⟩ (by intro b hb; simp at hb) fun t ht => by
      cases t with
      | literal l' => intro c _ hm; simp at hm
      | parser a =>
        have hpos := h.1 _ (List.mem_of_mem_head? ht)
        cases a with
        | set q => obtain ⟨c, hc⟩ := List.exists_mem_of_ne_nil _ hpos.1; exact ⟨c, hc, by simp⟩
        | int q => obtain ⟨c, hc⟩ := List.exists_mem_of_ne_nil _ hpos.1; exact ⟨c, hc, by simp⟩
        | greedy g => trivial
  obtain ⟨r, h5, h6, -⟩ := (C52_exactly sip s (ascii_utf8 hs) p hc x h1).2 h3
  obtain ⟨res, rfl, -⟩ := h6 caps h2
  exact ⟨x, res, h1, h4 hl, h5⟩

end Verif
