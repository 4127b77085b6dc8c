import Verif.Spec.Lengths
import Verif.Props.C111_Satisfiable
import Verif.Props.C25_C31_SuffixArray
/-! C136: how long the messages of a pattern are. -/
namespace Verif
open Spec

namespace Lengths

theorem takes_of_match {a : Parser} {x v : Bytes} (h : ParserMatch a x v) : TakesLength a v.length := by
  cases a with
  | set p => exact ⟨List.length_pos_iff.mpr h.nonempty, h.atLeast, h.atMost⟩
  | int p => exact ⟨List.length_pos_iff.mpr h.nonempty, h.atLeast, h.atMost⟩
  | greedy g => trivial

theorem hasLength_of_matches {toks : List Token} {x : Bytes} {caps : List (Parser × Bytes)} (h : Matches toks x caps) : HasLength toks x.length := by
  induction h with
  | nil => exact .nil
  | literal l toks x caps _ ih => rw [List.length_append]; exact .literal l toks _ ih
  | parser a toks v x caps hm _ ih => rw [List.length_append]; exact .parser a _ toks _ (takes_of_match hm) ih

theorem shortest_le {toks : List Token} {n : Nat} (h : HasLength toks n) : shortest toks ≤ n := by
  induction h with
  | nil => simp [shortest]
  | literal l toks n _ ih => simp only [shortest]; omega
  | parser a k toks n hk _ ih =>
    have key : ∀ p : SetParser, (1 ≤ k ∧ (∀ j, p.minLength = some j → j ≤ k) ∧ ∀ j, p.maxLength = some j → k ≤ j) →
        max 1 (p.minLength.getD 1) + shortest toks ≤ k + n := by
      rintro p ⟨h1, h2, -⟩
      cases hm : p.minLength with
      | none => simp; omega
      | some j => have := h2 j hm; simp; omega
    cases a with
    | set p => exact key p hk
    | int p => exact key p hk
    | greedy g => simp only [shortest]; omega

theorem le_longest {toks : List Token} {n : Nat} (h : HasLength toks n) {m : Nat} (hm : longest toks = some m) : n ≤ m := by
  induction h generalizing m with
  | nil => simp
  | literal l toks n _ ih =>
    simp only [longest, Option.map_eq_some_iff] at hm
    obtain ⟨j, h1, h2⟩ := hm
    have := ih h1; omega
  | parser a k toks n hk _ ih =>
    have key : ∀ p : SetParser, (1 ≤ k ∧ (∀ j, p.minLength = some j → j ≤ k) ∧ ∀ j, p.maxLength = some j → k ≤ j) →
        (do return (← p.maxLength) + (← longest toks)) = some m → k + n ≤ m := by
      rintro p ⟨-, -, h2⟩ he
      cases hx : p.maxLength with
      | none => simp [hx] at he
      | some j =>
        cases hl : longest toks with
        | none => simp [hx, hl] at he
        | some i =>
          simp [hx, hl] at he
          have := h2 j hx; have := ih hl; omega
    cases a with
    | set p => exact key p hk hm
    | int p => exact key p hk hm
    | greedy g => simp [longest] at hm

theorem shortest_le_longest {toks : List Token} (hp : ∀ t ∈ toks, Possible t) {m : Nat} (hm : longest toks = some m) : shortest toks ≤ m := by
  induction toks generalizing m with
  | nil => simp [shortest]
  | cons t toks ih =>
    have hp' : ∀ t ∈ toks, Possible t := fun t ht => hp t (by simp [ht])
    have key : ∀ p : SetParser, p.characterSet ≠ [] ∧ p.maxLength ≠ some 0 ∧ (∀ mn ∈ p.minLength, ∀ mx ∈ p.maxLength, mn ≤ mx) →
        (do return (← p.maxLength) + (← longest toks)) = some m → max 1 (p.minLength.getD 1) + shortest toks ≤ m := by
      rintro p ⟨-, hz, hmm⟩ he
      cases hx : p.maxLength with
      | none => simp [hx] at he
      | some j =>
        cases hl : longest toks with
        | none => simp [hx, hl] at he
        | some i =>
          simp [hx, hl] at he
          have h1 := ih hp' hl
          have h2 : j ≠ 0 := fun e => hz (by rw [hx, e])
          have h3 : p.minLength.getD 1 ≤ j := by
            cases hm : p.minLength with
            | none => simp; omega
            | some k => exact hmm k hm j hx
          omega
    cases t with
    | literal l =>
      simp only [longest, Option.map_eq_some_iff] at hm
      obtain ⟨j, h1, h2⟩ := hm
      have := ih hp' h1
      simp only [shortest]; omega
    | parser a =>
      cases a with
      | set p => exact key p (hp (.parser (.set p)) (by simp)) hm
      | int p => exact key p (hp (.parser (.int p)) (by simp)) hm
      | greedy g => simp [longest] at hm

/-- The lengths between the two are all sums. -/
theorem hasLength_between {toks : List Token} (hg : NoGreedy toks) (hp : ∀ t ∈ toks, Possible t) {n : Nat} (h1 : shortest toks ≤ n)
    (h2 : ∀ m, longest toks = some m → n ≤ m) : HasLength toks n := by
  induction toks generalizing n with
  | nil =>
    have := h2 0 rfl
    obtain rfl : n = 0 := by omega
    exact .nil
  | cons t toks ih =>
    have hg' : NoGreedy toks := fun g hm => hg g (by simp [hm])
    have hp' : ∀ t ∈ toks, Possible t := fun t ht => hp t (by simp [ht])
    have key : ∀ p : SetParser, p.characterSet ≠ [] ∧ p.maxLength ≠ some 0 ∧ (∀ mn ∈ p.minLength, ∀ mx ∈ p.maxLength, mn ≤ mx) →
        max 1 (p.minLength.getD 1) + shortest toks ≤ n →
        (∀ m, (do return (← p.maxLength) + (← longest toks)) = some m → n ≤ m) →
        ∃ k j, k + j = n ∧ (1 ≤ k ∧ (∀ j, p.minLength = some j → j ≤ k) ∧ ∀ j, p.maxLength = some j → k ≤ j) ∧ HasLength toks j := by
      rintro p ⟨-, hz, hmm⟩ h1 h2
      have hlo : ∀ j, p.minLength = some j → j ≤ max 1 (p.minLength.getD 1) := by intro j hj; simp [hj]; omega
      by_cases hc : ∀ mx, p.maxLength = some mx → n - shortest toks ≤ mx
      · refine ⟨n - shortest toks, shortest toks, by omega, ⟨by omega, fun j hj => ?_, hc⟩,
          ih hg' hp' (Nat.le_refl _) fun m hm => shortest_le_longest hp' hm⟩
        have := hlo j hj; omega
      · simp only [Classical.not_forall] at hc
        obtain ⟨mx, hx, hc⟩ := hc
        refine ⟨mx, n - mx, by omega, ⟨?_, fun j hj => hmm j hj mx hx, fun j hj => ?_⟩, ih hg' hp' (by omega) fun m hm => ?_⟩
        · have : mx ≠ 0 := fun e => hz (by rw [hx, e])
          omega
        · rw [hx] at hj; simp at hj; omega
        · have := h2 (mx + m) (by simp [hx, hm]); omega
    cases t with
    | literal l =>
      simp only [shortest] at h1
      have : n = l.length + (n - l.length) := by omega
      rw [this]
      refine .literal l toks _ (ih hg' hp' (by omega) fun m hm => ?_)
      have := h2 (l.length + m) (by simp [longest, hm]); omega
    | parser a =>
      cases a with
      | set p =>
        obtain ⟨k, j, rfl, h3, h4⟩ := key p (hp (.parser (.set p)) (by simp)) h1 h2
        exact .parser _ k toks j h3 h4
      | int p =>
        obtain ⟨k, j, rfl, h3, h4⟩ := key p (hp (.parser (.int p)) (by simp)) h1 h2
        exact .parser _ k toks j h3 h4
      | greedy g => exact absurd (by simp) (hg g)

/-- One character of the set, as often as wanted. -/
theorem run_match {p : SetParser} {c : UInt8} (hc : c ∈ p.characterSet) {k : Nat}
    (hk : 1 ≤ k ∧ (∀ j, p.minLength = some j → j ≤ k) ∧ ∀ j, p.maxLength = some j → k ≤ j) {x : Bytes} (hx : ∀ b ∈ x.head?, b ∉ p.characterSet) :
    SetMatch p.characterSet p.minLength p.maxLength (List.replicate k c ++ x) (List.replicate k c) where
  isPrefix := List.prefix_append _ _
  nonempty := by intro e; have := congrArg List.length e; simp at this; omega
  inSet := by intro b hb; rw [List.eq_of_mem_replicate hb]; exact hc
  maximal := by
    intro b rest e
    exact hx b (by rw [List.append_cancel_left e]; simp)
  atLeast := by simpa using hk.2.1
  atMost := by simpa using hk.2.2

/-- There is a text of every such length. -/
theorem text_of_length {toks : List Token} {n : Nat} (h : HasLength toks n) (hs : Satisfiable toks) (hg : NoGreedy toks) (hps : PlainSets toks)
    (hl : ∀ l, Token.literal l ∈ toks → Ascii l) (hne : Token.literal [] ∉ toks) (av : SetParser)
    (hav : ∀ t ∈ toks.head?, CanFollow (.parser (.set av)) t) :
    ∃ x caps, Ascii x ∧ x.length = n ∧ MatchesStrict toks x caps ∧ (toks ≠ [] → x ≠ []) ∧ ∀ b ∈ x.head?, b ∉ av.characterSet := by
  induction h generalizing av with
  | nil => exact ⟨[], [], by intro b hb; simp at hb, rfl, .nil, by simp, by simp⟩
  | literal l toks n _ ih =>
    have hs' : Satisfiable toks := ⟨fun t ht => hs.1 t (by simp [ht]), fun A a b B e => hs.2 (.literal l :: A) a b B (by simp [e])⟩
    have hl0 : l ≠ [] := by rintro rfl; exact hne (by simp)
    have hf : ∀ t ∈ toks.head?, CanFollow (.parser (.set { av with characterSet := [] })) t := by
      intro t ht
      cases t with
      | literal l' => intro c _ hm; simp at hm
      | parser a =>
        have hpos := hs'.1 _ (List.mem_of_mem_head? ht)
        cases a with
        | set q =>
          obtain ⟨c, hc⟩ := List.exists_mem_of_ne_nil _ hpos.1
          exact ⟨c, hc, by simp⟩
        | int q =>
          obtain ⟨c, hc⟩ := List.exists_mem_of_ne_nil _ hpos.1
          exact ⟨c, hc, by simp⟩
        | greedy g => trivial
    obtain ⟨x, caps, h1, h2, h3, h4, -⟩ := ih hs' (fun g hm => hg g (by simp [hm])) hps.tail (fun l hm => hl l (by simp [hm]))
      (fun hm => hne (by simp [hm])) _ hf
    refine ⟨l ++ x, caps, ?_, by simp [h2], .literal l toks x caps h4 h3, by simp [hl0], ?_⟩
    · intro b hb
      rcases List.mem_append.mp hb with hb | hb
      · exact hl l (by simp) b hb
      · exact h1 b hb
    · have := hav _ (by simp : (Token.literal l) ∈ (Token.literal l :: toks).head?)
      intro b hb
      refine this b ?_
      cases l with
      | nil => exact absurd rfl hl0
      | cons c l => simpa using hb
  | parser a k toks n hk _ ih =>
    have hs' : Satisfiable toks := ⟨fun t ht => hs.1 t (by simp [ht]), fun A c b B e => hs.2 (.parser a :: A) c b B (by simp [e])⟩
    have hnext : ∀ t ∈ toks.head?, CanFollow (.parser a) t := by
      intro t ht
      cases toks with
      | nil => simp at ht
      | cons u toks =>
        simp at ht; subst ht
        exact hs.2 [] (.parser a) u toks rfl
    have key : ∀ q : SetParser, (Token.parser (.set q) ∈ Token.parser a :: toks ∨ Token.parser (.int q) ∈ Token.parser a :: toks) →
        (∃ c ∈ q.characterSet, c ∉ av.characterSet) → (1 ≤ k ∧ (∀ j, q.minLength = some j → j ≤ k) ∧ ∀ j, q.maxLength = some j → k ≤ j) →
        (∀ t ∈ toks.head?, CanFollow (.parser (.set q)) t) → (∀ x v, SetMatch q.characterSet q.minLength q.maxLength x v → ParserMatch a x v) →
        ∃ x caps, Ascii x ∧ x.length = k + n ∧ MatchesStrict (.parser a :: toks) x caps ∧ (Token.parser a :: toks ≠ [] → x ≠ []) ∧
          ∀ b ∈ x.head?, b ∉ av.characterSet := by
      rintro q hq ⟨c, hc, hca⟩ hk hn hm
      obtain ⟨x, caps, h1, h2, h3, -, h5⟩ := ih hs' (fun g hm => hg g (by simp [hm])) hps.tail (fun l hm => hl l (by simp [hm]))
        (fun hm => hne (by simp [hm])) q hn
      refine ⟨List.replicate k c ++ x, _, ?_, by simp [h2], .parser a toks _ x caps (hm _ _ (run_match hc hk h5)) h3, ?_, ?_⟩
      · intro b hb
        rcases List.mem_append.mp hb with hb | hb
        · rw [List.eq_of_mem_replicate hb]; exact (hps.sets q hq).1 c hc
        · exact h1 b hb
      · intro _ e; have := congrArg List.length e; simp at this; omega
      · intro b hb
        obtain ⟨j, rfl⟩ : ∃ j, k = j + 1 := ⟨k - 1, by omega⟩
        simp [List.replicate_succ] at hb
        subst hb; exact hca
    have hcf := hav _ (by simp : Token.parser a ∈ (Token.parser a :: toks).head?)
    cases a with
    | set q => exact key q (by simp) hcf hk hnext fun _ _ h => h
    | int q => exact key q (by simp) hcf hk hnext fun _ _ h => h
    | greedy g => exact absurd (by simp) (hg g)

theorem text_of_length' {toks : List Token} {n : Nat} (h : HasLength toks n) (hs : Satisfiable toks) (hg : NoGreedy toks) (hps : PlainSets toks)
    (hl : ∀ l, Token.literal l ∈ toks → Ascii l) (hne : Token.literal [] ∉ toks) : ∃ x caps, Ascii x ∧ x.length = n ∧ MatchesStrict toks x caps := by
  obtain ⟨x, caps, h1, h2, h3, -, -⟩ := text_of_length h hs hg hps hl hne ⟨none, [], none, none⟩ fun t ht => by
    cases t with
    | literal l' => intro c _ hm; simp at hm
    | parser a =>
      have hpos := hs.1 _ (List.mem_of_mem_head? ht)
      cases a with
      | set q => obtain ⟨c, hc⟩ := List.exists_mem_of_ne_nil _ hpos.1; exact ⟨c, hc, by simp⟩
      | int q => obtain ⟨c, hc⟩ := List.exists_mem_of_ne_nil _ hpos.1; exact ⟨c, hc, by simp⟩
      | greedy g => trivial
  exact ⟨x, caps, h1, h2, h3⟩

/-- Cutting literals short makes texts shorter only. -/
theorem loose_le_longest {toks : List Token} {x : Bytes} {caps : List (Parser × Bytes)} (h : LooseMatches toks x caps) :
    ∃ n, x.length ≤ n ∧ HasLength toks n := by
  induction h with
  | nil => exact ⟨0, by simp, .nil⟩
  | last l x hp => exact ⟨l.length + 0, by simpa using hp.length_le, .literal l [] 0 .nil⟩
  | literal l c y toks caps _ hc _ _ ih =>
    obtain ⟨n, h1, h2⟩ := ih
    exact ⟨l.length + n, by have := hc.2.1.length_le; simp; omega, .literal l toks n h2⟩
  | parser a toks v y caps hm _ ih =>
    obtain ⟨n, h1, h2⟩ := ih
    exact ⟨v.length + n, by simp; omega, .parser a _ toks n (takes_of_match hm) h2⟩

end Lengths

/-- C136: the length of an answered message is a sum of lengths the tokens of the pattern can have, so it lies between the shortest and the longest. -/
theorem C136_trie (sip : Bytes → UInt64) (ps : List Pattern) (hu : ∀ p ∈ ps, Utf8Lits p) (hcol : NoCollision sip ps) (t : SuffixTree)
    (hb : SuffixTree.build sip ps = .ok t) (text : Bytes) (hx : Utf8 text) (r : MatchResult) (hr : t.parse text = .ok (some r)) :
    ∃ p ∈ ps, ∃ caps, IsResult r p caps ∧ HasLength p.pattern text.length ∧ shortest p.pattern ≤ text.length ∧
      ∀ m, longest p.pattern = some m → text.length ≤ m := by
  obtain ⟨p, hp, caps, h1, h2⟩ := C11_trie_sound sip ps hu hcol t hb text hx r hr
  have h := Lengths.hasLength_of_matches h1
  exact ⟨p, hp, caps, h2, h, Lengths.shortest_le h, fun m hm => Lengths.le_longest h hm⟩

/-- C136: a message that is too short for each of the patterns, or too long for it, has no answer. -/
theorem C136_trie_none (sip : Bytes → UInt64) (ps : List Pattern) (hu : ∀ p ∈ ps, Utf8Lits p) (hcol : NoCollision sip ps) (t : SuffixTree)
    (hb : SuffixTree.build sip ps = .ok t) (text : Bytes) (hx : Utf8 text)
    (hn : ∀ p ∈ ps, text.length < shortest p.pattern ∨ ∃ m, longest p.pattern = some m ∧ m < text.length) (r : Option MatchResult)
    (hr : t.parse text = .ok r) : r = none := by
  cases r with
  | none => rfl
  | some r =>
    obtain ⟨p, hp, -, -, -, h1, h2⟩ := C136_trie sip ps hu hcol t hb text hx r hr
    rcases hn p hp with h | ⟨m, h, h'⟩
    · omega
    · have := h2 m h; omega

/-- C136: for a pattern string without GREEDY these are all the lengths there are: if it matches anything at all, it is the answer for messages of each
length between the shortest and the longest, and for no others. -/
theorem C136_exactly (sip : Bytes → UInt64) (s : Bytes) (hs : Ascii s) (p : Pattern) (hc : compile s = .ok (.ok p.pattern)) (hg : NoGreedy p.pattern)
    (n : Nat) :
    (∃ text r, Ascii text ∧ text.length = n ∧ (SuffixTree.build sip [p] >>= fun t => t.parse text) = .ok (some r)) ↔
      Satisfiable p.pattern ∧ shortest p.pattern ≤ n ∧ ∀ m, longest p.pattern = some m → n ≤ m := by
  constructor
  · rintro ⟨text, r, hx, rfl, hr⟩
    obtain ⟨r', h1, -, h2⟩ := C52_end_to_end sip s hs p hc text hx
    rw [hr] at h1
    obtain ⟨caps, h3, -⟩ := h2 r (by simpa using h1.symm)
    have h := Lengths.hasLength_of_matches (matchesStrict_matches h3)
    exact ⟨satisfiable_of_matches (compiledShape (ascii_utf8 hs) hc) (matchesStrict_matches h3), Lengths.shortest_le h, fun m hm => Lengths.le_longest h hm⟩
  · rintro ⟨h1, h2, h3⟩
    obtain ⟨x, caps, h4, h5, h6⟩ := Lengths.text_of_length' (Lengths.hasLength_between hg h1.1 h2 h3) h1 hg (compiled_plainSets hs hc)
      (compiled_ascii hs hc) (C34_shape s (ascii_utf8 hs) _ hc).2.1
    obtain ⟨r, h7, h8, -⟩ := C52_end_to_end sip s hs p hc x h4
    obtain ⟨res, rfl, -⟩ := h8 caps h6
    exact ⟨x, res, h4, h5, h7⟩

/-- C136: the answers of the suffix array are never longer than the longest text of the pattern. -/
theorem C136_suffix_longest (sip : Bytes → UInt64) (ps : List Pattern) (hu : ∀ p ∈ ps, Utf8Lits p) (hcol : NoCollision sip ps) (t : SuffixTable)
    (hb : SuffixTable.build sip ps = .ok t) (text : Bytes) (hx : Utf8 text) (r : MatchResult) (hr : t.parse text = .ok (some r)) :
    ∃ p ∈ ps, ∃ caps, IsResult r p caps ∧ ∀ m, longest p.pattern = some m → text.length ≤ m := by
  obtain ⟨p, hp, caps, h1, h2⟩ := C28_loose_partial sip ps hu hcol t hb text hx r hr
  obtain ⟨n, h3, h4⟩ := Lengths.loose_le_longest h1
  exact ⟨p, hp, caps, h2, fun m hm => Nat.le_trans h3 (Lengths.le_longest h4 hm)⟩

/-- C136: they can be shorter than the shortest one. -/
theorem C136_suffix_shorter : ∃ (p : Pattern) (text : Bytes) (r : MatchResult), AsciiLits p ∧ Ascii text ∧
    (SuffixTable.build Samples.sip [p] >>= fun t => t.parse text) = .ok (some r) ∧ text.length < shortest p.pattern :=
  ⟨Samples.pat 1 [.literal b!"abc", .parser (Samples.int b!"x")], b!"ab5", { pattern := Samples.pat 1 [], values := [(b!"x", b!"5")] },
    by intro l hl; simp [Samples.pat] at hl; subst hl; decide, by decide, by decide +kernel, by decide +kernel⟩

end Verif
