import Verif.Spec.Satisfiable
import Verif.Props.C52_EndToEnd
import Verif.Props.C11_C14_TrieSound
/-! C111: exactly which pattern strings can match at all. -/
namespace Verif
open Spec

/-- What C34 says about the tokens of a pattern string. -/
structure CompiledShape (ts : List Token) : Prop where
  lits : Token.literal [] ∉ ts
  greedy : ∀ pre g post, ts = pre ++ .parser (.greedy g) :: post → ∀ e, g.endString = some e ↔ ∃ post', post = .literal e :: post'

theorem CompiledShape.tail {t : Token} {ts : List Token} (h : CompiledShape (t :: ts)) : CompiledShape ts :=
  ⟨fun hm => h.lits (List.mem_cons_of_mem _ hm), fun pre g post he => h.greedy (t :: pre) g post (by rw [he]; rfl)⟩

theorem compiledShape {s : Bytes} (hu : Utf8 s) {ts : List Token} (h : compile s = .ok (.ok ts)) : CompiledShape ts :=
  ⟨(C34_shape s hu ts h).2.1, (C34_shape s hu ts h).2.2.2⟩

theorem satisfiable_nil : Satisfiable [] := ⟨by simp, by simp⟩

theorem satisfiable_one {t : Token} (h : Possible t) : Satisfiable [t] := by
  refine ⟨by simpa using h, fun before a b after e => ?_⟩
  have := congrArg List.length e
  simp at this; omega

theorem satisfiable_cons {t u : Token} {ts : List Token} : Satisfiable (t :: u :: ts) ↔ Possible t ∧ CanFollow t u ∧ Satisfiable (u :: ts) := by
  constructor
  · rintro ⟨h1, h2⟩
    exact ⟨h1 t (by simp), h2 [] t u ts rfl, fun v hv => h1 v (List.mem_cons_of_mem _ hv), fun b x y a e => h2 (t :: b) x y a (by rw [e]; rfl)⟩
  · rintro ⟨h1, h2, h3, h4⟩
    refine ⟨?_, ?_⟩
    · intro v hv
      rcases List.mem_cons.mp hv with rfl | hv
      · exact h1
      · exact h3 v hv
    · intro b x y a e
      cases b with
      | nil =>
        simp at e
        obtain ⟨rfl, rfl, rfl⟩ := e
        exact h2
      | cons z b =>
        simp at e
        exact h4 b x y a e.2

theorem setMatch_possible {S : Bytes} {mn mx : Option Nat} {text v : Bytes} (h : SetMatch S mn mx text v) :
    S ≠ [] ∧ mx ≠ some 0 ∧ ∀ m ∈ mn, ∀ M ∈ mx, m ≤ M := by
  refine ⟨?_, ?_, ?_⟩
  · rintro rfl
    cases v with
    | nil => exact h.nonempty rfl
    | cons c v => exact absurd (h.inSet c (by simp)) (by simp)
  · rintro rfl
    have := h.atMost 0 rfl
    exact h.nonempty (List.eq_nil_of_length_eq_zero (by omega))
  · intro m hm M hM
    exact Nat.le_trans (h.atLeast m hm) (h.atMost M hM)

/-- What stands behind a run of the set begins with another character. -/
theorem setMatch_next {S : Bytes} {mn mx : Option Nat} {v x : Bytes} (h : SetMatch S mn mx (v ++ x) v) {c : UInt8} {r : Bytes} (hx : x = c :: r) :
    c ∉ S := h.maximal c r (by rw [hx])

/-- After a SET: the next token can follow it. -/
theorem follow_set {p : SetParser} {mn mx : Option Nat} {v x : Bytes} (h : SetMatch p.characterSet mn mx (v ++ x) v) {u : Token} {ts : List Token}
    {caps : List (Parser × Bytes)} (hs : CompiledShape (u :: ts)) (hm : Matches (u :: ts) x caps) : CanFollow (.parser (.set p)) u := by
  have key : ∀ {q : SetParser} {w y : Bytes}, SetMatch q.characterSet q.minLength q.maxLength (w ++ y) w → x = w ++ y →
      ∃ c ∈ q.characterSet, c ∉ p.characterSet := by
    intro q w y hq he
    cases w with
    | nil => exact absurd rfl hq.nonempty
    | cons c w => exact ⟨c, hq.inSet c (by simp), setMatch_next h (by rw [he]; rfl)⟩
  generalize he : u :: ts = toks at hm
  cases hm with
  | nil => simp at he
  | literal l toks y caps hm =>
    obtain ⟨rfl, rfl⟩ := by simpa using he
    intro c hc
    cases l with
    | nil => simp at hc
    | cons d l =>
      simp at hc
      subst hc
      exact setMatch_next h rfl
  | parser a toks w y caps hw hm =>
    obtain ⟨rfl, rfl⟩ := by simpa using he
    cases a with
    | greedy g => trivial
    | set q => exact key hw rfl
    | int q => exact key hw rfl

theorem follow_greedy {g : GreedyParser} {u : Token} {ts : List Token} {caps : List (Parser × Bytes)} (hs : CompiledShape (u :: ts))
    (hm : Matches (u :: ts) [] caps) : CanFollow (.parser (.greedy g)) u := by
  intro _
  generalize he : u :: ts = toks at hm
  generalize hx : ([] : Bytes) = x at hm
  cases hm with
  | nil => simp at he
  | literal l toks y caps hm =>
    obtain ⟨rfl, rfl⟩ := by simpa using he
    have : l = [] := by simp at hx; exact hx.1
    subst this
    exact absurd (by simp) hs.lits
  | parser a toks w y caps hw hm =>
    obtain ⟨rfl, rfl⟩ := by simpa using he
    obtain ⟨rfl, rfl⟩ : w = [] ∧ y = [] := by simpa using hx
    cases a with
    | set q => exact absurd rfl (SetMatch.nonempty hw)
    | int q => exact absurd rfl (SetMatch.nonempty hw)
    | greedy h =>
      refine ⟨h, rfl, ?_⟩
      cases hh : h.endString with
      | none => rfl
      | some e =>
        obtain ⟨post', rfl⟩ := (hs.greedy [] h ts rfl e).mp hh
        simp only [ParserMatch, hh] at hw
        obtain ⟨⟨r, hr⟩, _⟩ := hw
        have : e = [] := by simp at hr; exact hr.1
        subst this
        exact absurd (by simp) hs.lits

theorem satisfiable_of_matches {ts : List Token} {x : Bytes} {caps : List (Parser × Bytes)} (hs : CompiledShape ts) (hm : Matches ts x caps) :
    Satisfiable ts := by
  induction hm with
  | nil => exact satisfiable_nil
  | literal l toks x caps hm ih =>
    have ih := ih hs.tail
    cases toks with
    | nil => exact satisfiable_one trivial
    | cons u ts => exact satisfiable_cons.mpr ⟨trivial, trivial, ih⟩
  | parser a toks v x caps hv hm ih =>
    have ih := ih hs.tail
    have hp : Possible (.parser a) := by
      cases a with
      | greedy g => trivial
      | set p => exact setMatch_possible hv
      | int p => exact setMatch_possible hv
    cases toks with
    | nil => exact satisfiable_one hp
    | cons u ts =>
      refine satisfiable_cons.mpr ⟨hp, ?_, ih⟩
      cases a with
      | set p => exact follow_set hv hs.tail hm
      | int p => exact follow_set (p := p) hv hs.tail hm
      | greedy g =>
        cases hg : g.endString with
        | some e => intro h; rw [hg] at h; cases h
        | none =>
          simp only [ParserMatch, hg] at hv
          have : x = [] := by
            have := congrArg List.length hv
            simp at this; exact this
          subst this
          exact follow_greedy hs.tail hm

/-- The SETs of the tokens are ASCII and do not contain the quotation mark. -/
structure PlainSets (ts : List Token) : Prop where
  sets : ∀ p, (Token.parser (.set p) ∈ ts ∨ Token.parser (.int p) ∈ ts) → Ascii p.characterSet ∧ 34 ∉ p.characterSet

theorem PlainSets.tail {t : Token} {ts : List Token} (h : PlainSets (t :: ts)) : PlainSets ts :=
  ⟨fun p hp => h.sets p (by rcases hp with h | h <;> simp [h])⟩

theorem only_greedy_empty {ts : List Token} (hs : Satisfiable ts) {g : GreedyParser} (hh : ∀ u ∈ ts.head?, CanFollow (.parser (.greedy g)) u)
    (hg : g.endString = none) : ∃ caps, MatchesStrict ts [] caps := by
  induction ts generalizing g with
  | nil => exact ⟨[], .nil⟩
  | cons u ts ih =>
    obtain ⟨h, rfl, he⟩ := hh u (by simp) hg
    have hr : Satisfiable ts ∧ ∀ u ∈ ts.head?, CanFollow (.parser (.greedy h)) u := by
      cases ts with
      | nil => exact ⟨satisfiable_nil, by simp⟩
      | cons w ts =>
        have := satisfiable_cons.mp hs
        exact ⟨this.2.2, by simpa using this.2.1⟩
    obtain ⟨caps, hc⟩ := ih hr.1 hr.2 he
    exact ⟨_, .parser (.greedy h) ts [] [] caps (by simp [ParserMatch, he]) hc⟩

/-- A value of a possible SET that consists of one character over and over. -/
theorem set_value {p : SetParser} (hp : Possible (.parser (.set p))) {c : UInt8} (hc : c ∈ p.characterSet) {x : Bytes}
    (hx : ∀ d r, x = d :: r → d ∉ p.characterSet) :
    ∃ n, SetMatch p.characterSet p.minLength p.maxLength (List.replicate (n + 1) c ++ x) (List.replicate (n + 1) c) := by
  obtain ⟨h1, h2, h3⟩ := hp
  have : ∃ n, (∀ m ∈ p.minLength, m ≤ n + 1) ∧ ∀ m ∈ p.maxLength, n + 1 ≤ m := by
    cases hmn : p.minLength with
    | none =>
      refine ⟨0, by simp, ?_⟩
      intro m hm
      have hm : p.maxLength = some m := hm
      rcases m with _ | m
      · exact absurd hm h2
      · omega
    | some mn =>
      refine ⟨mn - 1, ?_, ?_⟩
      · intro m hm; simp at hm; omega
      · intro m hm
        have hm : p.maxLength = some m := hm
        have := h3 mn hmn m hm
        rcases m with _ | m
        · exact absurd hm h2
        · omega
  obtain ⟨n, h4, h5⟩ := this
  refine ⟨n, ⟨List.prefix_append _ _, by simp [List.replicate_succ], ?_, ?_, ?_, ?_⟩⟩
  · intro b hb
    rw [List.eq_of_mem_replicate hb]; exact hc
  · intro b r he
    exact hx b r (List.append_cancel_left he)
  · intro m hm; simpa using h4 m hm
  · intro m hm; simpa using h5 m hm

/-- A text for satisfiable tokens; behind a SET it begins with a character that is not in the set. -/
theorem text_exists {ts : List Token} (hs : Satisfiable ts) (hc : CompiledShape ts) (hp : PlainSets ts) (hl : ∀ l, Token.literal l ∈ ts → Ascii l)
    (avoid : Option SetParser) (ha : ∀ p ∈ avoid, 34 ∉ p.characterSet ∧ ∀ u ∈ ts.head?, CanFollow (.parser (.set p)) u) :
    ∃ x caps, Ascii x ∧ MatchesStrict ts x caps ∧ (ts ≠ [] → x ≠ []) ∧ ∀ p ∈ avoid, ∀ c r, x = c :: r → c ∉ p.characterSet := by
  induction ts generalizing avoid with
  | nil => exact ⟨[], [], by decide, .nil, by simp, by simp⟩
  | cons t ts ih =>
    have ht : Possible t := hs.1 t (by simp)
    have hs' : Satisfiable ts := by
      cases ts with
      | nil => exact satisfiable_nil
      | cons u ts => exact (satisfiable_cons.mp hs).2.2
    have hnext : ∀ u ∈ ts.head?, CanFollow t u := by
      cases ts with
      | nil => simp
      | cons u ts => simpa using (satisfiable_cons.mp hs).2.1
    have ih := ih hs' hc.tail hp.tail (fun l h => hl l (List.mem_cons_of_mem _ h))
    have hA : ∀ p ∈ avoid, CanFollow (.parser (.set p)) t := fun p h => (ha p h).2 t (by simp)
    cases t with
    | literal l =>
      obtain ⟨x, caps, h1, h2, h3, -⟩ := ih none (by simp)
      have hne : l ≠ [] := by rintro rfl; exact hc.lits (by simp)
      refine ⟨l ++ x, caps, ?_, .literal l ts x caps h3 h2, by simp [hne], ?_⟩
      · intro b hb
        rcases List.mem_append.mp hb with h | h
        · exact hl l (by simp) b h
        · exact h1 b h
      · intro p hp' c r he
        cases l with
        | nil => exact absurd rfl hne
        | cons d l =>
          simp at he
          exact hA p hp' c (by simp [he.1])
    | parser a =>
      have viaSet : ∀ q : SetParser, Possible (.parser (.set q)) → Ascii q.characterSet → 34 ∉ q.characterSet →
          (∀ u ∈ ts.head?, CanFollow (.parser (.set q)) u) →
          (∀ p ∈ avoid, ∃ c ∈ q.characterSet, c ∉ p.characterSet) →
          ∃ n c x caps, Ascii (List.replicate (n + 1) c ++ x) ∧ MatchesStrict ts x caps ∧
            SetMatch q.characterSet q.minLength q.maxLength (List.replicate (n + 1) c ++ x) (List.replicate (n + 1) c) ∧
            ∀ p ∈ avoid, c ∉ p.characterSet := by
        intro q h1 h2 h3 h4 h5
        have hcc : ∃ c ∈ q.characterSet, ∀ p ∈ avoid, c ∉ p.characterSet := by
          cases avoid with
          | none =>
            cases hq : q.characterSet with
            | nil => exact absurd hq h1.1
            | cons c _ => exact ⟨c, by simp, by simp⟩
          | some p =>
            obtain ⟨c, hc1, hc2⟩ := h5 p rfl
            exact ⟨c, hc1, by simpa using hc2⟩
        obtain ⟨c, hc1, hc2⟩ := hcc
        obtain ⟨x, caps, g1, g2, g3, g4⟩ := ih (some q) (by simpa using ⟨h3, h4⟩)
        obtain ⟨n, hn⟩ := set_value h1 hc1 (x := x) (fun d r e => g4 q rfl d r e)
        refine ⟨n, c, x, caps, ?_, g2, hn, hc2⟩
        intro b hb
        rcases List.mem_append.mp hb with h | h
        · rw [List.eq_of_mem_replicate h]; exact h2 c hc1
        · exact g1 b h
      have finish : ∀ n c x (p : SetParser), c ∉ p.characterSet → ∀ d r, List.replicate (n + 1) c ++ x = d :: r → d ∉ p.characterSet := by
        intro n c x p h d r e
        simp [List.replicate_succ] at e
        rw [← e.1]; exact h
      cases a with
      | set q =>
        obtain ⟨n, c, x, caps, g1, g2, g3, g4⟩ := viaSet q ht (hp.sets q (by simp)).1 (hp.sets q (by simp)).2 hnext hA
        exact ⟨_, _, g1, .parser (.set q) ts _ x caps g3 g2, by simp [List.replicate_succ], fun p hp' => finish n c x p (g4 p hp')⟩
      | int q =>
        obtain ⟨n, c, x, caps, g1, g2, g3, g4⟩ := viaSet q ht (hp.sets q (by simp)).1 (hp.sets q (by simp)).2 hnext hA
        exact ⟨_, _, g1, .parser (.int q) ts _ x caps g3 g2, by simp [List.replicate_succ], fun p hp' => finish n c x p (g4 p hp')⟩
      | greedy g =>
        cases hg : g.endString with
        | none =>
          obtain ⟨caps, hm⟩ := only_greedy_empty hs' hnext hg
          refine ⟨[34] ++ [], _, by decide, .parser (.greedy g) ts [34] [] caps (by simp [ParserMatch, hg]) hm, by simp, ?_⟩
          intro p hp' c r e
          simp at e
          rw [← e.1]; exact (ha p hp').1
        | some e =>
          obtain ⟨post, rfl⟩ := (hc.greedy [] g ts rfl e).mp hg
          obtain ⟨x, caps, g1, g2, g3, -⟩ := ih none (by simp)
          have hx : ∃ y, x = e ++ y := by cases g2 with | literal _ _ y _ _ _ => exact ⟨y, rfl⟩
          obtain ⟨y, hy⟩ := hx
          cases e with
          | nil => exact absurd (by simp) hc.lits
          | cons d e =>
            by_cases hd : d = 34
            · refine ⟨[] ++ x, _, g1, .parser (.greedy g) _ [] x caps ?_ g2, by simpa using g3 (by simp), ?_⟩
              · simp only [ParserMatch, hg]
                exact ⟨⟨y, by simpa using hy⟩, by simp⟩
              · intro p hp' c r he
                simp [hy] at he
                rw [← he.1, hd]; exact (ha p hp').1
            · refine ⟨[34] ++ x, _, ?_, .parser (.greedy g) _ [34] x caps ?_ g2, by simp, ?_⟩
              · intro b hb
                simp at hb
                rcases hb with rfl | hb
                · decide
                · exact g1 b hb
              · simp only [ParserMatch, hg]
                refine ⟨⟨y, by simp [hy]⟩, ?_⟩
                intro v' r' he
                cases v' with
                | nil => simp at he; exact absurd he.1.symm hd
                | cons _ _ => simp
              · intro p hp' c r he
                simp at he
                rw [← he.1]; exact (ha p hp').1

theorem mem_tokens_parser {es : List Elem} {a : Parser} (h : Token.parser a ∈ tokens es) :
    (∃ g, a = .greedy g) ∨ (∃ os n, a = intParser os n) ∨ ∃ cs os n, Elem.set cs os n ∈ es ∧ a = setParser cs os n := by
  induction es using tokens.induct with
  | case1 => simp [tokens] at h
  | case2 n raw es ih =>
    simp [tokens] at h
    rcases h with rfl | h
    · exact .inl ⟨_, rfl⟩
    · rcases ih h with h | h | ⟨cs, os, n, h1, h2⟩
      · exact .inl h
      · exact .inr (.inl h)
      · exact .inr (.inr ⟨cs, os, n, by simp [h1], h2⟩)
  | case3 n es hn ih =>
    rw [tokens] at h
    · simp at h
      rcases h with rfl | h
      · exact .inl ⟨_, rfl⟩
      · rcases ih h with h | h | ⟨cs, os, n, h1, h2⟩
        · exact .inl h
        · exact .inr (.inl h)
        · exact .inr (.inr ⟨cs, os, n, by simp [h1], h2⟩)
    · exact hn
  | case4 raw es ih =>
    simp [tokens] at h
    rcases ih h with h | h | ⟨cs, os, n, h1, h2⟩
    · exact .inl h
    · exact .inr (.inl h)
    · exact .inr (.inr ⟨cs, os, n, by simp [h1], h2⟩)
  | case5 os n es ih =>
    simp [tokens] at h
    rcases h with rfl | h
    · exact .inr (.inl ⟨os, n, rfl⟩)
    · rcases ih h with h | h | ⟨cs, os, n, h1, h2⟩
      · exact .inl h
      · exact .inr (.inl h)
      · exact .inr (.inr ⟨cs, os, n, by simp [h1], h2⟩)
  | case6 cs os n es ih =>
    simp [tokens] at h
    rcases h with rfl | h
    · exact .inr (.inr ⟨cs, os, n, by simp, rfl⟩)
    · rcases ih h with h | h | ⟨cs, os, n, h1, h2⟩
      · exact .inl h
      · exact .inr (.inl h)
      · exact .inr (.inr ⟨cs, os, n, by simp [h1], h2⟩)

theorem written_set {es : List Elem} {s : Bytes} (h : Written es s) {cs os n} (he : Elem.set cs os n ∈ es) : 34 ∉ cs ∧ ∀ c ∈ cs, c ∈ s := by
  induction h with
  | nil => simp at he
  | cons e es w s hw _ _ ih =>
    rcases List.mem_cons.mp he with rfl | he
    · cases hw with
      | set _ _ _ w x g1 g2 g3 g4 => exact ⟨g2, fun c hc => by simp [hc]⟩
    · exact ⟨(ih he).1, fun c hc => List.mem_append_right _ ((ih he).2 c hc)⟩

theorem compiled_plainSets {s : Bytes} (hs : Ascii s) {ts : List Token} (h : compile s = .ok (.ok ts)) : PlainSets ts := by
  obtain ⟨es, _, h2, rfl⟩ := (compile_ok_iff (ascii_utf8 hs)).mp h
  refine ⟨fun p hp => ?_⟩
  have : ∀ a, (a = .set p ∨ a = .int p) → Token.parser a ∈ tokens es → Ascii p.characterSet ∧ 34 ∉ p.characterSet := by
    intro a ha hm
    rcases mem_tokens_parser hm with ⟨g, rfl⟩ | ⟨os, n, rfl⟩ | ⟨cs, os, n, h3, rfl⟩
    · simp at ha
    · simp [intParser] at ha
      subst ha
      exact ⟨show Ascii b!"0123456789" by decide, show 34 ∉ b!"0123456789" by decide⟩
    · simp [setParser] at ha
      subst ha
      have h4 := written_set h2 h3
      exact ⟨fun c hc => hs c (h4.2 c (mem_bsetFromIter.mp hc)), fun hc => h4.1 (mem_bsetFromIter.mp hc)⟩
  rcases hp with hp | hp
  · exact this _ (.inl rfl) hp
  · exact this _ (.inr rfl) hp

/-- C111: a trie holding the pattern of an ASCII pattern string answers some ASCII text if and only if each token alone and each pair of neighbouring
tokens is possible. -/
theorem C111_satisfiable (sip : Bytes → UInt64) (s : Bytes) (hs : Ascii s) (p : Pattern) (hc : compile s = .ok (.ok p.pattern)) :
    (∃ text r, Ascii text ∧ (SuffixTree.build sip [p] >>= fun t => t.parse text) = .ok (some r)) ↔ Satisfiable p.pattern := by
  have hsh := compiledShape (ascii_utf8 hs) hc
  constructor
  · rintro ⟨text, r, hx, hr⟩
    obtain ⟨r', h1, -, h2⟩ := C52_end_to_end sip s hs p hc text hx
    rw [hr] at h1
    obtain ⟨caps, h3, -⟩ := h2 r (by simpa using h1.symm)
    exact satisfiable_of_matches hsh (matchesStrict_matches h3)
  · intro h
    obtain ⟨x, caps, h1, h2, -, -⟩ := text_exists h hsh (compiled_plainSets hs hc) (compiled_ascii hs hc) none (by simp)
    obtain ⟨r, h3, h4, -⟩ := C52_end_to_end sip s hs p hc x h1
    obtain ⟨res, rfl, -⟩ := h4 caps h2
    exact ⟨x, res, h1, h3⟩

/-- C111 for the suffix array: a satisfiable pattern string has a text there, too. -/
theorem C111_suffix (sip : Bytes → UInt64) (s : Bytes) (hs : Ascii s) (p : Pattern) (hc : compile s = .ok (.ok p.pattern)) (h : Satisfiable p.pattern) :
    ∃ text r, Ascii text ∧ (SuffixTable.build sip [p] >>= fun t => t.parse text) = .ok (some r) := by
  obtain ⟨x, caps, h1, h2, -, -⟩ :=
    text_exists h (compiledShape (ascii_utf8 hs) hc) (compiled_plainSets hs hc) (compiled_ascii hs hc) none (by simp)
  obtain ⟨res, h3, -⟩ := C52_suffix_array sip s hs p hc x h1 caps h2
  exact ⟨x, res, h1, h3⟩

/-- C111: whatever else a trie holds, a pattern string that is not satisfiable is never the answer, in any script. -/
theorem C111_never (sip : Bytes → UInt64) (ps : List Pattern) (hu : ∀ p ∈ ps, Utf8Lits p) (hcol : NoCollision sip ps)
    (t : SuffixTree) (hb : SuffixTree.build sip ps = .ok t) (text : Bytes) (hx : Utf8 text) (r : MatchResult) (hr : t.parse text = .ok (some r))
    (s : Bytes) (hs : Utf8 s) (p : Pattern) (hc : compile s = .ok (.ok p.pattern)) (hn : ¬Satisfiable p.pattern)
    (huniq : ∀ q ∈ ps, q.uuid = p.uuid → q.pattern = p.pattern) : r.pattern.uuid ≠ p.uuid := by
  intro he
  obtain ⟨q, hq, caps, h1, h2, -⟩ := C11_trie_sound sip ps hu hcol t hb text hx r hr
  have e := huniq q hq (by rw [← he, h2])
  rw [e] at h1
  exact hn (satisfiable_of_matches (compiledShape hs hc) h1)

/-! ### Cases -/

instance (t : Token) : Decidable (Possible t) :=
  match t with
  | .literal _ | .parser (.greedy _) => isTrue trivial
  | .parser (.set p) | .parser (.int p) =>
    inferInstanceAs (Decidable (p.characterSet ≠ [] ∧ p.maxLength ≠ some 0 ∧ ∀ mn ∈ p.minLength, ∀ mx ∈ p.maxLength, mn ≤ mx))

instance (a b : Token) : Decidable (CanFollow a b) :=
  match a, b with
  | .literal _, _ => isTrue trivial
  | .parser (.set _), .parser (.greedy _) | .parser (.int _), .parser (.greedy _) => isTrue trivial
  | .parser (.set p), .literal l | .parser (.int p), .literal l => inferInstanceAs (Decidable (∀ c ∈ l.head?, c ∉ p.characterSet))
  | .parser (.set p), .parser (.set q) | .parser (.set p), .parser (.int q) | .parser (.int p), .parser (.set q) | .parser (.int p), .parser (.int q) =>
    inferInstanceAs (Decidable (∃ c ∈ q.characterSet, c ∉ p.characterSet))
  | .parser (.greedy g), .parser (.greedy h) =>
    if e : g.endString = none → h.endString = none then isTrue (fun hg => ⟨h, rfl, e hg⟩)
    else isFalse (fun hc => e fun hg => by obtain ⟨h', h1, h2⟩ := hc hg; cases h1; exact h2)
  | .parser (.greedy g), .literal _ | .parser (.greedy g), .parser (.set _) | .parser (.greedy g), .parser (.int _) =>
    if e : g.endString = none then isFalse (fun hc => by obtain ⟨h', h1, _⟩ := hc e; cases h1) else isTrue (fun hg => absurd hg e)

instance decSatisfiable : (ts : List Token) → Decidable (Satisfiable ts)
  | [] => isTrue satisfiable_nil
  | [t] => if h : Possible t then isTrue (satisfiable_one h) else isFalse (fun hs => h (hs.1 t (by simp)))
  | t :: u :: ts =>
    have := decSatisfiable (u :: ts)
    decidable_of_iff _ satisfiable_cons.symm

/-- The compiler accepts the string, and it can match. -/
def canMatch (s : Bytes) : Option Bool :=
  match compile s with
  | .ok (.ok ts) => some (decide (Satisfiable ts))
  | _ => none

example : canMatch b!"%{INT:a}-%{SET(\"0ab\"):b}%{GREEDY:c}; %{INT:d}" = some true := by decide +kernel
/-! The first INT takes all the digits: -/
example : canMatch b!"%{INT:a}%{INT:b}" = some false := by decide +kernel
example : canMatch b!"%{SET(\"ab\"):x}%{SET(\"abc\"):y}" = some true := by decide +kernel
example : canMatch b!"%{SET(\"abc\"):x}%{SET(\"ab\"):y}" = some false := by decide +kernel
example : canMatch b!"%{SET(\"ab\"):x}b" = some false := by decide +kernel
example : canMatch b!"%{INT(min_len=3,max_len=2)}" = some false := by decide +kernel
example : canMatch b!"%{GREEDY:x}%{INT:y}" = some false := by decide +kernel
example : canMatch b!"%{GREEDY:x}%{GREEDY:y}" = some true := by decide +kernel
example : canMatch b!"%{INT:x}%{GREEDY:y}5" = some true := by decide +kernel

/-- The theorem with a concrete string. -/
example (text : Bytes) (hx : Ascii text) (r : MatchResult) :
    (SuffixTree.build Samples.sip [Samples.pat 1 [.parser (Samples.int b!"a"), .parser (Samples.int b!"b")]] >>= fun t => t.parse text) ≠ .ok (some r) := by
  intro h
  have := (C111_satisfiable Samples.sip b!"%{INT:a}%{INT:b}" (by decide) (Samples.pat 1 [.parser (Samples.int b!"a"), .parser (Samples.int b!"b")])
    (by decide +kernel)).mp ⟨text, r, hx, h⟩
  exact absurd this (by decide +kernel)

end Verif
