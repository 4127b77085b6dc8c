import Verif.Spec.SatisfiableAny
import Verif.Props.C111_Satisfiable
import Verif.Props.C66_Panics
import Verif.Proofs.SuffixPanic
/-! C52, C111 for pattern strings in any script: a trie holding one pattern, with the exact conditions for panics. -/
namespace Verif
open Spec

/-- C52, exactly: for every pattern string and every text, in any script, the trie holding the pattern panics iff matching the tokens from left to
right runs into trouble; otherwise it answers iff the pattern matches, with the values of this match. -/
theorem C52_exactly (sip : Bytes → UInt64) (s : Bytes) (hs : Utf8 s) (p : Pattern) (hc : compile s = .ok (.ok p.pattern)) (text : Bytes) (hx : Utf8 text) :
    (RunsInto p.pattern text → (SuffixTree.build sip [p] >>= fun t => t.parse text) = .error .slice) ∧
    (¬RunsInto p.pattern text → ∃ r, (SuffixTree.build sip [p] >>= fun t => t.parse text) = .ok r ∧
      (∀ caps, MatchesStrict p.pattern text caps → ∃ res, r = some res ∧ IsResult res p caps) ∧
      (∀ res, r = some res → ∃ caps, MatchesStrict p.pattern text caps ∧ IsResult res p caps)) := by
  obtain ⟨h1, h2, _⟩ := C34_shape s hs _ hc
  have hu : Utf8Lits p := (compiled_utf8 hs hc).1
  have ho := single_outcome (q := p.strip) hu (fun l hl e => h2 (e ▸ hl)) hx
  have hb := build_single sip p
  rw [hb]
  refine ⟨ho.1, fun hn => ?_⟩
  obtain ⟨r, hr⟩ := ho.2 hn
  exact ⟨r, hr, C52_end_to_end_utf8 sip s hs p hc text hx _ hb r hr⟩

/-- A match runs into trouble iff a value is not made of whole characters or a literal begins with a character outside ASCII. -/
theorem runsInto_of_match {ts : List Token} {x : Bytes} {caps : List (Parser × Bytes)} (hl : ∀ l, Token.literal l ∈ ts → l ≠ [])
    (hm : MatchesStrict ts x caps) :
    ¬RunsInto ts x ↔ (∀ c ∈ caps, Utf8 c.2) ∧ ∀ l, Token.literal l ∈ ts → ¬NonAsciiFirst l := by
  induction hm with
  | nil => exact ⟨fun _ => ⟨by simp, by simp⟩, fun _ h => by cases h⟩
  | literal l toks x caps hx hm ih =>
    have ih := ih fun l h => hl l (List.mem_cons_of_mem _ h)
    have h0 := hl l (by simp)
    by_cases hn : NonAsciiFirst l
    · exact ⟨fun h => absurd (.here l toks (l ++ x) (by simp [h0]) (.inr hn)) h, fun h => absurd hn (h.2 l (by simp))⟩
    · have e : RunsInto (.literal l :: toks) (l ++ x) ↔ RunsInto toks x := ⟨runsInto_lit hn h0, .literal l toks x⟩
      rw [e, ih]
      simp [hn]
  | parser a toks v x caps hv hm ih =>
    have ih := ih fun l h => hl l (List.mem_cons_of_mem _ h)
    by_cases hu : Utf8 v
    · have e : RunsInto (.parser a :: toks) (v ++ x) ↔ RunsInto toks x := ⟨runsInto_par hu hv, .parser a toks v x hv⟩
      rw [e, ih]
      simp [hu]
    · exact ⟨fun h => absurd (.cut a toks v (v ++ x) hv hu) h, fun h => absurd (h.1 (a, v) (by simp)) hu⟩

theorem any_nil : SatisfiableAny [] := ⟨by simp, by simp⟩

theorem any_one {t : Token} (h : HasValue t) : SatisfiableAny [t] := by
  refine ⟨by simpa using h, fun before a b after e => ?_⟩
  have := congrArg List.length e
  simp at this; omega

theorem any_cons {t u : Token} {ts : List Token} : SatisfiableAny (t :: u :: ts) ↔ HasValue t ∧ FollowsWhole t u ∧ SatisfiableAny (u :: ts) := by
  constructor
  · rintro ⟨h1, h2⟩
    exact ⟨h1 t (by simp), h2 [] t u ts rfl, fun v hv => h1 v (List.mem_cons_of_mem _ hv), fun b x y a e => h2 (t :: b) x y a (by rw [e]; rfl)⟩
  · rintro ⟨h1, h2, h3, h4⟩
    refine ⟨?_, ?_⟩
    · intro v hv
      rcases List.mem_cons.mp hv with rfl | hv
      · exact h1
      · exact h3 v hv
    · intro b x y a e
      cases b with
      | nil =>
        simp at e
        obtain ⟨rfl, rfl, rfl⟩ := e
        exact h2
      | cons z b =>
        simp at e
        exact h4 b x y a e.2

theorem valueOf_of_match {p : SetParser} {text v : Bytes} (h : SetMatch p.characterSet p.minLength p.maxLength text v) (hv : Utf8 v) : ValueOf p v :=
  ⟨hv, h.nonempty, h.inSet, fun n hn => h.atLeast n hn, fun n hn => h.atMost n hn⟩

theorem match_of_valueOf {p : SetParser} {v x : Bytes} (h : ValueOf p v) (hx : ∀ d r, x = d :: r → d ∉ p.characterSet) :
    SetMatch p.characterSet p.minLength p.maxLength (v ++ x) v :=
  ⟨List.prefix_append _ _, h.nonempty, h.inSet, fun b r e => hx b r (List.append_cancel_left e), fun n hn => h.atLeast n hn, fun n hn => h.atMost n hn⟩

theorem any_of_matches {ts : List Token} {x : Bytes} {caps : List (Parser × Bytes)} (hs : CompiledShape ts) (hm : Matches ts x caps)
    (hu : ∀ c ∈ caps, Utf8 c.2) : SatisfiableAny ts := by
  induction hm with
  | nil => exact any_nil
  | literal l toks x caps hm ih =>
    have ih := ih hs.tail hu
    cases toks with
    | nil => exact any_one trivial
    | cons u ts => exact any_cons.mpr ⟨trivial, trivial, ih⟩
  | parser a toks v x caps hv hm ih =>
    have ih := ih hs.tail fun c hc => hu c (List.mem_cons_of_mem _ hc)
    have huv : Utf8 v := hu (a, v) (by simp)
    have hp : HasValue (.parser a) := by
      cases a with
      | greedy g => trivial
      | set p => exact ⟨v, valueOf_of_match hv huv⟩
      | int p => exact ⟨v, valueOf_of_match hv huv⟩
    cases toks with
    | nil => exact any_one hp
    | cons u ts =>
      refine any_cons.mpr ⟨hp, ?_, ih⟩
      have behind : ∀ p : SetParser, SetMatch p.characterSet p.minLength p.maxLength (v ++ x) v → FollowsWhole (.parser (.set p)) u := by
        intro p hv
        have key : ∀ {q : SetParser} {w y : Bytes}, SetMatch q.characterSet q.minLength q.maxLength (w ++ y) w → Utf8 w → x = w ++ y →
            ∃ c v, ValueOf q (c :: v) ∧ c ∉ p.characterSet := by
          intro q w y hq hw he
          cases w with
          | nil => exact absurd rfl hq.nonempty
          | cons c w => exact ⟨c, w, valueOf_of_match hq hw, setMatch_next hv (by rw [he]; rfl)⟩
        have hu' : ∀ c ∈ caps, Utf8 c.2 := fun c hc => hu c (List.mem_cons_of_mem _ hc)
        clear ih hu
        generalize he : u :: ts = toks at hm
        cases hm with
        | nil => simp at he
        | literal l toks y caps hm =>
          obtain ⟨rfl, rfl⟩ := by simpa using he
          intro c hc
          cases l with
          | nil => simp at hc
          | cons d l =>
            simp at hc
            subst hc
            exact setMatch_next hv rfl
        | parser b toks w y caps hw hm =>
          obtain ⟨rfl, rfl⟩ := by simpa using he
          have hw' : Utf8 w := hu' (b, w) (by simp)
          cases b with
          | greedy g => trivial
          | set q => exact key hw hw' rfl
          | int q => exact key hw hw' rfl
      cases a with
      | set p => exact behind p hv
      | int p => exact behind p hv
      | greedy g =>
        cases hg : g.endString with
        | some e => intro h; rw [hg] at h; cases h
        | none =>
          simp only [ParserMatch, hg] at hv
          have : x = [] := by
            have := congrArg List.length hv
            simp at this; exact this
          subst this
          exact follow_greedy hs.tail hm

theorem greedies_empty {ts : List Token} (hs : SatisfiableAny ts) {g : GreedyParser} (hh : ∀ u ∈ ts.head?, FollowsWhole (.parser (.greedy g)) u)
    (hg : g.endString = none) : ∃ caps, MatchesStrict ts [] caps ∧ ∀ c ∈ caps, Utf8 c.2 := by
  induction ts generalizing g with
  | nil => exact ⟨[], .nil, by simp⟩
  | cons u ts ih =>
    obtain ⟨h, rfl, he⟩ := hh u (by simp) hg
    have hr : SatisfiableAny ts ∧ ∀ u ∈ ts.head?, FollowsWhole (.parser (.greedy h)) u := by
      cases ts with
      | nil => exact ⟨any_nil, by simp⟩
      | cons w ts =>
        have := any_cons.mp hs
        exact ⟨this.2.2, by simpa using this.2.1⟩
    obtain ⟨caps, hc, hu⟩ := ih hr.1 hr.2 he
    refine ⟨_, .parser (.greedy h) ts [] [] caps (by simp [ParserMatch, he]) hc, ?_⟩
    intro c hc
    rcases List.mem_cons.mp hc with rfl | hc
    · exact utf8_nil
    · exact hu c hc

/-- A text for satisfiable tokens; behind a SET it begins with a byte that is not in the set. -/
theorem text_exists_any {ts : List Token} (hs : SatisfiableAny ts) (hc : CompiledShape ts)
    (hp : ∀ p, (Token.parser (.set p) ∈ ts ∨ Token.parser (.int p) ∈ ts) → 34 ∉ p.characterSet) (hl : ∀ l, Token.literal l ∈ ts → Utf8 l)
    (avoid : Option SetParser) (ha : ∀ p ∈ avoid, 34 ∉ p.characterSet ∧ ∀ u ∈ ts.head?, FollowsWhole (.parser (.set p)) u) :
    ∃ x caps, Utf8 x ∧ MatchesStrict ts x caps ∧ (∀ c ∈ caps, Utf8 c.2) ∧ (ts ≠ [] → x ≠ []) ∧ ∀ p ∈ avoid, ∀ c r, x = c :: r → c ∉ p.characterSet := by
  induction ts generalizing avoid with
  | nil => exact ⟨[], [], utf8_nil, .nil, by simp, by simp, by simp⟩
  | cons t ts ih =>
    have ht : HasValue t := hs.1 t (by simp)
    have hs' : SatisfiableAny ts := by
      cases ts with
      | nil => exact any_nil
      | cons u ts => exact (any_cons.mp hs).2.2
    have hnext : ∀ u ∈ ts.head?, FollowsWhole t u := by
      cases ts with
      | nil => simp
      | cons u ts => simpa using (any_cons.mp hs).2.1
    have ih := ih hs' hc.tail (fun p h => hp p (by rcases h with h | h <;> simp [h])) (fun l h => hl l (List.mem_cons_of_mem _ h))
    have hA : ∀ p ∈ avoid, FollowsWhole (.parser (.set p)) t := fun p h => (ha p h).2 t (by simp)
    have with' : ∀ {a : Parser} {v : Bytes} {caps : List (Parser × Bytes)}, Utf8 v → (∀ c ∈ caps, Utf8 c.2) → ∀ c ∈ (a, v) :: caps, Utf8 c.2 := by
      intro a v caps h1 h2 c hc
      rcases List.mem_cons.mp hc with rfl | hc
      · exact h1
      · exact h2 c hc
    have quote : Utf8 [34] := ascii_utf8 (by decide)
    cases t with
    | literal l =>
      obtain ⟨x, caps, h1, h2, hu, h3, -⟩ := ih none (by simp)
      have hne : l ≠ [] := by rintro rfl; exact hc.lits (by simp)
      refine ⟨l ++ x, caps, utf8_append (hl l (by simp)) h1, .literal l ts x caps h3 h2, hu, by simp [hne], ?_⟩
      intro p hp' c r he
      cases l with
      | nil => exact absurd rfl hne
      | cons d l =>
        simp at he
        exact hA p hp' c (by simp [he.1])
    | parser a =>
      have viaSet : ∀ q : SetParser, (∃ v, ValueOf q v) → 34 ∉ q.characterSet → (∀ u ∈ ts.head?, FollowsWhole (.parser (.set q)) u) →
          (∀ p ∈ avoid, ∃ c v, ValueOf q (c :: v) ∧ c ∉ p.characterSet) →
          ∃ c v x caps, Utf8 (c :: v) ∧ Utf8 x ∧ MatchesStrict ts x caps ∧ (∀ c ∈ caps, Utf8 c.2) ∧
            SetMatch q.characterSet q.minLength q.maxLength ((c :: v) ++ x) (c :: v) ∧ ∀ p ∈ avoid, c ∉ p.characterSet := by
        intro q h1 h3 h4 h5
        have hcc : ∃ c v, ValueOf q (c :: v) ∧ ∀ p ∈ avoid, c ∉ p.characterSet := by
          cases avoid with
          | none =>
            obtain ⟨v, hv⟩ := h1
            cases v with
            | nil => exact absurd rfl hv.nonempty
            | cons c v => exact ⟨c, v, hv, by simp⟩
          | some p =>
            obtain ⟨c, v, hc1, hc2⟩ := h5 p rfl
            exact ⟨c, v, hc1, by simpa using hc2⟩
        obtain ⟨c, v, hc1, hc2⟩ := hcc
        obtain ⟨x, caps, g1, g2, gu, g3, g4⟩ := ih (some q) (by simpa using ⟨h3, h4⟩)
        exact ⟨c, v, x, caps, hc1.whole, g1, g2, gu, match_of_valueOf hc1 (fun d r e => g4 q rfl d r e), hc2⟩
      have finish : ∀ (c : UInt8) v x (p : SetParser), c ∉ p.characterSet → ∀ d r, (c :: v) ++ x = d :: r → d ∉ p.characterSet := by
        intro c v x p h d r e
        simp at e
        rw [← e.1]; exact h
      cases a with
      | set q =>
        obtain ⟨c, v, x, caps, g0, g1, g2, gu, g3, g4⟩ := viaSet q ht (hp q (by simp)) hnext hA
        exact ⟨_, _, utf8_append g0 g1, .parser (.set q) ts _ x caps g3 g2, with' g0 gu, by simp, fun p hp' => finish c v x p (g4 p hp')⟩
      | int q =>
        obtain ⟨c, v, x, caps, g0, g1, g2, gu, g3, g4⟩ := viaSet q ht (hp q (by simp)) hnext hA
        exact ⟨_, _, utf8_append g0 g1, .parser (.int q) ts _ x caps g3 g2, with' g0 gu, by simp, fun p hp' => finish c v x p (g4 p hp')⟩
      | greedy g =>
        cases hg : g.endString with
        | none =>
          obtain ⟨caps, hm, hu⟩ := greedies_empty hs' hnext hg
          refine ⟨[34] ++ [], _, quote, .parser (.greedy g) ts [34] [] caps (by simp [ParserMatch, hg]) hm, with' quote hu, by simp, ?_⟩
          intro p hp' c r e
          simp at e
          rw [← e.1]; exact (ha p hp').1
        | some e =>
          obtain ⟨post, rfl⟩ := (hc.greedy [] g ts rfl e).mp hg
          obtain ⟨x, caps, g1, g2, gu, g3, -⟩ := ih none (by simp)
          have hx : ∃ y, x = e ++ y := by cases g2 with | literal _ _ y _ _ _ => exact ⟨y, rfl⟩
          obtain ⟨y, hy⟩ := hx
          cases e with
          | nil => exact absurd (by simp) hc.lits
          | cons d e =>
            by_cases hd : d = 34
            · refine ⟨[] ++ x, _, g1, .parser (.greedy g) _ [] x caps ?_ g2, with' utf8_nil gu, by simpa using g3 (by simp), ?_⟩
              · simp only [ParserMatch, hg]
                exact ⟨⟨y, by simpa using hy⟩, by simp⟩
              · intro p hp' c r he
                simp [hy] at he
                rw [← he.1, hd]; exact (ha p hp').1
            · refine ⟨[34] ++ x, _, utf8_append quote g1, .parser (.greedy g) _ [34] x caps ?_ g2, with' quote gu, by simp, ?_⟩
              · simp only [ParserMatch, hg]
                refine ⟨⟨y, by simp [hy]⟩, ?_⟩
                intro v' r' he
                cases v' with
                | nil => simp at he; exact absurd he.1.symm hd
                | cons _ _ => simp
              · intro p hp' c r he
                simp at he
                rw [← he.1]; exact (ha p hp').1

theorem compiled_noQuote {s : Bytes} (hs : Utf8 s) {ts : List Token} (h : compile s = .ok (.ok ts)) (p : SetParser)
    (hp : Token.parser (.set p) ∈ ts ∨ Token.parser (.int p) ∈ ts) : 34 ∉ p.characterSet := by
  obtain ⟨es, _, h2, rfl⟩ := (compile_ok_iff hs).mp h
  have : ∀ a, (a = .set p ∨ a = .int p) → Token.parser a ∈ tokens es → 34 ∉ p.characterSet := by
    intro a ha hm
    rcases mem_tokens_parser hm with ⟨g, rfl⟩ | ⟨os, n, rfl⟩ | ⟨cs, os, n, h3, rfl⟩
    · simp at ha
    · simp [intParser] at ha
      subst ha
      exact show 34 ∉ b!"0123456789" by decide
    · simp [setParser] at ha
      subst ha
      exact fun hc => (written_set h2 h3).1 (mem_bsetFromIter.mp hc)
  rcases hp with hp | hp
  · exact this _ (.inl rfl) hp
  · exact this _ (.inr rfl) hp

/-- C111 for pattern strings in any script: a trie holding the pattern answers some text if and only if each token alone and each pair of neighbouring
tokens is possible with whole characters, and no literal begins with a character outside ASCII. -/
theorem C111_any_script (sip : Bytes → UInt64) (s : Bytes) (hs : Utf8 s) (p : Pattern) (hc : compile s = .ok (.ok p.pattern)) :
    (∃ text r, Utf8 text ∧ (SuffixTree.build sip [p] >>= fun t => t.parse text) = .ok (some r)) ↔
      SatisfiableAny p.pattern ∧ ∀ l, Token.literal l ∈ p.pattern → ¬NonAsciiFirst l := by
  have hsh := compiledShape hs hc
  have hne : ∀ l, Token.literal l ∈ p.pattern → l ≠ [] := by rintro l hl rfl; exact hsh.lits hl
  constructor
  · rintro ⟨text, r, hx, hr⟩
    have h := C52_exactly sip s hs p hc text hx
    have hn : ¬RunsInto p.pattern text := fun g => by have := h.1 g; rw [hr] at this; cases this
    obtain ⟨r', h1, -, h2⟩ := h.2 hn
    rw [hr] at h1
    obtain ⟨caps, h3, -⟩ := h2 r (by simpa using h1.symm)
    have h4 := (runsInto_of_match hne h3).mp hn
    exact ⟨any_of_matches hsh (matchesStrict_matches h3) h4.1, h4.2⟩
  · rintro ⟨h, hl⟩
    obtain ⟨x, caps, h1, h2, hu, -, -⟩ := text_exists_any h hsh (compiled_noQuote hs hc) (compiled_utf8 hs hc).1 none (by simp)
    obtain ⟨r, h3, h4, -⟩ := (C52_exactly sip s hs p hc x h1).2 ((runsInto_of_match hne h2).mpr ⟨hu, hl⟩)
    obtain ⟨res, rfl, -⟩ := h4 caps h2
    exact ⟨x, res, h1, h3⟩

/-! ### The suffix array -/

/-- C29, exactly: for every pattern with UTF-8 literals and every text the suffix array holding the pattern panics iff a value ends inside a character;
otherwise it answers exactly the texts that match loosely. -/
theorem C29_exactly (sip : Bytes → UInt64) (p : Pattern) (hu : Utf8Lits p) (hne : p.pattern ≠ []) (text : Bytes) (hx : Utf8 text) :
    (LooseTrouble p.pattern text → (SuffixTable.build sip [p] >>= fun t => t.parse text) = .error .slice) ∧
    (¬LooseTrouble p.pattern text → ∃ r, (SuffixTable.build sip [p] >>= fun t => t.parse text) = .ok r ∧
      (∀ caps, LooseMatches p.pattern text caps → ∃ res, r = some res ∧ IsResult res p caps) ∧
      (∀ res, r = some res → ∃ caps, LooseMatches p.pattern text caps ∧ IsResult res p caps)) := by
  have ho := ssingle_outcome (q := p.strip) hu hx
  rw [sbuild_single]
  refine ⟨ho.1, fun hn => ?_⟩
  obtain ⟨r, hr⟩ := ho.2 hn
  have h := ssingle_answers hne hu hx hr
  exact ⟨r, hr, fun caps hc => h.1 caps hc, by rintro res rfl; exact sanswers_some h⟩

theorem longestCommonPrefix_unique {a b c c' : Bytes} (h : LongestCommonPrefix a b c) (h' : LongestCommonPrefix a b c') : c = c' := by
  obtain ⟨u1, u2, u3, u4⟩ := h
  obtain ⟨v1, v2, v3, v4⟩ := h'
  exact (List.prefix_of_prefix_length_le u3 v3 (v4 c u1 u2 u3)).eq_of_length (Nat.le_antisymm (v4 c u1 u2 u3) (u4 c' v1 v2 v3))

theorem trouble_of_match {ts : List Token} {x : Bytes} {caps : List (Parser × Bytes)} (hm : LooseMatches ts x caps) :
    ¬LooseTrouble ts x ↔ ∀ c ∈ caps, Utf8 c.2 := by
  induction hm with
  | nil => exact ⟨fun _ => by simp, fun _ h => by cases h⟩
  | last l x hx =>
    refine ⟨fun _ => by simp, fun _ h => ?_⟩
    cases h with
    | literal _ _ _ _ h => exact h rfl
  | literal l c y toks caps h1 h2 h3 hm ih =>
    rw [← ih]
    refine not_congr ⟨fun h => ?_, .literal l c y toks h1 h2 h3⟩
    generalize hz : c ++ y = z at h h2
    cases h with
    | literal _ c' y' _ g1 g2 g3 g4 =>
      have := longestCommonPrefix_unique h2 g2
      subst this
      rw [List.append_cancel_left hz]; exact g4
  | parser a toks v x caps hv hm ih =>
    by_cases hu : Utf8 v
    · have e : LooseTrouble (.parser a :: toks) (v ++ x) ↔ LooseTrouble toks x := ⟨trouble_par hu hv, .parser a toks v x hv⟩
      rw [e, ih]
      simp [hu]
    · exact ⟨fun h => absurd (.cut a toks v (v ++ x) hv hu) h, fun h => absurd (h (a, v) (by simp)) hu⟩

/-- No two literals stand side by side. -/
def NoPair (ts : List Token) : Prop := ∀ pre l l' post, ts ≠ pre ++ .literal l :: .literal l' :: post

theorem NoPair.tail {t : Token} {ts : List Token} (h : NoPair (t :: ts)) : NoPair ts := fun pre l l' post e => h (t :: pre) l l' post (by rw [e]; rfl)

theorem NoPair.next {l : Bytes} {ts : List Token} (h : NoPair (.literal l :: ts)) (l' : Bytes) : ts.head? ≠ some (.literal l') := by
  intro e
  cases ts with
  | nil => simp at e
  | cons u ts => simp at e; subst e; exact h [] l l' ts rfl

theorem loosely_nil : SatisfiableLoosely [] := ⟨by simp, by simp⟩

theorem loosely_one {t : Token} (h : HasValue t) : SatisfiableLoosely [t] := by
  refine ⟨by simpa using h, fun before a b after e => ?_⟩
  have := congrArg List.length e
  simp at this; omega

theorem loosely_cons {t u : Token} {ts : List Token} : SatisfiableLoosely (t :: u :: ts) ↔
    HasValue t ∧ (FollowsWhole t u ∨ ((∃ l, u = .literal l) ∧ ∀ w ∈ ts.head?, FollowsWhole t w)) ∧ SatisfiableLoosely (u :: ts) := by
  constructor
  · rintro ⟨h1, h2⟩
    exact ⟨h1 t (by simp), h2 [] t u ts rfl, fun v hv => h1 v (List.mem_cons_of_mem _ hv), fun b x y a e => h2 (t :: b) x y a (by rw [e]; rfl)⟩
  · rintro ⟨h1, h2, h3, h4⟩
    refine ⟨?_, ?_⟩
    · intro v hv
      rcases List.mem_cons.mp hv with rfl | hv
      · exact h1
      · exact h3 v hv
    · intro b x y a e
      cases b with
      | nil =>
        simp at e
        obtain ⟨rfl, rfl, rfl⟩ := e
        exact h2
      | cons z b =>
        simp at e
        exact h4 b x y a e.2

/-- What stands behind a SET in a loose match begins with another byte. -/
theorem loose_behind {p : SetParser} {x : Bytes} (hx : ∀ c r, x = c :: r → c ∉ p.characterSet) {u : Token} {ts : List Token}
    {caps : List (Parser × Bytes)} (hu : ∀ c ∈ caps, Utf8 c.2) (hm : LooseMatches (u :: ts) x caps) (hlit : ∀ l, u ≠ .literal l) :
    FollowsWhole (.parser (.set p)) u := by
  have key : ∀ {q : SetParser} {w y : Bytes}, SetMatch q.characterSet q.minLength q.maxLength (w ++ y) w → Utf8 w → x = w ++ y →
      ∃ c v, ValueOf q (c :: v) ∧ c ∉ p.characterSet := by
    intro q w y hq hw he
    cases w with
    | nil => exact absurd rfl hq.nonempty
    | cons c w => exact ⟨c, w, valueOf_of_match hq hw, hx c _ (by rw [he]; rfl)⟩
  cases u with
  | literal l => exact absurd rfl (hlit l)
  | parser b =>
    obtain ⟨w, y, caps', rfl, rfl, hw, hm⟩ := loose_par_inv hm
    have hw' : Utf8 w := hu (b, w) (by simp)
    cases b with
    | greedy g => trivial
    | set q => exact key hw hw' rfl
    | int q => exact key hw hw' rfl

theorem loosely_of_match {ts : List Token} {x : Bytes} {caps : List (Parser × Bytes)} (hs : CompiledShape ts) (hn : NoPair ts)
    (hm : LooseMatches ts x caps) (hu : ∀ c ∈ caps, Utf8 c.2) : SatisfiableLoosely ts := by
  induction hm with
  | nil => exact loosely_nil
  | last l x _ => exact loosely_one trivial
  | literal l c y toks caps h1 h2 h3 hm ih =>
    have ih := ih hs.tail hn.tail hu
    cases toks with
    | nil => exact loosely_one trivial
    | cons u ts => exact loosely_cons.mpr ⟨trivial, .inl trivial, ih⟩
  | parser a toks v x caps hv hm ih =>
    have hu' : ∀ c ∈ caps, Utf8 c.2 := fun c hc => hu c (List.mem_cons_of_mem _ hc)
    have ih := ih hs.tail hn.tail hu'
    have huv : Utf8 v := hu (a, v) (by simp)
    have hp : HasValue (.parser a) := by
      cases a with
      | greedy g => trivial
      | set p => exact ⟨v, valueOf_of_match hv huv⟩
      | int p => exact ⟨v, valueOf_of_match hv huv⟩
    cases toks with
    | nil => exact loosely_one hp
    | cons u ts =>
      refine loosely_cons.mpr ⟨hp, ?_, ih⟩
      have behind : ∀ p : SetParser, SetMatch p.characterSet p.minLength p.maxLength (v ++ x) v →
          FollowsWhole (.parser (.set p)) u ∨ ((∃ l, u = .literal l) ∧ ∀ w ∈ ts.head?, FollowsWhole (.parser (.set p)) w) := by
        intro p hv
        have hx : ∀ c r, x = c :: r → c ∉ p.characterSet := fun c r e => setMatch_next hv e
        cases u with
        | parser b => exact .inl (loose_behind hx hu' hm (by simp))
        | literal l =>
          rcases loose_lit_inv hm with ⟨rfl, -⟩ | ⟨h1, c, y, rfl, h2, h3, h4⟩
          · exact .inr ⟨⟨l, rfl⟩, by simp⟩
          · cases c with
            | cons d c =>
              left
              intro b hb
              obtain ⟨t, ht⟩ := h2.2.1
              rw [← ht] at hb
              simp at hb
              rw [← hb]
              exact hx d _ rfl
            | nil =>
              refine .inr ⟨⟨l, rfl⟩, fun w hw => ?_⟩
              cases ts with
              | nil => simp at hw
              | cons w' ts =>
                simp at hw; subst hw
                exact loose_behind hx hu' h4 fun l' e => hn.tail.next l' (by simp [e])
      cases a with
      | set p => exact behind p hv
      | int p => exact behind p hv
      | greedy g =>
        left
        intro hg
        simp only [ParserMatch, hg] at hv
        have : x = [] := by
          have := congrArg List.length hv
          simp at this; exact this
        subst this
        cases u with
        | literal l =>
          have := (hs.greedy [] g (.literal l :: ts) rfl l).mpr ⟨ts, rfl⟩
          rw [hg] at this; cases this
        | parser b =>
          obtain ⟨w, y, caps', he, rfl, hw, hm⟩ := loose_par_inv hm
          obtain ⟨rfl, rfl⟩ : w = [] ∧ y = [] := by simpa using he.symm
          cases b with
          | set q => exact absurd rfl (SetMatch.nonempty hw)
          | int q => exact absurd rfl (SetMatch.nonempty hw)
          | greedy h =>
            refine ⟨h, rfl, ?_⟩
            cases hh : h.endString with
            | none => rfl
            | some e =>
              obtain ⟨post', rfl⟩ := (hs.tail.greedy [] h ts rfl e).mp hh
              simp only [ParserMatch, hh] at hw
              obtain ⟨⟨r, hr⟩, _⟩ := hw
              have : e = [] := by simp at hr; exact hr.1
              subst this
              exact absurd (by simp) hs.lits

/-- The tokens can stand behind a SET. -/
def Behind (p : SetParser) : List Token → Prop
  | [] => True
  | u :: ts => FollowsWhole (.parser (.set p)) u ∨ ((∃ l, u = .literal l) ∧ ∀ w ∈ ts.head?, FollowsWhole (.parser (.set p)) w)

theorem greedies_empty_loosely {ts : List Token} (hs : SatisfiableLoosely ts) (hc : CompiledShape ts) {g : GreedyParser}
    (hh : ∀ u ∈ ts.head?, FollowsWhole (.parser (.greedy g)) u) (hg : g.endString = none) : ∃ caps, LooseMatches ts [] caps ∧ ∀ c ∈ caps, Utf8 c.2 := by
  induction ts generalizing g with
  | nil => exact ⟨[], .nil, by simp⟩
  | cons u ts ih =>
    obtain ⟨h, rfl, he⟩ := hh u (by simp) hg
    have hr : SatisfiableLoosely ts ∧ ∀ u ∈ ts.head?, FollowsWhole (.parser (.greedy h)) u := by
      cases ts with
      | nil => exact ⟨loosely_nil, by simp⟩
      | cons w ts =>
        have := loosely_cons.mp hs
        refine ⟨this.2.2, ?_⟩
        rcases this.2.1 with h1 | ⟨⟨l, rfl⟩, -⟩
        · simpa using h1
        · have := (hc.greedy [] h (.literal l :: ts) rfl l).mpr ⟨ts, rfl⟩
          rw [he] at this; cases this
    obtain ⟨caps, hc, hu⟩ := ih hr.1 hc.tail hr.2 he
    refine ⟨_, .parser (.greedy h) ts [] [] caps (by simp [ParserMatch, he]) hc, ?_⟩
    intro c hc
    rcases List.mem_cons.mp hc with rfl | hc
    · exact utf8_nil
    · exact hu c hc

/-- A text that matches loosely; behind a SET it begins with a byte that is not in the set. -/
theorem text_exists_loosely {ts : List Token} (hs : SatisfiableLoosely ts) (hc : CompiledShape ts) (hn : NoPair ts)
    (hp : ∀ p, (Token.parser (.set p) ∈ ts ∨ Token.parser (.int p) ∈ ts) → 34 ∉ p.characterSet) (hl : ∀ l, Token.literal l ∈ ts → Utf8 l)
    (avoid : Option SetParser) (ha : ∀ p ∈ avoid, 34 ∉ p.characterSet ∧ Behind p ts) :
    ∃ x caps, Utf8 x ∧ LooseMatches ts x caps ∧ (∀ c ∈ caps, Utf8 c.2) ∧
      (ts ≠ [] → avoid = none ∨ (∀ l, ts.head? ≠ some (.literal l)) → x ≠ []) ∧ (avoid = none → ∀ l, ts.head? = some (.literal l) → l <+: x) ∧
      ∀ p ∈ avoid, ∀ c r, x = c :: r → c ∉ p.characterSet := by
  induction ts generalizing avoid with
  | nil => exact ⟨[], [], utf8_nil, .nil, by simp, by simp, by simp, by simp⟩
  | cons t ts ih =>
    have ht : HasValue t := hs.1 t (by simp)
    have hs' : SatisfiableLoosely ts := by
      cases ts with
      | nil => exact loosely_nil
      | cons u ts => exact (loosely_cons.mp hs).2.2
    have ih := ih hs' hc.tail hn.tail (fun p h => hp p (by rcases h with h | h <;> simp [h])) (fun l h => hl l (List.mem_cons_of_mem _ h))
    have hA : ∀ p ∈ avoid, Behind p (t :: ts) := fun p h => (ha p h).2
    have with' : ∀ {a : Parser} {v : Bytes} {caps : List (Parser × Bytes)}, Utf8 v → (∀ c ∈ caps, Utf8 c.2) → ∀ c ∈ (a, v) :: caps, Utf8 c.2 := by
      intro a v caps h1 h2 c hc
      rcases List.mem_cons.mp hc with rfl | hc
      · exact h1
      · exact h2 c hc
    have quote : Utf8 [34] := ascii_utf8 (by decide)
    cases t with
    | literal l =>
      have hne : l ≠ [] := by rintro rfl; exact hc.lits (by simp)
      have hul := hl l (by simp)
      have plain : (∀ p ∈ avoid, FollowsWhole (.parser (.set p)) (.literal l)) → ∃ x caps, Utf8 x ∧ LooseMatches (.literal l :: ts) x caps ∧
          (∀ c ∈ caps, Utf8 c.2) ∧ l <+: x ∧ ∀ p ∈ avoid, ∀ c r, x = c :: r → c ∉ p.characterSet := by
        intro hf
        obtain ⟨x, caps, h1, h2, hu, h3, -⟩ := ih none (by simp)
        refine ⟨l ++ x, caps, utf8_append hul h1, ?_, hu, List.prefix_append _ _, ?_⟩
        · cases ts with
          | nil =>
            obtain ⟨rfl, rfl⟩ := loose_nil_inv h2
            exact .last _ _ (by simp)
          | cons u ts =>
            exact .literal l l x _ caps (by simp) ⟨hul, List.prefix_refl _, List.prefix_append _ _, fun c' _ h _ => h.length_le⟩ (h3 (by simp) (.inl rfl)) h2
        · intro p hp' c r he
          cases l with
          | nil => exact absurd rfl hne
          | cons d l =>
            simp at he
            exact hf p hp' c (by simp [he.1])
      have ofPlain : (∀ p ∈ avoid, FollowsWhole (.parser (.set p)) (.literal l)) → ∃ x caps, Utf8 x ∧ LooseMatches (.literal l :: ts) x caps ∧
          (∀ c ∈ caps, Utf8 c.2) ∧ (Token.literal l :: ts ≠ [] → avoid = none ∨ (∀ l', (Token.literal l :: ts).head? ≠ some (.literal l')) → x ≠ []) ∧
          (avoid = none → ∀ l', (Token.literal l :: ts).head? = some (.literal l') → l' <+: x) ∧
          ∀ p ∈ avoid, ∀ c r, x = c :: r → c ∉ p.characterSet := by
        intro hf
        obtain ⟨x, caps, h1, h2, h3, h4, h5⟩ := plain hf
        refine ⟨x, caps, h1, h2, h3, fun _ _ e => ?_, fun _ l' e => ?_, h5⟩
        · rw [e] at h4; exact hne (List.prefix_nil.mp h4)
        · simp at e; subst e; exact h4
      cases avoid with
      | none => exact ofPlain (by simp)
      | some p =>
        by_cases hf : FollowsWhole (.parser (.set p)) (.literal l)
        · exact ofPlain (by simpa using hf)
        · rcases hA p rfl with h | ⟨-, hw⟩
          · exact absurd h hf
          · cases ts with
            | nil => exact ⟨[], [], utf8_nil, .last l [] (by simp), by simp, by simp, by simp, by simp⟩
            | cons u ts =>
              have hlit : ∀ l', u ≠ .literal l' := fun l' e => hn.next l' (by simp [e])
              obtain ⟨x, caps, h1, h2, hu, h3, -, h5⟩ := ih (some p) (by
                intro q hq
                simp at hq; subst hq
                exact ⟨(ha p rfl).1, .inl (hw u (by simp))⟩)
              have hx0 : x ≠ [] := h3 (by simp) (.inr fun l' e => by simp at e; exact hlit l' e)
              refine ⟨[] ++ x, caps, h1, .literal l [] x _ caps (by simp) ⟨utf8_nil, List.nil_prefix, List.nil_prefix, ?_⟩ hx0 h2, hu, ?_, by simp, h5⟩
              · intro c' _ g1 g2
                cases c' with
                | nil => simp
                | cons d c' =>
                  exfalso
                  obtain ⟨z, hz⟩ := g2
                  have := h5 p rfl d (c' ++ z) (by simpa using hz.symm)
                  apply hf
                  intro b hb
                  obtain ⟨z', hz'⟩ := g1
                  rw [← hz'] at hb
                  simp at hb
                  rw [← hb]; exact this
              · intro _ h
                rcases h with h | h
                · cases h
                · exact absurd rfl (h l)
    | parser a =>
      have viaSet : ∀ q : SetParser, (∃ v, ValueOf q v) → 34 ∉ q.characterSet → Behind q ts →
          (∀ p ∈ avoid, ∃ c v, ValueOf q (c :: v) ∧ c ∉ p.characterSet) →
          ∃ c v x caps, Utf8 (c :: v) ∧ Utf8 x ∧ LooseMatches ts x caps ∧ (∀ c ∈ caps, Utf8 c.2) ∧
            SetMatch q.characterSet q.minLength q.maxLength ((c :: v) ++ x) (c :: v) ∧ ∀ p ∈ avoid, c ∉ p.characterSet := by
        intro q h1 h3 h4 h5
        have hcc : ∃ c v, ValueOf q (c :: v) ∧ ∀ p ∈ avoid, c ∉ p.characterSet := by
          cases avoid with
          | none =>
            obtain ⟨v, hv⟩ := h1
            cases v with
            | nil => exact absurd rfl hv.nonempty
            | cons c v => exact ⟨c, v, hv, by simp⟩
          | some p =>
            obtain ⟨c, v, hc1, hc2⟩ := h5 p rfl
            exact ⟨c, v, hc1, by simpa using hc2⟩
        obtain ⟨c, v, hc1, hc2⟩ := hcc
        obtain ⟨x, caps, g1, g2, gu, -, -, g4⟩ := ih (some q) (by simpa using ⟨h3, h4⟩)
        exact ⟨c, v, x, caps, hc1.whole, g1, g2, gu, match_of_valueOf hc1 (fun d r e => g4 q rfl d r e), hc2⟩
      have finish : ∀ (c : UInt8) v x (p : SetParser), c ∉ p.characterSet → ∀ d r, (c :: v) ++ x = d :: r → d ∉ p.characterSet := by
        intro c v x p h d r e
        simp at e
        rw [← e.1]; exact h
      have hA' : ∀ p ∈ avoid, FollowsWhole (.parser (.set p)) (.parser a) := fun p hp' => by
        rcases hA p hp' with h | ⟨⟨l, h⟩, -⟩
        · exact h
        · cases h
      have hnext : ∀ u ts', ts = u :: ts' → FollowsWhole (.parser a) u ∨ ((∃ l, u = .literal l) ∧ ∀ w ∈ ts'.head?, FollowsWhole (.parser a) w) := by
        rintro u ts' rfl
        exact (loosely_cons.mp hs).2.1
      cases a with
      | set q =>
        have hb : Behind q ts := by
          cases ts with
          | nil => trivial
          | cons u ts => exact hnext u ts rfl
        obtain ⟨c, v, x, caps, g0, g1, g2, gu, g3, g4⟩ := viaSet q ht (hp q (by simp)) hb hA'
        exact ⟨_, _, utf8_append g0 g1, .parser (.set q) ts _ x caps g3 g2, with' g0 gu, by simp, by simp, fun p hp' => finish c v x p (g4 p hp')⟩
      | int q =>
        have hb : Behind q ts := by
          cases ts with
          | nil => trivial
          | cons u ts => exact hnext u ts rfl
        obtain ⟨c, v, x, caps, g0, g1, g2, gu, g3, g4⟩ := viaSet q ht (hp q (by simp)) hb hA'
        exact ⟨_, _, utf8_append g0 g1, .parser (.int q) ts _ x caps g3 g2, with' g0 gu, by simp, by simp, fun p hp' => finish c v x p (g4 p hp')⟩
      | greedy g =>
        cases hg : g.endString with
        | none =>
          have hh : ∀ u ∈ ts.head?, FollowsWhole (.parser (.greedy g)) u := by
            cases ts with
            | nil => simp
            | cons u ts =>
              rcases hnext u ts rfl with h | ⟨⟨l, rfl⟩, -⟩
              · simpa using h
              · have := (hc.greedy [] g (.literal l :: ts) rfl l).mpr ⟨ts, rfl⟩
                rw [hg] at this; cases this
          obtain ⟨caps, hm, hu⟩ := greedies_empty_loosely hs' hc.tail hh hg
          refine ⟨[34] ++ [], _, quote, .parser (.greedy g) ts [34] [] caps (by simp [ParserMatch, hg]) hm, with' quote hu, by simp, by simp, ?_⟩
          intro p hp' c r e
          simp at e
          rw [← e.1]; exact (ha p hp').1
        | some e =>
          obtain ⟨post, rfl⟩ := (hc.greedy [] g ts rfl e).mp hg
          obtain ⟨x, caps, g1, g2, gu, g3, gp, -⟩ := ih none (by simp)
          obtain ⟨y, hy⟩ := gp rfl e (by simp)
          have hy := hy.symm
          cases e with
          | nil => exact absurd (by simp) hc.lits
          | cons d e =>
            by_cases hd : d = 34
            · refine ⟨[] ++ x, _, g1, .parser (.greedy g) _ [] x caps ?_ g2, with' utf8_nil gu, by simp [hy], by simp, ?_⟩
              · simp only [ParserMatch, hg]
                exact ⟨⟨y, by simpa using hy⟩, by simp⟩
              · intro p hp' c r he
                simp [hy] at he
                rw [← he.1, hd]; exact (ha p hp').1
            · refine ⟨[34] ++ x, _, utf8_append quote g1, .parser (.greedy g) _ [34] x caps ?_ g2, with' quote gu, by simp, by simp, ?_⟩
              · simp only [ParserMatch, hg]
                refine ⟨⟨y, by simp [hy]⟩, ?_⟩
                intro v' r' he
                cases v' with
                | nil => simp at he; exact absurd he.1.symm hd
                | cons _ _ => simp
              · intro p hp' c r he
                simp at he
                rw [← he.1]; exact (ha p hp').1

/-- C111 for the suffix array, exactly: holding the pattern of a pattern string in any script it answers some text if and only if each token alone and each
pair of neighbouring tokens is possible, where a literal behind a SET or INT may be ignored. -/
theorem C111_suffix_any_script (sip : Bytes → UInt64) (s : Bytes) (hs : Utf8 s) (p : Pattern) (hc : compile s = .ok (.ok p.pattern)) :
    (∃ text r, Utf8 text ∧ (SuffixTable.build sip [p] >>= fun t => t.parse text) = .ok (some r)) ↔ SatisfiableLoosely p.pattern := by
  have hsh := compiledShape hs hc
  obtain ⟨h0, _, hn, _⟩ := C34_shape s hs _ hc
  have hu : Utf8Lits p := (compiled_utf8 hs hc).1
  constructor
  · rintro ⟨text, r, hx, hr⟩
    have h := C29_exactly sip p hu h0 text hx
    have hn' : ¬LooseTrouble p.pattern text := fun g => by have := h.1 g; rw [hr] at this; cases this
    obtain ⟨r', h1, -, h2⟩ := h.2 hn'
    rw [hr] at h1
    obtain ⟨caps, h3, -⟩ := h2 r (by simpa using h1.symm)
    exact loosely_of_match hsh hn h3 ((trouble_of_match h3).mp hn')
  · intro h
    obtain ⟨x, caps, h1, h2, hv, -, -, -⟩ := text_exists_loosely h hsh hn (compiled_noQuote hs hc) hu none (by simp)
    obtain ⟨r, h3, h4, -⟩ := (C29_exactly sip p hu h0 x h1).2 ((trouble_of_match h2).mpr hv)
    obtain ⟨res, rfl, -⟩ := h4 caps h2
    exact ⟨x, res, h1, h3⟩

/-! ### Cases -/

/-- The pattern of a pattern string (none if it does not compile). -/
def patternOf (s : Bytes) : Pattern :=
  Samples.pat 1 (match compile s with
    | .ok (.ok ts) => ts
    | _ => [])

/-- Sets and literals in Greek. -/
example : SatisfiableAny (patternOf b!"user %{SET(\"αβγ\"):x} ψ%{INT:n}").pattern :=
  ((C111_any_script Samples.sip b!"user %{SET(\"αβγ\"):x} ψ%{INT:n}" ⟨"user %{SET(\"αβγ\"):x} ψ%{INT:n}".toList, by decide +kernel⟩
    (patternOf b!"user %{SET(\"αβγ\"):x} ψ%{INT:n}") (by decide +kernel)).mp
    ⟨b!"user βα ψ7", { pattern := Samples.pat 1 [], values := [(b!"n", b!"7"), (b!"x", b!"βα")] }, ⟨"user βα ψ7".toList, by decide +kernel⟩, by decide +kernel⟩).1

/-- A pattern with a literal that begins with `é` is never the answer of a trie holding it: every text that reaches the literal makes it panic. -/
example (text : Bytes) (hx : Utf8 text) (r : MatchResult) :
    (SuffixTree.build Samples.sip [patternOf b!"%{INT:a}é"] >>= fun t => t.parse text) ≠ .ok (some r) := by
  intro h
  have := ((C111_any_script Samples.sip b!"%{INT:a}é" ⟨"%{INT:a}é".toList, by decide +kernel⟩ (patternOf b!"%{INT:a}é") (by decide +kernel)).mp ⟨text, r, hx, h⟩).2
    b!"é" (by decide +kernel)
  exact this ⟨195, [169], rfl, by decide⟩

/-- The suffix array answers it. -/
example : (SuffixTable.build Samples.sip [patternOf b!"%{INT:a}é"] >>= fun t => t.parse b!"12é") =
    .ok (some { pattern := Samples.pat 1 [], values := [(b!"a", b!"12")] }) := by decide +kernel

/-- `é` has two bytes: a SET of it that may take one byte only never takes anything, in both matchers. -/
example : ¬SatisfiableAny (patternOf b!"%{SET(\"é\",max_len=1):a}").pattern ∧ ¬SatisfiableLoosely (patternOf b!"%{SET(\"é\",max_len=1):a}").pattern := by
  have e : (patternOf b!"%{SET(\"é\",max_len=1):a}").pattern = [.parser (.set { name := some b!"a", characterSet := [169, 195], minLength := none, maxLength := some 1 })] := by
    decide +kernel
  have h : ¬HasValue (.parser (.set { name := some b!"a", characterSet := [169, 195], minLength := none, maxLength := some 1 })) := by
    rintro ⟨v, h⟩
    match v, h with
    | [], h => exact h.nonempty rfl
    | [b], h =>
      rcases utf8_first h.whole with g | ⟨b', tl, r, g, -, -, g4, -⟩
      · cases g
      · simp at g
        obtain ⟨g, rfl, -⟩ := g
        have hb := h.inSet b (by simp)
        rw [← g] at g4
        simp at hb
        rcases hb with rfl | rfl <;> revert g4 <;> decide
    | b :: c :: v, h =>
      have := h.atMost 1 rfl
      simp at this
  rw [e]
  exact ⟨fun g => h (g.1 _ (by simp)), fun g => h (g.1 _ (by simp))⟩

/-- A literal whose first character is in the set before it never matches in the trie; in the suffix array it is ignored. -/
example : ¬SatisfiableAny (patternOf b!"%{SET(\"ab\"):x}b").pattern ∧ SatisfiableLoosely (patternOf b!"%{SET(\"ab\"):x}b").pattern := by
  constructor
  · have e : (patternOf b!"%{SET(\"ab\"):x}b").pattern = [] ++ .parser (.set { name := some b!"x", characterSet := b!"ab", minLength := none, maxLength := none }) ::
        .literal b!"b" :: [] := by decide +kernel
    intro h
    exact h.2 _ _ _ _ e 98 (by simp) (by simp)
  · exact (C111_suffix_any_script Samples.sip b!"%{SET(\"ab\"):x}b" (ascii_utf8 (by decide)) (patternOf b!"%{SET(\"ab\"):x}b") (by decide +kernel)).mp
      ⟨b!"ab", { pattern := Samples.pat 1 [], values := [(b!"x", b!"ab")] }, ascii_utf8 (by decide), by decide +kernel⟩

end Verif
