import Verif.Spec.Extension
import Verif.Spec.Filled
import Verif.Props.C52_EndToEnd
import Verif.Props.C11_C14_TrieSound
/-! C113: what can be added to the end of a message. -/
namespace Verif
open Spec

/-- What a parser takes does not change when something is added behind text that it left. -/
theorem parserMatch_extend {a : Parser} {v x : Bytes} (h : ParserMatch a (v ++ x) v) (hx : x ≠ []) (y : Bytes) : ParserMatch a (v ++ (x ++ y)) v := by
  have viaSet : ∀ p : SetParser, SetMatch p.characterSet p.minLength p.maxLength (v ++ x) v →
      SetMatch p.characterSet p.minLength p.maxLength (v ++ (x ++ y)) v := by
    rintro p ⟨h1, h2, h3, h4, h5, h6⟩
    refine ⟨List.prefix_append _ _, h2, h3, ?_, h5, h6⟩
    intro b r e
    cases x with
    | nil => exact absurd rfl hx
    | cons c x =>
      have := List.append_cancel_left e
      simp at this
      exact this.1 ▸ h4 c x rfl
  cases a with
  | set p => exact viaSet p h
  | int p => exact viaSet p h
  | greedy g =>
    simp only [ParserMatch] at h ⊢
    cases hg : g.endString with
    | none =>
      simp only [hg] at h
      have := congrArg List.length h
      simp at this
      exact absurd this hx
    | some e =>
      simp only [hg] at h ⊢
      obtain ⟨⟨r, hr⟩, h2⟩ := h
      refine ⟨⟨r ++ y, by rw [← List.append_assoc, hr]; simp⟩, ?_⟩
      intro v' r' he
      false_or_by_contra
      rename_i hlt
      have hlen := congrArg List.length hr
      simp at hlen
      have hp : v' ++ e <+: v ++ x := by
        have h1 : v' ++ e <+: (v ++ x) ++ y := ⟨r', by rw [← he]; simp⟩
        refine List.prefix_of_prefix_length_le h1 (List.prefix_append _ _) ?_
        simp; omega
      obtain ⟨r'', hr''⟩ := hp
      have := h2 v' r'' hr''.symm
      omega

theorem getLast_parser_cons {c : Parser × Bytes} {caps : List (Parser × Bytes)} (h : caps ≠ []) : (c :: caps).getLast? = caps.getLast? := by
  cases caps with
  | nil => exact absurd rfl h
  | cons d caps => exact List.getLast?_cons_cons ..

theorem matches_caps_ne {ts : List Token} {x : Bytes} {caps : List (Parser × Bytes)} (h : Matches ts x caps) {a : Parser}
    (hl : ts.getLast? = some (.parser a)) : caps ≠ [] := by
  induction h with
  | nil => simp at hl
  | literal l toks x caps h ih =>
    cases toks with
    | nil => simp at hl
    | cons u ts => exact ih (by rwa [List.getLast?_cons_cons] at hl)
  | parser => simp

theorem lastPiece_cons {t u : Token} {ts : List Token} {x : Bytes} {caps : List (Parser × Bytes)} (h : Matches (u :: ts) x caps) (c : Parser × Bytes) :
    lastPiece (t :: u :: ts) caps = lastPiece (u :: ts) caps ∧ lastPiece (t :: u :: ts) (c :: caps) = lastPiece (u :: ts) caps := by
  simp only [lastPiece, List.getLast?_cons_cons, true_and]
  cases hl : (u :: ts).getLast? with
  | none => rfl
  | some w =>
    cases w with
    | literal l => rfl
    | parser a => simp only [getLast_parser_cons (matches_caps_ne h hl)]

/-- Where the last piece is not empty, there is text. -/
theorem text_ne_of_lastPiece {ts : List Token} {x : Bytes} {caps : List (Parser × Bytes)} (h : Matches ts x caps) (hp : lastPiece ts caps ≠ []) :
    x ≠ [] := by
  induction h with
  | nil => simp [lastPiece] at hp
  | literal l toks x caps h ih =>
    cases toks with
    | nil => simp [lastPiece] at hp; simp [hp]
    | cons u ts =>
      rw [(lastPiece_cons h (.set ⟨none, [], none, none⟩, [])).1] at hp
      simp [ih hp]
  | parser a toks v x caps hv h ih =>
    cases toks with
    | nil =>
      cases h
      simp [lastPiece] at hp; simp [hp]
    | cons u ts =>
      rw [(lastPiece_cons h _).2] at hp
      simp [ih hp]

theorem matches_strict {ts : List Token} {x : Bytes} {caps : List (Parser × Bytes)} (h : Matches ts x caps) (hp : lastPiece ts caps ≠ []) :
    MatchesStrict ts x caps := by
  induction h with
  | nil => exact .nil
  | literal l toks x caps h ih =>
    cases toks with
    | nil =>
      cases h
      exact .literal l [] [] [] (by simp) .nil
    | cons u ts =>
      rw [(lastPiece_cons h (.set ⟨none, [], none, none⟩, [])).1] at hp
      exact .literal l _ x caps (fun _ => text_ne_of_lastPiece h hp) (ih hp)
  | parser a toks v x caps hv h ih =>
    cases toks with
    | nil =>
      cases h
      exact .parser a [] v [] [] hv .nil
    | cons u ts =>
      rw [(lastPiece_cons h _).2] at hp
      exact .parser a _ v x caps hv (ih hp)

theorem matches_parser_inv {a : Parser} {ts : List Token} {x : Bytes} {caps : List (Parser × Bytes)} (h : Matches (.parser a :: ts) x caps) :
    ∃ v y caps', x = v ++ y ∧ caps = (a, v) :: caps' ∧ ParserMatch a (v ++ y) v ∧ Matches ts y caps' := by
  cases h with
  | parser _ _ v y caps' h1 h2 => exact ⟨v, y, caps', rfl, rfl, h1, h2⟩

theorem matches_literal_inv {l : Bytes} {ts : List Token} {x : Bytes} {caps : List (Parser × Bytes)} (h : Matches (.literal l :: ts) x caps) :
    ∃ y, x = l ++ y ∧ Matches ts y caps := by
  cases h with
  | literal _ _ y _ h => exact ⟨y, rfl, h⟩

theorem matches_nil_inv {x : Bytes} {caps : List (Parser × Bytes)} (h : Matches [] x caps) : x = [] ∧ caps = [] := by
  cases h; exact ⟨rfl, rfl⟩

/-- What can be added to the end of a text that matches. -/
theorem extend_iff {ts : List Token} {t : Token} {x : Bytes} {caps : List (Parser × Bytes)} (h : Matches ts x caps) (hl : ts.getLast? = some t)
    (hp : lastPiece ts caps ≠ []) (y : Bytes) : (∃ caps', Matches ts (x ++ y) caps') ↔ CanGrow t (lastPiece ts caps) y := by
  induction h with
  | nil => simp at hl
  | literal l toks x caps h ih =>
    cases toks with
    | nil =>
      cases h
      simp at hl; subst hl
      simp only [CanGrow]
      constructor
      · rintro ⟨caps', h'⟩
        obtain ⟨z, hz, h''⟩ := matches_literal_inv h'
        cases h''
        simpa using hz
      · rintro rfl
        exact ⟨[], by simpa using Matches.literal l [] [] [] .nil⟩
    | cons u ts =>
      rw [(lastPiece_cons h (.set ⟨none, [], none, none⟩, [])).1] at hp ⊢
      rw [← ih (by rwa [List.getLast?_cons_cons] at hl) hp]
      constructor
      · rintro ⟨caps', h'⟩
        obtain ⟨z, hz, h''⟩ := matches_literal_inv h'
        rw [List.append_assoc] at hz
        rw [List.append_cancel_left hz]
        exact ⟨caps', h''⟩
      · rintro ⟨caps', h'⟩
        rw [List.append_assoc]
        exact ⟨caps', .literal l _ _ _ h'⟩
  | parser a toks v x caps hv h ih =>
    cases toks with
    | nil =>
      cases h
      simp at hl; subst hl
      have hlp : lastPiece [Token.parser a] [(a, v)] = v := by simp [lastPiece]
      rw [hlp] at hp ⊢
      rw [List.append_nil] at hv ⊢
      have e : (∃ caps', Matches [Token.parser a] (v ++ y) caps') ↔ ParserMatch a (v ++ y) (v ++ y) := by
        constructor
        · rintro ⟨caps', h'⟩
          obtain ⟨w, z, caps'', h1, -, h2, h3⟩ := matches_parser_inv h'
          cases h3
          rw [List.append_nil] at h1 h2
          rw [h1]; exact h2
        · intro h'
          refine ⟨[(a, v ++ y)], ?_⟩
          have := Matches.parser a [] (v ++ y) [] [] (by rw [List.append_nil]; exact h') .nil
          rwa [List.append_nil] at this
      rw [e]
      have viaSet : ∀ p : SetParser, SetMatch p.characterSet p.minLength p.maxLength v v →
          (SetMatch p.characterSet p.minLength p.maxLength (v ++ y) (v ++ y) ↔
            (∀ b ∈ y, b ∈ p.characterSet) ∧ ∀ n, p.maxLength = some n → v.length + y.length ≤ n) := by
        rintro p ⟨h1, h2, h3, h4, h5, h6⟩
        constructor
        · rintro ⟨g1, g2, g3, g4, g5, g6⟩
          exact ⟨fun b hb => g3 b (List.mem_append_right _ hb), fun n hn => by simpa using g6 n hn⟩
        · rintro ⟨g1, g2⟩
          refine ⟨List.prefix_refl _, by simp [h2], ?_, ?_, ?_, ?_⟩
          · intro b hb
            rcases List.mem_append.mp hb with hb | hb
            · exact h3 b hb
            · exact g1 b hb
          · intro b r e
            have := congrArg List.length e
            simp at this
          · intro n hn
            have := h5 n hn
            simp; omega
          · intro n hn
            simpa using g2 n hn
      cases a with
      | set p => exact viaSet p hv
      | int p => exact viaSet p hv
      | greedy g =>
        refine iff_of_true ?_ trivial
        simp only [ParserMatch] at hv ⊢
        cases hg : g.endString with
        | none => simp only
        | some e =>
          simp only [hg] at hv
          obtain ⟨⟨r, hr⟩, h2⟩ := hv
          have he : e = [] := by simp at hr; exact hr.1
          subst he
          have := h2 [] v (by simp)
          exact absurd (List.eq_nil_of_length_eq_zero (by simpa using this)) hp
    | cons u ts =>
      rw [(lastPiece_cons h _).2] at hp ⊢
      have hx := text_ne_of_lastPiece h hp
      rw [← ih (by rwa [List.getLast?_cons_cons] at hl) hp, List.append_assoc]
      have hv' := parserMatch_extend hv hx y
      constructor
      · rintro ⟨caps', h'⟩
        obtain ⟨w, z, caps'', h1, -, h2, h3⟩ := matches_parser_inv h'
        rw [← h1] at h2
        have := parserMatch_unique hv' h2
        subst this
        rw [List.append_cancel_left h1]
        exact ⟨caps'', h3⟩
      · rintro ⟨caps', h'⟩
        exact ⟨_, .parser a _ v _ _ hv' h'⟩

/-- The addition belongs to the last piece. -/
theorem extend_last {ts : List Token} {x : Bytes} {caps caps' : List (Parser × Bytes)} (h : Matches ts x caps)
    (hp : lastPiece ts caps ≠ []) {y : Bytes} (h' : Matches ts (x ++ y) caps') : lastPiece ts caps' = lastPiece ts caps ++ y := by
  induction h generalizing caps' with
  | nil => simp [lastPiece] at hp
  | literal l toks x caps h ih =>
    obtain ⟨z, hz, h''⟩ := matches_literal_inv h'
    rw [List.append_assoc] at hz
    have hz := List.append_cancel_left hz
    subst hz
    cases toks with
    | nil =>
      cases h
      obtain ⟨e, rfl⟩ := matches_nil_inv h''
      have e : y = [] := by simpa using e
      simp [lastPiece, e]
    | cons u ts =>
      rw [(lastPiece_cons h (.set ⟨none, [], none, none⟩, [])).1] at hp ⊢
      rw [(lastPiece_cons h'' (.set ⟨none, [], none, none⟩, [])).1]
      exact ih hp h''
  | parser a toks v x caps hv h ih =>
    cases toks with
    | nil =>
      cases h
      obtain ⟨w, z, caps'', h1, rfl, h2, h3⟩ := matches_parser_inv h'
      cases h3
      simp [lastPiece] at h1 ⊢
      exact h1.symm
    | cons u ts =>
      rw [(lastPiece_cons h _).2] at hp ⊢
      have hx := text_ne_of_lastPiece h hp
      have hv' := parserMatch_extend hv hx y
      rw [List.append_assoc] at h'
      obtain ⟨w, z, caps'', h1, rfl, h2, h3⟩ := matches_parser_inv h'
      rw [← h1] at h2
      have := parserMatch_unique hv' h2
      subst this
      have h1 := List.append_cancel_left h1
      subst h1
      rw [(lastPiece_cons h3 _).2]
      exact ih hp h3

/-- C113: a trie holding the pattern of an ASCII pattern string answers `x` followed by `y`, where it answers `x`, if and only if `y` can be added to
what the last token has taken from `x`; the addition then goes to the last token. (The last token must have taken something.) -/
theorem C113_single (sip : Bytes → UInt64) (s : Bytes) (hs : Ascii s) (p : Pattern) (hc : compile s = .ok (.ok p.pattern)) (x y : Bytes)
    (hx : Ascii x) (hy : Ascii y) (caps : List (Parser × Bytes)) (hm : MatchesStrict p.pattern x caps) (hp : lastPiece p.pattern caps ≠ [])
    (t : Token) (ht : p.pattern.getLast? = some t) :
    ∃ r, (SuffixTree.build sip [p] >>= fun t => t.parse (x ++ y)) = .ok r ∧
      (r.isSome = true ↔ CanGrow t (lastPiece p.pattern caps) y) ∧
      ∀ res, r = some res → ∃ caps', IsResult res p caps' ∧ lastPiece p.pattern caps' = lastPiece p.pattern caps ++ y := by
  have hxy : Ascii (x ++ y) := fun b hb => by
    rcases List.mem_append.mp hb with h | h
    · exact hx b h
    · exact hy b h
  obtain ⟨r, h1, h2, h3⟩ := C52_end_to_end sip s hs p hc (x ++ y) hxy
  have hm := matchesStrict_matches hm
  refine ⟨r, h1, ?_, ?_⟩
  · rw [← extend_iff hm ht hp y]
    constructor
    · intro hr
      obtain ⟨res, rfl⟩ := Option.isSome_iff_exists.mp hr
      obtain ⟨caps', h4, -⟩ := h3 res rfl
      exact ⟨caps', matchesStrict_matches h4⟩
    · rintro ⟨caps', h4⟩
      have h5 := extend_last hm hp h4
      obtain ⟨res, rfl, -⟩ := h2 caps' (matches_strict h4 (by rw [h5]; simp [hp]))
      rfl
  · intro res hr
    obtain ⟨caps', h4, h5⟩ := h3 res hr
    exact ⟨caps', h5, extend_last hm hp (matchesStrict_matches h4)⟩

/-- C113, in any trie: a pattern that ends with a literal is the answer for at most one of a message and its proper extensions. -/
theorem C113_literal_end (sip : Bytes → UInt64) (ps : List Pattern) (hu : ∀ p ∈ ps, Utf8Lits p) (hcol : NoCollision sip ps) (huuid : UuidsTell ps)
    (t : SuffixTree) (hb : SuffixTree.build sip ps = .ok t) (p : Pattern) (hp : p ∈ ps) (l : Bytes) (hl : p.pattern.getLast? = some (.literal l))
    (hne : l ≠ []) (x y : Bytes) (hx : Utf8 x) (hxy : Utf8 (x ++ y)) (r r' : MatchResult) (hr : t.parse x = .ok (some r))
    (hr' : t.parse (x ++ y) = .ok (some r')) (h : r.pattern.uuid = p.uuid) (h' : r'.pattern.uuid = p.uuid) : y = [] := by
  obtain ⟨q, hq, caps, h1, h2, -⟩ := C11_trie_sound sip ps hu hcol t hb x hx r hr
  obtain ⟨q', hq', caps', h1', h2', -⟩ := C11_trie_sound sip ps hu hcol t hb (x ++ y) hxy r' hr'
  have e : q.pattern = p.pattern := huuid q hq p hp (by rw [h2] at h; exact h)
  have e' : q'.pattern = p.pattern := huuid q' hq' p hp (by rw [h2'] at h'; exact h')
  rw [e] at h1
  rw [e'] at h1'
  exact (extend_iff h1 hl (by simp [lastPiece, hl, hne]) y).mp ⟨caps', h1'⟩

/-- `uid %{INT:n}` and `uid 12`: digits can be added, a letter cannot. -/
example : ∃ caps, compile b!"uid %{INT:n}" = .ok (.ok [.literal b!"uid ", .parser (Samples.int b!"n")]) ∧
    MatchesStrict [.literal b!"uid ", .parser (Samples.int b!"n")] b!"uid 12" caps ∧
    lastPiece [.literal b!"uid ", .parser (Samples.int b!"n")] caps = b!"12" ∧
    CanGrow (.parser (Samples.int b!"n")) b!"12" b!"34" ∧ ¬ CanGrow (.parser (Samples.int b!"n")) b!"12" b!"x" := by
  refine ⟨[(Samples.int b!"n", b!"12")], by decide +kernel, ?_, rfl, ?_, ?_⟩
  · refine .literal b!"uid " _ b!"12" _ (by decide) (.parser _ [] b!"12" [] [] ?_ .nil)
    exact ⟨by decide, by decide, by decide, fun b r e => by simp at e, (by intro n h; cases h), by intro n h; cases h⟩
  · exact ⟨by decide, by intro n h; cases h⟩
  · rintro ⟨h, -⟩
    exact absurd (h 120 (by decide)) (by decide)

/-- `a%{INT:n}b` ends with a literal: `a1b` is answered, and `a1b1b`, too, but by another pattern. -/
example :
    let ps := [Samples.pat 1 [.literal b!"a", .parser (Samples.int b!"n"), .literal b!"b"], Samples.pat 2 [.literal b!"a1b1b"]]
    UuidsTell ps ∧ (ps.head?.bind fun p => p.pattern.getLast?) = some (.literal b!"b") ∧
    (SuffixTree.build Samples.sip ps >>= fun t => do
      let r ← t.parse b!"a1b"
      let r' ← t.parse b!"a1b1b"
      pure (r.map (·.pattern.uuid), r'.map (·.pattern.uuid))) = .ok (some 1, some 2) := by decide +kernel

end Verif
