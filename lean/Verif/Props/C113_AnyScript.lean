import Verif.Props.C111_AnyScript
import Verif.Props.C113_Extension
/-! C113 for pattern strings and messages in any script. -/
namespace Verif
open Spec

/-- The last token is a SET or INT, and the value it takes from its part `w` of the message and the addition `y` ends inside a character. -/
def Spec.CutsInside : Token → Bytes → Bytes → Prop
  | .parser (.set p), w, y | .parser (.int p), w, y => ∃ v, SetMatch p.characterSet p.minLength p.maxLength (w ++ y) v ∧ ¬Utf8 v
  | _, _, _ => False

theorem extend_trouble {ts : List Token} {t : Token} {x : Bytes} {caps : List (Parser × Bytes)} (h : Matches ts x caps) (hs : CompiledShape ts)
    (hl : ts.getLast? = some t) (hp : lastPiece ts caps ≠ []) (hv : ∀ c ∈ caps, Utf8 c.2) (ha : ∀ l, Token.literal l ∈ ts → Utf8 l ∧ ¬NonAsciiFirst l)
    {y : Bytes} (hy : Utf8 (x ++ y)) : RunsInto ts (x ++ y) ↔ CutsInside t (lastPiece ts caps) y := by
  induction h with
  | nil => simp at hl
  | literal l toks x caps h ih =>
    have h0 : l ≠ [] := by rintro rfl; exact hs.lits (by simp)
    have hal := ha l (by simp)
    rw [List.append_assoc] at hy ⊢
    have e : RunsInto (.literal l :: toks) (l ++ (x ++ y)) ↔ RunsInto toks (x ++ y) := ⟨runsInto_lit hal.2 h0, .literal l toks _⟩
    rw [e]
    cases toks with
    | nil =>
      simp at hl
      subst hl
      exact ⟨(fun h => by cases h), fun h => False.elim h⟩
    | cons u ts =>
      rw [(lastPiece_cons h (.set ⟨none, [], none, none⟩, [])).1] at hp ⊢
      exact ih hs.tail (by rwa [List.getLast?_cons_cons] at hl) hp hv (fun l' hl' => ha l' (List.mem_cons_of_mem _ hl')) (utf8_cancel hal.1 hy)
  | parser a toks v x caps hm h ih =>
    have huv : Utf8 v := hv (a, v) (by simp)
    cases toks with
    | nil =>
      cases h
      simp at hl
      subst hl
      simp only [List.append_nil] at hy ⊢
      have hlast : lastPiece [.parser a] [(a, v)] = v := rfl
      rw [hlast]
      have key : RunsInto [.parser a] (v ++ y) ↔ ∃ w, ParserMatch a (v ++ y) w ∧ ¬Utf8 w := by
        constructor
        · intro h
          generalize v ++ y = z at h
          cases h with
          | cut _ _ w _ h1 h2 => exact ⟨w, h1, h2⟩
          | parser _ _ w _ _ h => cases h
        · rintro ⟨w, h1, h2⟩
          exact .cut a [] w _ h1 h2
      rw [key]
      cases a with
      | set q => exact Iff.rfl
      | int q => exact Iff.rfl
      | greedy g =>
        refine ⟨?_, fun h => False.elim h⟩
        rintro ⟨w, h1, h2⟩
        cases hg : g.endString with
        | none =>
          simp only [ParserMatch, hg] at h1
          exact h2 (h1 ▸ hy)
        | some e =>
          obtain ⟨_, h⟩ := (hs.greedy [] g [] rfl e).mp hg
          cases h
    | cons u ts =>
      rw [(lastPiece_cons h _).2] at hp ⊢
      have hx := text_ne_of_lastPiece h hp
      have hv' := parserMatch_extend hm hx y
      rw [List.append_assoc] at hy ⊢
      have e : RunsInto (.parser a :: u :: ts) (v ++ (x ++ y)) ↔ RunsInto (u :: ts) (x ++ y) := ⟨runsInto_par huv hv', .parser a _ v _ hv'⟩
      rw [e]
      exact ih hs.tail (by rwa [List.getLast?_cons_cons] at hl) hp (fun c hc => hv c (List.mem_cons_of_mem _ hc))
        (fun l' hl' => ha l' (List.mem_cons_of_mem _ hl')) (utf8_cancel huv hy)

/-- C113 in any script: where a trie holding the pattern of a pattern string answers `x`, it panics on `x` followed by `y` if and only if the last token is
a SET or INT whose value then ends inside a character; otherwise it answers iff `y` can be added to what the last token has taken from `x`, and the
addition goes to the last token. -/
theorem C113_any_script (sip : Bytes → UInt64) (s : Bytes) (hs : Utf8 s) (p : Pattern) (hc : compile s = .ok (.ok p.pattern)) (x y : Bytes)
    (hx : Utf8 x) (hxy : Utf8 (x ++ y)) (res₀ : MatchResult) (ha : (SuffixTree.build sip [p] >>= fun t => t.parse x) = .ok (some res₀))
    (caps : List (Parser × Bytes)) (hm : MatchesStrict p.pattern x caps) (hp : lastPiece p.pattern caps ≠ [])
    (t : Token) (ht : p.pattern.getLast? = some t) :
    (CutsInside t (lastPiece p.pattern caps) y → (SuffixTree.build sip [p] >>= fun t => t.parse (x ++ y)) = .error .slice) ∧
    (¬CutsInside t (lastPiece p.pattern caps) y → ∃ r, (SuffixTree.build sip [p] >>= fun t => t.parse (x ++ y)) = .ok r ∧
      (r.isSome = true ↔ CanGrow t (lastPiece p.pattern caps) y) ∧
      ∀ res, r = some res → ∃ caps', IsResult res p caps' ∧ lastPiece p.pattern caps' = lastPiece p.pattern caps ++ y) := by
  have hsh := compiledShape hs hc
  have hne : ∀ l, Token.literal l ∈ p.pattern → l ≠ [] := by rintro l hl rfl; exact hsh.lits hl
  have hn : ¬RunsInto p.pattern x := fun g => by
    have := (C52_exactly sip s hs p hc x hx).1 g
    rw [ha] at this; cases this
  obtain ⟨g1, g2⟩ := (runsInto_of_match hne hm).mp hn
  have hm := matchesStrict_matches hm
  have e := extend_trouble hm hsh ht hp g1 (fun l hl => ⟨(compiled_utf8 hs hc).1 l hl, g2 l hl⟩) hxy
  have h := C52_exactly sip s hs p hc (x ++ y) hxy
  refine ⟨fun g => h.1 (e.mpr g), fun g => ?_⟩
  obtain ⟨r, h1, h2, h3⟩ := h.2 fun g' => g (e.mp g')
  refine ⟨r, h1, ?_, ?_⟩
  · rw [← extend_iff hm ht hp y]
    constructor
    · intro hr
      obtain ⟨res, rfl⟩ := Option.isSome_iff_exists.mp hr
      obtain ⟨caps', h4, -⟩ := h3 res rfl
      exact ⟨caps', matchesStrict_matches h4⟩
    · rintro ⟨caps', h4⟩
      have h5 := extend_last hm hp h4
      obtain ⟨res, rfl, -⟩ := h2 caps' (matches_strict h4 (by rw [h5]; simp [hp]))
      rfl
  · intro res hr
    obtain ⟨caps', h4, h5⟩ := h3 res hr
    exact ⟨caps', h5, extend_last hm hp (matchesStrict_matches h4)⟩

/-! `x%{SET("αβ"):a}` answers `xα`. It also answers `xαβ`; it does not answer `xα!` and `xαɱ`, because what follows does not begin with a byte of the set; and it
panics on `xαη`, because the first byte of `η` is in the set and the second one is not. -/

example : [b!"xα", b!"xαβ", b!"xα!", b!"xαɱ", b!"xαη"].map (fun x => (SuffixTree.build Samples.sip [patternOf b!"x%{SET(\"αβ\"):a}"] >>= fun t => t.parse x)) =
    [.ok (some { pattern := Samples.pat 1 [], values := [(b!"a", b!"α")] }), .ok (some { pattern := Samples.pat 1 [], values := [(b!"a", b!"αβ")] }),
     .ok none, .ok none, .error .slice] := by decide +kernel

example : CutsInside (.parser (.set { name := some b!"a", characterSet := [177, 178, 206], minLength := none, maxLength := none })) b!"α" b!"η" ∧
    (patternOf b!"x%{SET(\"αβ\"):a}").pattern = [.literal b!"x", .parser (.set { name := some b!"a", characterSet := [177, 178, 206], minLength := none, maxLength := none })] := by
  refine ⟨⟨[206, 177, 206], ⟨⟨[183], by decide⟩, by decide, by decide, ?_, (by intro n h; cases h), by intro n h; cases h⟩, ?_⟩, by decide +kernel⟩
  · intro b r e
    simp at e
    rw [← e.1]; decide
  · intro h
    have h : Utf8 ([206, 177] ++ [206]) := h
    have := utf8_cancel ⟨"α".toList, by decide +kernel⟩ h
    rcases utf8_first this with g | ⟨b, tl, r, g, -, -, g4, -⟩
    · cases g
    · simp at g
      obtain ⟨g, rfl, -⟩ := g
      subst g
      revert g4; decide

end Verif
