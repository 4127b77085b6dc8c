import Verif.Props.C32_C39_Grammar
import Verif.Props.C25_C31_SuffixArray
import Verif.Proofs.GrammarUtf8
/-! C52: compiling a pattern string, adding the pattern and parsing a text. -/
namespace Verif
open Spec

theorem mem_unescape {s : Bytes} {c : UInt8} (h : c ∈ unescape s) : c ∈ s := by
  induction s using unescape.induct with
  | case1 s ih =>
    rw [unescape] at h
    simp at h ⊢
    rcases h with rfl | rfl | h
    · simp
    · simp
    · simp [ih h]
  | case2 d s hn ih =>
    rw [unescape_step (by rintro t ⟨rfl, rfl⟩; exact hn t rfl rfl)] at h
    simp at h ⊢
    rcases h with rfl | h
    · simp
    · simp [ih h]
  | case3 => simp [unescape] at h

theorem written_lits : ∀ (k : Nat) {es : List Elem} {s : Bytes}, es.length ≤ k → Written es s → ∀ l, Token.literal l ∈ tokens es → ∀ c ∈ l, c ∈ s := by
  intro k
  induction k with
  | zero =>
    intro es s hk _ l hl
    have : es = [] := List.eq_nil_of_length_eq_zero (by omega)
    subst this
    simp [tokens] at hl
  | succ k ih =>
    intro es s hk h l hl c hc
    cases h with
    | nil => simp [tokens] at hl
    | cons e es' w s' hw hs' hcc =>
      have hk' : es'.length ≤ k := by simpa using hk
      have tl : Token.literal l ∈ tokens es' → c ∈ w ++ s' := fun h => List.mem_append_right _ (ih hk' hs' l h c hc)
      cases hw with
      | literal raw g1 g2 =>
        rw [tokens] at hl
        rcases List.mem_cons.mp hl with hl | hl
        · simp at hl; subst hl; exact List.mem_append_left _ (mem_unescape hc)
        · exact tl hl
      | int os n w x g1 g2 => rw [tokens] at hl; exact tl (by simpa using hl)
      | set cs os n w x g1 g2 g3 g4 => rw [tokens] at hl; exact tl (by simpa using hl)
      | greedy n x g1 =>
        by_cases hl' : startsLiteral es' = true
        · cases hs' with
          | nil => simp [startsLiteral] at hl'
          | cons e2 es2 w2 s2 hw2 hs2 hc2 =>
            cases hw2 with
            | literal raw f1 f2 =>
              rw [tokens] at hl
              simp at hl
              rcases hl with rfl | hl
              · simp [hc]
              · have := ih (by simp at hk'; omega) hs2 l hl c hc
                simp [this]
            | _ => simp [startsLiteral, Elem.isLiteral] at hl'
        · have hl'' : startsLiteral es' = false := by simpa using hl'
          have ht : tokens (.greedy n :: es') = .parser (.greedy { name := n, endString := none }) :: tokens es' := by
            have := tokens_append (es := [.greedy n]) (es' := es') (fun _ => hl'')
            simpa [tokens] using this
          rw [ht] at hl
          exact tl (by simpa using hl)

theorem compiled_ascii {s : Bytes} (hs : Ascii s) {toks : List Token} (h : compile s = .ok (.ok toks)) : ∀ l, Token.literal l ∈ toks → Ascii l := by
  obtain ⟨es, _, h2, rfl⟩ := (compile_ok_iff (ascii_utf8 hs)).mp h
  exact fun l hl c hc => hs c (written_lits _ (Nat.le_refl _) h2 l hl c hc)

/-- C52: for an ASCII pattern string that compiles, the trie with this single pattern answers exactly the (ASCII) texts that match its tokens,
with the captured values. -/
theorem C52_end_to_end (sip : Bytes → UInt64) (s : Bytes) (hs : Ascii s) (p : Pattern) (hc : compile s = .ok (.ok p.pattern)) (text : Bytes)
    (hx : Ascii text) :
    ∃ r, (SuffixTree.build sip [p] >>= fun t => t.parse text) = .ok r ∧
    (∀ caps, MatchesStrict p.pattern text caps → ∃ res, r = some res ∧ IsResult res p caps) ∧
    (∀ res, r = some res → ∃ caps, MatchesStrict p.pattern text caps ∧ IsResult res p caps) := by
  obtain ⟨h1, h2, _⟩ := C34_shape s (ascii_utf8 hs) _ hc
  exact C18_single_pattern_ascii sip p h1 (compiled_ascii hs hc) (by intro l hl e; subst e; exact h2 hl) text hx

/-- C52 for pattern strings and texts in any script, as long as no panic occurs (see C12 for when this can happen). -/
theorem C52_end_to_end_utf8 (sip : Bytes → UInt64) (s : Bytes) (hs : Utf8 s) (p : Pattern) (hc : compile s = .ok (.ok p.pattern))
    (text : Bytes) (hx : Utf8 text) (t : SuffixTree) (hb : SuffixTree.build sip [p] = .ok t) (r : Option MatchResult)
    (hr : t.parse text = .ok r) :
    (∀ caps, MatchesStrict p.pattern text caps → ∃ res, r = some res ∧ IsResult res p caps) ∧
    (∀ res, r = some res → ∃ caps, MatchesStrict p.pattern text caps ∧ IsResult res p caps) := by
  obtain ⟨h1, h2, _⟩ := C34_shape s hs _ hc
  have hu : Utf8Lits p := (compiled_utf8 hs hc).1
  exact C18_single_pattern sip p h1 hu (by intro l hl e; subst e; exact h2 hl) t hb text hx r hr

/-- C34: the literals and the end strings of a compiled pattern string are UTF-8. -/
theorem C34_utf8 (s : Bytes) (hu : Utf8 s) (ts : List Token) (h : compile s = .ok (.ok ts)) :
    (∀ l, Token.literal l ∈ ts → Utf8 l) ∧ ∀ g, Token.parser (.greedy g) ∈ ts → ∀ e, g.endString = some e → Utf8 e :=
  ⟨(compiled_utf8 hu h).1, fun g hg => (compiled_utf8 hu h).2 _ hg⟩

/-- C52 for the suffix-array matcher: every text that matches the compiled tokens is answered with the captured values (it answers other texts,
too, see C29). -/
theorem C52_suffix_array (sip : Bytes → UInt64) (s : Bytes) (hs : Ascii s) (p : Pattern) (hc : compile s = .ok (.ok p.pattern)) (text : Bytes)
    (hx : Ascii text) (caps) (hm : MatchesStrict p.pattern text caps) :
    ∃ res, (SuffixTable.build sip [p] >>= fun t => t.parse text) = .ok (some res) ∧ IsResult res p caps :=
  C29_single_complete_ascii sip p (compiled_ascii hs hc) (C34_shape s (ascii_utf8 hs) _ hc).1 text hx caps hm

/-- From the pattern string to the captured values. -/
example : (do let r ← compile b!"user %{GREEDY:name} has %{INT:n} files"
              match r with
              | .error _ => .ok none
              | .ok toks =>
                let t ← SuffixTree.build Samples.sip [Samples.pat 7 toks]
                t.parse b!"user joe has 12 files") =
    (.ok (some { pattern := Samples.pat 7 [], values := [(b!"n", b!"12"), (b!"name", b!"joe")] }) : M (Option MatchResult)) := by decide +kernel

end Verif
