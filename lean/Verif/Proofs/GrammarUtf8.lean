import Verif.Proofs.GrammarShow
import Verif.Proofs.Path
/-! The texts in a compiled pattern are UTF-8. -/
namespace Verif
open Spec

theorem written_utf8 : ∀ (k : Nat) {es : List Elem} {s : Bytes}, es.length ≤ k → Written es s → Utf8 s →
    (∀ l, Token.literal l ∈ tokens es → Utf8 l) ∧ ∀ a, Token.parser a ∈ tokens es → Utf8Parser a := by
  intro k
  induction k with
  | zero =>
    intro es s hk _ _
    have : es = [] := List.eq_nil_of_length_eq_zero (by omega)
    subst this
    simp [tokens]
  | succ k ih =>
    intro es s hk h hu
    cases h with
    | nil => simp [tokens]
    | cons e es' w s' hw hs' hc =>
      have hk' : es'.length ≤ k := by simpa using hk
      cases hw with
      | literal raw g1 g2 =>
        have hst : Stop s' := by simpa using written_stop (rest := []) hs' (hc rfl) (.inl rfl)
        have hur := utf8_left_stop hu hst
        obtain ⟨h1, h2⟩ := ih hk' hs' (utf8_cancel hur hu)
        rw [tokens]
        refine ⟨?_, ?_⟩
        · intro l hl
          rcases List.mem_cons.mp hl with hl | hl
          · simp at hl; subst hl; exact unescape_utf8 _ (Nat.le_refl _) hur
          · exact h1 l hl
        · intro a ha; exact h2 a (by simpa using ha)
      | int os n w x g1 g2 =>
        have hut : Utf8 s' := (utf8_split_ascii (c := 125) (a := b!"%{INT" ++ w ++ x) (by decide) (by simpa using hu)).2
        obtain ⟨h1, h2⟩ := ih hk' hs' hut
        rw [tokens]
        refine ⟨fun l hl => h1 l (by simpa using hl), ?_⟩
        intro a ha
        rcases List.mem_cons.mp ha with ha | ha
        · simp [intParser] at ha; subst ha; trivial
        · exact h2 a ha
      | set cs os n w x g1 g2 g3 g4 =>
        have hut : Utf8 s' := (utf8_split_ascii (c := 125) (a := b!"%{SET(\"" ++ cs ++ b!"\"" ++ w ++ b!")" ++ x) (by decide) (by simpa using hu)).2
        obtain ⟨h1, h2⟩ := ih hk' hs' hut
        rw [tokens]
        refine ⟨fun l hl => h1 l (by simpa using hl), ?_⟩
        intro a ha
        rcases List.mem_cons.mp ha with ha | ha
        · simp [setParser] at ha; subst ha; trivial
        · exact h2 a ha
      | greedy n x g1 =>
        have hut : Utf8 s' := (utf8_split_ascii (c := 125) (a := b!"%{GREEDY" ++ x) (by decide) (by simpa using hu)).2
        by_cases hl : startsLiteral es' = true
        · cases hs' with
          | nil => simp [startsLiteral] at hl
          | cons e2 es2 w2 s2 hw2 hs2 hc2 =>
            cases hw2 with
            | literal raw f1 f2 =>
              have hst : Stop s2 := by simpa using written_stop (rest := []) hs2 (hc2 rfl) (.inl rfl)
              have hur := utf8_left_stop hut hst
              obtain ⟨h1, h2⟩ := ih (by simp at hk'; omega) hs2 (utf8_cancel hur hut)
              rw [tokens]
              refine ⟨?_, ?_⟩
              · intro l hl
                simp at hl
                rcases hl with rfl | hl
                · exact hur
                · exact h1 l hl
              · intro a ha
                simp at ha
                rcases ha with rfl | ha
                · simpa [Utf8Parser] using hur
                · exact h2 a ha
            | _ => simp [startsLiteral, Elem.isLiteral] at hl
        · have hl' : startsLiteral es' = false := by simpa using hl
          have ht : tokens (.greedy n :: es') = .parser (.greedy { name := n, endString := none }) :: tokens es' := by
            have := tokens_append (es := [.greedy n]) (es' := es') (fun _ => hl')
            simpa [tokens] using this
          rw [ht]
          obtain ⟨h1, h2⟩ := ih hk' hs' hut
          refine ⟨fun l hl => h1 l (by simpa using hl), ?_⟩
          intro a ha
          rcases List.mem_cons.mp ha with ha | ha
          · simp at ha; subst ha; simp [Utf8Parser]
          · exact h2 a ha

theorem compiled_utf8 {s : Bytes} (hs : Utf8 s) {toks : List Token} (h : compile s = .ok (.ok toks)) :
    (∀ l, Token.literal l ∈ toks → Utf8 l) ∧ ∀ a, Token.parser a ∈ toks → Utf8Parser a := by
  obtain ⟨es, _, h2, rfl⟩ := (compile_ok_iff hs).mp h
  exact written_utf8 _ (Nat.le_refl _) h2 hs

end Verif
