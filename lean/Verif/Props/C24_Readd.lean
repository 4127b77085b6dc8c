import Verif.Props.C96_AddPanics
/-! C24 for literals in any script. -/
namespace Verif
open Spec

theorem sorted_place {A B A' B' : List LiteralNode} {n n' : LiteralNode} (hs : (A ++ n :: B).Pairwise fun m k => rk m.literal < rk k.literal)
    (h : A ++ n :: B = A' ++ n' :: B') (hr : rk n.literal = rk n'.literal) : A = A' ∧ n = n' ∧ B = B' := by
  induction A generalizing A' with
  | nil =>
    cases A' with
    | nil => simp only [List.nil_append, List.cons.injEq] at h; exact ⟨rfl, h.1, h.2⟩
    | cons a A' =>
      simp only [List.nil_append, List.cons_append, List.cons.injEq] at h
      have := (List.pairwise_cons.mp hs).1 n' (by rw [h.2]; simp)
      omega
  | cons a A ih =>
    cases A' with
    | nil =>
      simp only [List.nil_append, List.cons_append, List.cons.injEq] at h
      have := (List.pairwise_cons.mp hs).1 n (by simp)
      rw [h.1] at this
      omega
    | cons a' A' =>
      simp only [List.cons_append, List.cons.injEq] at h
      obtain ⟨h1, h2, h3⟩ := ih (List.pairwise_cons.mp hs).2 h.2
      exact ⟨by rw [h.1, h1], h2, h3⟩

theorem sorted_gap {A B A' B' : List LiteralNode} {k : Nat} (h : A ++ B = A' ++ B') (hA : ∀ m ∈ A, rk m.literal < k) (hB : ∀ m ∈ B, k < rk m.literal)
    (hA' : ∀ m ∈ A', rk m.literal < k) (hB' : ∀ m ∈ B', k < rk m.literal) : A = A' ∧ B = B' := by
  induction A generalizing A' with
  | nil =>
    cases A' with
    | nil => exact ⟨rfl, h⟩
    | cons a A' =>
      have h1 := hA' a (by simp)
      have h2 := hB a (by simp only [List.nil_append] at h; rw [h]; simp)
      omega
  | cons a A ih =>
    cases A' with
    | nil =>
      have h1 := hA a (by simp)
      have h2 := hB' a (by simp only [List.nil_append] at h; rw [← h]; simp)
      omega
    | cons a' A' =>
      simp only [List.cons_append, List.cons.injEq] at h
      obtain ⟨h1, h2⟩ := ih h.2 (fun m hm => hA m (by simp [hm])) (fun m hm => hA' m (by simp [hm]))
      exact ⟨by rw [h.1, h1], h2⟩

theorem ins_unique {g : LiteralNode → LiteralNode} {t t1 : SuffixTree} {l : Bytes} (h : Ins g t l t1) :
    ∀ {t2 : SuffixTree}, Inv P t → Ins g t l t2 → t1 = t2 := by
  induction h with
  | miss t l A B ht hA hB =>
    intro t2 hi h2
    cases h2 with
    | miss _ _ A' B' ht' hA' hB' =>
      obtain ⟨rfl, rfl⟩ := sorted_gap (ht.symm.trans ht') hA hB hA' hB'
      rfl
    | exact _ _ A' B' n ht' hl hv =>
      have hm : n ∈ A ++ B := by rw [← ht, ht']; simp
      rcases List.mem_append.mp hm with hm | hm
      · have := hA n hm; rw [hl] at this; omega
      · have := hB n hm; rw [hl] at this; omega
    | split _ _ A' B' n ht' hr =>
      have hm : n ∈ A ++ B := by rw [← ht, ht']; simp
      rcases List.mem_append.mp hm with hm | hm
      · have := hA n hm; omega
      · have := hB n hm; omega
    | down _ _ A' B' n c c' ht' hr =>
      have hm : n ∈ A ++ B := by rw [← ht, ht']; simp
      rcases List.mem_append.mp hm with hm | hm
      · have := hA n hm; omega
      · have := hB n hm; omega
  | exact t l A B n ht hl hv =>
    intro t2 hi h2
    have hs := hi.lits.sorted
    rw [ht] at hs
    cases h2 with
    | miss _ _ A' B' ht' hA' hB' =>
      have hm : n ∈ A' ++ B' := by rw [← ht', ht]; simp
      rcases List.mem_append.mp hm with hm | hm
      · have := hA' n hm; rw [hl] at this; omega
      · have := hB' n hm; rw [hl] at this; omega
    | exact _ _ A' B' n' ht' hl' hv' =>
      obtain ⟨rfl, rfl, rfl⟩ := sorted_place hs (ht.symm.trans ht') (by rw [hl, hl'])
      rfl
    | split _ _ A' B' n' ht' hr' hs' =>
      obtain ⟨rfl, rfl, rfl⟩ := sorted_place hs (ht.symm.trans ht') (by rw [hl, hr'])
      rcases hs' with hs' | ⟨_, hs'⟩
      · exact absurd (by rw [hl]; exact List.prefix_refl _) hs'
      · exact absurd hl hs'
    | down _ _ A' B' n' c c' ht' hr' hp' hc' hne' _ =>
      obtain ⟨rfl, rfl, rfl⟩ := sorted_place hs (ht.symm.trans ht') (by rw [hl, hr'])
      exact absurd ⟨hv, hl⟩ hne'
  | split t l A B n ht hr hsp hpos hrk =>
    intro t2 hi h2
    have hs := hi.lits.sorted
    rw [ht] at hs
    cases h2 with
    | miss _ _ A' B' ht' hA' hB' =>
      have hm : n ∈ A' ++ B' := by rw [← ht', ht]; simp
      rcases List.mem_append.mp hm with hm | hm
      · have := hA' n hm; omega
      · have := hB' n hm; omega
    | exact _ _ A' B' n' ht' hl' hv' =>
      obtain ⟨rfl, rfl, rfl⟩ := sorted_place hs (ht.symm.trans ht') (by rw [hr, hl'])
      rcases hsp with hs' | ⟨_, hs'⟩
      · exact absurd (by rw [hl']; exact List.prefix_refl _) hs'
      · exact absurd hl' hs'
    | split _ _ A' B' n' ht' hr' hs' =>
      obtain ⟨rfl, rfl, rfl⟩ := sorted_place hs (ht.symm.trans ht') (by rw [hr, hr'])
      rfl
    | down _ _ A' B' n' c c' ht' hr' hp' hc' hne' _ =>
      obtain ⟨rfl, rfl, rfl⟩ := sorted_place hs (ht.symm.trans ht') (by rw [hr, hr'])
      rcases hsp with hs' | ⟨hs', _⟩
      · exact absurd hp' hs'
      · rw [hc'] at hs'; cases hs'
  | down t l A B n c c' ht hr hp hc hne _ ih =>
    intro t2 hi h2
    have hs := hi.lits.sorted
    rw [ht] at hs
    cases h2 with
    | miss _ _ A' B' ht' hA' hB' =>
      have hm : n ∈ A' ++ B' := by rw [← ht', ht]; simp
      rcases List.mem_append.mp hm with hm | hm
      · have := hA' n hm; omega
      · have := hB' n hm; omega
    | exact _ _ A' B' n' ht' hl' hv' =>
      obtain ⟨rfl, rfl, rfl⟩ := sorted_place hs (ht.symm.trans ht') (by rw [hr, hl'])
      exact absurd ⟨hv', hl'⟩ hne
    | split _ _ A' B' n' ht' hr' hs' =>
      obtain ⟨rfl, rfl, rfl⟩ := sorted_place hs (ht.symm.trans ht') (by rw [hr, hr'])
      rcases hs' with hs' | ⟨hs', _⟩
      · exact absurd hp hs'
      · rw [hc] at hs'; cases hs'
    | down _ _ A' B' n' c1 c1' ht' hr' hp' hc' hne' h' =>
      obtain ⟨rfl, rfl, rfl⟩ := sorted_place hs (ht.symm.trans ht') (by rw [hr, hr'])
      rw [hc] at hc'
      injection hc' with hc'
      subst hc'
      rw [ih (hi.child n (by rw [ht]; simp) _ hc) h']

/-- Adding a pattern with the same tokens again, if no addition panics. -/
theorem step_twice {sip : Bytes → UInt64} {t t1 t2 t3 : SuffixTree} {p q : Pattern} (hpq : p.pattern = q.pattern) (hi : Inv Utf8 t)
    (ha : LitsP Utf8 p.pattern) (h1 : Step sip t p t1) (h2 : Step sip t1 q t2) (h3 : Step sip t q t3) : t2 = t3 := by
  have hi1 := step_inv labelPred_utf8 h1 hi ha
  cases h1 with
  | empty hp =>
    cases h2 with
    | empty hq => cases h3 with
      | empty _ => rfl
      | lit l rest hq' => rw [hq] at hq'; cases hq'
      | par a rest hq' => rw [hq] at hq'; cases hq'
    | lit l rest hq => rw [← hpq, hp] at hq; cases hq
    | par a rest hq => rw [← hpq, hp] at hq; cases hq
  | lit l rest hp _ g1 =>
    cases h2 with
    | empty hq => rw [← hpq, hp] at hq; cases hq
    | par a rest hq => rw [← hpq, hp] at hq; cases hq
    | lit l2 rest2 hq2 _ g2 =>
      rw [← hpq, hp] at hq2
      injection hq2 with e1 e2
      injection e1 with e1
      subst e1 e2
      cases h3 with
      | empty hq => rw [← hpq, hp] at hq; cases hq
      | par a rest hq => rw [← hpq, hp] at hq; cases hq
      | lit l3 rest3 hq3 _ g3 =>
        rw [← hpq, hp] at hq3
        injection hq3 with e1 e2
        injection e1 with e1
        subst e1 e2
        obtain ⟨u, k1, k2⟩ := ins_twice (g2 := updLit rest q.strip) (goodUpd_updLit rest p.strip) (updLit_twice rest p.strip q.strip) g1
        rw [ins_unique g2 hi1 k2, ins_unique g3 hi k1]
  | par a rest hp =>
    cases h2 with
    | empty hq => rw [← hpq, hp] at hq; cases hq
    | lit l rest hq => rw [← hpq, hp] at hq; cases hq
    | par a2 rest2 hq2 =>
      rw [← hpq, hp] at hq2
      injection hq2 with e1 e2
      injection e1 with e1
      subst e1 e2
      cases h3 with
      | empty hq => rw [← hpq, hp] at hq; cases hq
      | lit l rest hq => rw [← hpq, hp] at hq; cases hq
      | par a3 rest3 hq3 =>
        rw [← hpq, hp] at hq3
        injection hq3 with e1 e2
        injection e1 with e1
        subst e1 e2
        simp only [insPar_twice]

/-- C24 for literals in any script: if adding `p` and then `q` with the same tokens does not panic, adding `q` alone does not panic either and gives the same
trie. -/
theorem C24_readd_replaces_utf8 (sip : Bytes → UInt64) (ps : List Pattern) (p q : Pattern) (hu : ∀ x ∈ ps ++ [p], Utf8Lits x)
    (hne : ∀ x ∈ ps ++ [p], NonemptyLits x) (hsl : ∀ x ∈ ps ++ [p], SplitLiterals x) (hpq : p.pattern = q.pattern) (t : SuffixTree)
    (hb : SuffixTree.build sip (ps ++ [p, q]) = .ok t) : SuffixTree.build sip (ps ++ [q]) = .ok t := by
  have hb0 := hb
  rw [build_append] at hb
  cases h0 : SuffixTree.build sip ps with
  | error e => rw [h0] at hb; cases hb
  | ok t0 =>
    rw [h0] at hb
    simp only [bind, Except.bind, List.foldlM_cons, List.foldlM_nil] at hb
    cases h1 : t0.addPattern sip p with
    | error e => rw [h1] at hb; cases hb
    | ok t1 =>
      rw [h1] at hb
      simp only at hb
      cases h2 : t1.addPattern sip q with
      | error e => rw [h2] at hb; cases hb
      | ok t2 =>
        rw [h2] at hb
        injection hb with hb
        subst hb
        have hi : Inv Utf8 t0 := (build_inv (fun x hx => hu x (by simp [hx])) h0)
        have hq : ∀ x ∈ ps ++ [q], Utf8Lits x ∧ NonemptyLits x ∧ SplitLiterals x := by
          intro x hx
          rcases List.mem_append.mp hx with hx | hx
          · have : x ∈ ps ++ [p] := by simp [hx]
            exact ⟨hu x this, hne x this, hsl x this⟩
          · rw [List.mem_singleton.mp hx]
            have : p ∈ ps ++ [p] := by simp
            have a := hu p this
            have b := hne p this
            have c := hsl p this
            unfold Utf8Lits at a ⊢
            unfold NonemptyLits at b ⊢
            unfold SplitLiterals at c ⊢
            rw [hpq] at a b c
            exact ⟨a, b, c⟩
        have hnp : ¬ (Table.of ps).AddPanics p := by
          intro h
          rw [(C96_add_panics_iff sip ps p hu hne hsl t0 h0).1 h] at h1
          cases h1
        have hnq : ¬ (Table.of ps).AddPanics q := by
          rintro ⟨l, rest, h, h'⟩
          exact hnp ⟨l, rest, by rw [hpq]; exact h, h'⟩
        obtain ⟨t3, h3⟩ := (C96_add_panics_iff sip ps q (fun x hx => (hq x hx).1) (fun x hx => (hq x hx).2.1) (fun x hx => (hq x hx).2.2) t0 h0).2 hnq
        have ha : LitsP Utf8 p.pattern := hu p (by simp)
        obtain ⟨s1, hi1⟩ := step_of_insert hi ha h1
        obtain ⟨s2, _⟩ := step_of_insert hi1 (by rw [← hpq]; exact ha) h2
        obtain ⟨s3, _⟩ := step_of_insert hi (by rw [← hpq]; exact ha) h3
        rw [build_append, h0]
        simp only [bind, Except.bind, List.foldlM_cons, List.foldlM_nil, h3]
        rw [step_twice hpq hi ha s1 s2 s3]
        rfl

/-- C24: the condition is needed: after a pattern that begins with a character outside ASCII, adding one with the same tokens panics. -/
theorem C24_nonascii_panics (sip : Bytes → UInt64) (ps : List Pattern) (p q : Pattern) (hu : ∀ x ∈ ps ++ [p], Utf8Lits x)
    (hne : ∀ x ∈ ps ++ [p], NonemptyLits x) (hsl : ∀ x ∈ ps ++ [p], SplitLiterals x) (hpq : p.pattern = q.pattern) (hl : LiteralLed p)
    (hf : NonAsciiLed p) : SuffixTree.build sip (ps ++ [p, q]) = .error .slice := by
  have hq : ∀ x ∈ ps ++ p :: [] ++ q :: [], Utf8Lits x ∧ NonemptyLits x ∧ SplitLiterals x := by
    intro x hx
    rcases List.mem_append.mp hx with hx | hx
    · exact ⟨hu x hx, hne x hx, hsl x hx⟩
    · rw [List.mem_singleton.mp hx]
      have : p ∈ ps ++ [p] := by simp
      have a := hu p this
      have b := hne p this
      have c := hsl p this
      unfold Utf8Lits at a ⊢
      unfold NonemptyLits at b ⊢
      unfold SplitLiterals at c ⊢
      rw [hpq] at a b c
      exact ⟨a, b, c⟩
  have := C96_nonascii_literal_excludes_others sip ps [] [] p q (fun x hx => (hq x hx).1) (fun x hx => (hq x hx).2.1) (fun x hx => (hq x hx).2.2) hl
    (by obtain ⟨l, h⟩ := hl; exact ⟨l, by rw [← hpq]; exact h⟩) (.inl hf)
  simpa using this

/-- A literal in Greek after an ASCII letter can be added twice. -/
example : (match SuffixTree.build Samples.sip [Samples.pat 1 [.literal "xα".toUTF8.data.toList, .parser (Samples.int b!"i")],
      Samples.pat 2 [.literal "xα".toUTF8.data.toList, .parser (Samples.int b!"i")]] with
    | .ok t => decide (t.parse ("xα".toUTF8.data.toList ++ b!"7") = .ok (some { pattern := Samples.pat 2 [], values := [(b!"i", b!"7")] }))
    | .error _ => false) = true := by decide +kernel

end Verif
