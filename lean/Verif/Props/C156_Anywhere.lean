import Verif.Props.C155_AnyScript
/-! C156: a pattern that answers whenever it is loaded with two others is the answer of the whole trie, which does not panic. -/
namespace Verif
open Spec Fewer

namespace Anywhere
open SmallPanics AnyScript Three

/-- Rows of patterns with different literals. -/
theorem distinct_has (S : List Pattern) : (S.Pairwise fun a b => ∀ l ra rb, a.pattern = .literal l :: ra → b.pattern ≠ .literal l :: rb) →
    ∀ q ∈ S, ∀ l rest, q.pattern = .literal l :: rest → Has (Table.of S).rows l := by
  refine snoc_induction (P := fun S => (S.Pairwise fun a b => ∀ l ra rb, a.pattern = .literal l :: ra → b.pattern ≠ .literal l :: rb) →
    ∀ q ∈ S, ∀ l rest, q.pattern = .literal l :: rest → Has (Table.of S).rows l) ?_ ?_ S
  · simp
  · intro S s ih hd q hq l rest e
    obtain ⟨d1, _, d2⟩ := List.pairwise_append.mp hd
    rw [table_snoc]
    rcases List.mem_append.mp hq with hq | hq
    · have h := ih d1 q hq l rest e
      cases es : s.pattern with
      | nil => unfold Table.add; rw [es]; exact h
      | cons t rs =>
        cases t with
        | parser a => rw [add_par _ es]; exact h
        | literal k =>
          refine has_add es (more_none fun u hu ru eu => d2 u hu s (by simp) k ru rs eu es) ?_ h
          rintro rfl
          exact d2 q hq s (by simp) l rest rs e es
    · simp at hq
      subst hq
      exact has_of (rowAt_lead _ e)

/-- A small part of a list around a pattern. -/
theorem small {A B : List Pattern} {p q1 q2 : Pattern} (h1 : q1 ∈ A ++ p :: B) (h2 : q2 ∈ A ++ p :: B) :
    ∃ X Y : List Pattern, X.Sublist A ∧ Y.Sublist B ∧ X.length + Y.length ≤ 2 ∧ q1 ∈ X ++ p :: Y ∧ q2 ∈ X ++ p :: Y ∧ ∀ q ∈ X ++ p :: Y, q = q1 ∨ q = q2 ∨ q = p := by
  have one : ∀ q ∈ A ++ p :: B, ∃ X Y : List Pattern, X.Sublist A ∧ Y.Sublist B ∧ X.length + Y.length ≤ 1 ∧ q ∈ X ++ p :: Y ∧ ∀ s ∈ X ++ p :: Y, s = q ∨ s = p := by
    intro q hq
    rcases List.mem_append.mp hq with k | k
    · exact ⟨[q], [], List.singleton_sublist.mpr k, List.nil_sublist _, by simp, by simp, by simp⟩
    · rcases List.mem_cons.mp k with rfl | k
      · exact ⟨[], [], List.nil_sublist _, List.nil_sublist _, by simp, by simp, by simp⟩
      · exact ⟨[], [q], List.nil_sublist _, List.singleton_sublist.mpr k, by simp, by simp, by simp⟩
  by_cases he : q1 = q2
  · subst he
    obtain ⟨X, Y, k1, k2, k3, k4, k5⟩ := one q1 h1
    exact ⟨X, Y, k1, k2, by omega, k4, k4, fun q hq => (k5 q hq).imp id .inr⟩
  by_cases p1 : q1 = p
  · obtain ⟨X, Y, k1, k2, k3, k4, k5⟩ := one q2 h2
    exact ⟨X, Y, k1, k2, by omega, by simp [p1], k4, fun q hq => .inr (k5 q hq)⟩
  by_cases p2 : q2 = p
  · obtain ⟨X, Y, k1, k2, k3, k4, k5⟩ := one q1 h1
    exact ⟨X, Y, k1, k2, by omega, k4, by simp [p2], fun q hq => (k5 q hq).imp id .inr⟩
  have m : ∀ q, q ≠ p → q ∈ A ++ p :: B → q ∈ A ∨ q ∈ B := fun q hq h => (List.mem_append.mp h).imp id fun h => (List.mem_cons.mp h).resolve_left hq
  rcases m q1 p1 h1 with a1 | b1 <;> rcases m q2 p2 h2 with a2 | b2
  · rcases pair_sublist a1 a2 he with k | k
    · exact ⟨_, [], k, List.nil_sublist _, by simp, by simp, by simp, by simp⟩
    · exact ⟨_, [], k, List.nil_sublist _, by simp, by simp, by simp, by simp⟩
  · exact ⟨[q1], [q2], List.singleton_sublist.mpr a1, List.singleton_sublist.mpr b2, by simp, by simp, by simp, by simp⟩
  · exact ⟨[q2], [q1], List.singleton_sublist.mpr a2, List.singleton_sublist.mpr b1, by simp, by simp, by simp, by simp⟩
  · rcases pair_sublist b1 b2 he with k | k
    · exact ⟨[], _, List.nil_sublist _, k, by simp, by simp, by simp, by simp⟩
    · exact ⟨[], _, List.nil_sublist _, k, by simp, by simp, by simp, by simp⟩

/-- Two rows, in a small part around a pattern. -/
theorem pair_around {A B : List Pattern} {p : Pattern} {w1 w2 : Bytes} (hd : (A ++ p :: B).Pairwise fun p q => p.uuid ≠ q.uuid)
    (h1 : Has (Table.of (A ++ p :: B)).rows w1) (h2 : Has (Table.of (A ++ p :: B)).rows w2) :
    ∃ X Y : List Pattern, X.Sublist A ∧ Y.Sublist B ∧ X.length + Y.length ≤ 2 ∧ Has (Table.of (X ++ p :: Y)).rows w1 ∧ Has (Table.of (X ++ p :: Y)).rows w2 := by
  have src : ∀ w, Has (Table.of (A ++ p :: B)).rows w → ∃ q ∈ A ++ p :: B, (∃ rest, q.pattern = .literal w :: rest) ∧ ∀ rest, p.pattern = .literal w :: rest → q = p := by
    intro w h
    by_cases hp : ∃ rest, p.pattern = .literal w :: rest
    · exact ⟨p, by simp, hp, fun _ _ => rfl⟩
    · obtain ⟨q, hq, e⟩ := has_source h
      exact ⟨q, hq, e, fun rest k => absurd ⟨rest, k⟩ hp⟩
  obtain ⟨q1, m1, ⟨r1, e1⟩, o1⟩ := src w1 h1
  obtain ⟨q2, m2, ⟨r2, e2⟩, o2, hsame⟩ : ∃ q2 ∈ A ++ p :: B, (∃ rest, q2.pattern = .literal w2 :: rest) ∧ (∀ rest, p.pattern = .literal w2 :: rest → q2 = p) ∧ (w1 = w2 → q1 = q2) := by
    by_cases hw : w1 = w2
    · subst hw
      exact ⟨q1, m1, ⟨r1, e1⟩, o1, fun _ => rfl⟩
    · obtain ⟨q2, m2, k, o2⟩ := src w2 h2
      exact ⟨q2, m2, k, o2, fun k => absurd k hw⟩
  obtain ⟨X, Y, hX, hY, hn, g1, g2, g3⟩ := small m1 m2
  have hpw : (X ++ p :: Y).Pairwise fun a b => ∀ l ra rb, a.pattern = .literal l :: ra → b.pattern ≠ .literal l :: rb := by
    refine List.Pairwise.imp_of_mem ?_ (hd.sublist (hX.append (hY.cons_cons p)))
    intro a b ha hb hne l ra rb ea eb
    have hab : a = b := by
      rcases g3 a ha with rfl | rfl | rfl <;> rcases g3 b hb with rfl | rfl | rfl
      · rfl
      · rw [e1] at ea; rw [e2] at eb
        simp at ea eb
        exact hsame (ea.1.trans eb.1.symm)
      · rw [e1] at ea
        simp at ea
        exact o1 rb (by rw [ea.1]; exact eb)
      · rw [e2] at ea; rw [e1] at eb
        simp at ea eb
        exact (hsame (eb.1.trans ea.1.symm)).symm
      · rfl
      · rw [e2] at ea
        simp at ea
        exact o2 rb (by rw [ea.1]; exact eb)
      · rw [e1] at eb
        simp at eb
        exact (o1 ra (by rw [eb.1]; exact ea)).symm
      · rw [e2] at eb
        simp at eb
        exact (o2 ra (by rw [eb.1]; exact ea)).symm
      · rfl
    exact hne (by rw [hab])
  exact ⟨X, Y, hX, hY, hn, distinct_has _ hpw q1 g1 w1 r1 e1, distinct_has _ hpw q2 g2 w2 r2 e2⟩

/-- A pattern in front runs into trouble. -/
theorem first_panics {C D : List Pattern} {x : Bytes} (h : ∀ c ∈ C, ¬∃ caps, MatchesStrict c.pattern x caps) {c : Pattern} (hc : c ∈ C) (hr : RunsInto c.pattern x) :
    FirstPanics (C ++ D) x := by
  induction C with
  | nil => simp at hc
  | cons d C ih =>
    by_cases hd : RunsInto d.pattern x
    · exact ⟨[], d, C ++ D, rfl, by simp, hd⟩
    · rcases List.mem_cons.mp hc with rfl | hc
      · exact absurd hr hd
      · obtain ⟨U, q, V, e, k1, k2⟩ := ih (fun c hc => h c (by simp [hc])) hc
        refine ⟨d :: U, q, V, by simp [e], ?_, k2⟩
        intro a ha
        rcases List.mem_cons.mp ha with rfl | ha
        · exact ⟨hd, h a (by simp)⟩
        · exact k1 a ha

theorem no_panic {A B : List Pattern} {p : Pattern} {x : Bytes} (hd : (A ++ p :: B).Pairwise fun p q => p.uuid ≠ q.uuid) (hl : ∀ l, .literal l ∈ p.pattern → l ≠ [])
    (h : ∀ X Y : List Pattern, X.Sublist A → Y.Sublist B → X.length + Y.length ≤ 2 → ¬(Table.of (X ++ p :: Y)).Panics x ∧ Gives (X ++ p :: Y) p x) :
    ¬(Table.of (A ++ p :: B)).Panics x := by
  have hu := apart_of hd
  have hA : p ∉ A := fun k => (List.pairwise_append.mp hd).2.2 p k p (by simp) rfl
  have hB : p ∉ B := fun k => (List.pairwise_cons.mp (List.pairwise_append.mp hd).2.1).1 p k rfl
  have H : InThrees A B p x := fun X Y hX hY hn => (h X Y hX hY hn).2
  have h0 := h [] [] (List.nil_sublist _) (List.nil_sublist _) (by simp)
  rintro (hp | ⟨hno, b, hdb, htrouble⟩)
  · obtain ⟨w1, w2, k1, k2, k3⟩ := lookup_two hp
    obtain ⟨X, Y, g1, g2, g3, g4, g5⟩ := pair_around hd k1 k2
    exact (h X Y g1 g2 g3).1 (.inl (k3 _ g4 g5))
  · cases e : p.pattern with
    | nil =>
      obtain ⟨res, k1, -⟩ := h0.2
      have e0 : Table.of ([] ++ p :: []) = ⟨[], []⟩ := by
        simp [Table.of, Table.add, e]
      rw [e0] at k1
      rcases origin k1 with ⟨row, m, _⟩ | ⟨_, b, _, ⟨_, C, q, D, _, m, _⟩ | ⟨_, row, m, _⟩⟩
      · simp at m
      · simp at m
      · simp at m
    | cons t rest =>
      cases t with
      | literal l =>
        cases rest with
        | nil =>
          obtain ⟨row, k1, k2, _⟩ := whole_row hu hB e H
          exact hno row k1 k2
        | cons t rest =>
          have hg : GoesOn p l := ⟨t :: rest, by simp, e⟩
          have hl0 := hl l (by rw [e]; simp)
          obtain ⟨_, hdl, ⟨row, k1, k2, k3⟩, _⟩ := more_row hu hB hl0 hg H
          obtain rfl := deepest_unique hdb hdl
          rcases htrouble with ⟨hb, _⟩ | ⟨hb, row', k1', k2', c, k3', hc⟩
          · exact hl0 hb
          · have r1 := (rowAt_mem (table_rows _).1).mp k1
            have r2 := (rowAt_mem (table_rows _).1).mp k1'
            rw [k2] at r1
            rw [k2', r1] at r2
            simp only [Option.some.injEq] at r2
            subst r2
            rw [k3] at k3'
            simp only [Option.some.injEq] at k3'
            subst k3'
            exact h0.1 (panics_more (more_rows hg) hb (k2 ▸ hno row k1) hdb.2.1 hc)
      | parser a =>
        obtain ⟨_, hdl, hm⟩ := parser_rows hu e H
        obtain rfl := deepest_unique hdb hdl
        rcases htrouble with ⟨_, C1, c, D1, e1, f1, f2⟩ | ⟨hb, _⟩
        · obtain ⟨C, D, hL, hC⟩ := three_slots hA hB e (fun g => RunsInto g.pattern x ∨ ∃ caps, MatchesStrict g.pattern x caps) fun X Y hX hY hn => by
            obtain ⟨k1, k2, C, D, _, k3, k4, -⟩ := gives_parser (apart_part hu hX hY) (by simp) e (H X Y hX hY hn)
            refine ⟨C, D, k3, fun g hg hbad => ?_⟩
            rcases hbad with hbad | hbad
            · refine (h X Y hX hY hn).1 (.inr ⟨k1, [], k2, .inl ⟨rfl, ?_⟩⟩)
              rw [k3]
              exact first_panics k4 hg hbad
            · exact k4 g hg hbad
          have single : RunsInto p.pattern x → False := fun k => by
            refine h0.1 (panics_first (c := p) (D := []) ?_ k)
            have : Table.of ([] ++ p :: []) = (⟨[], []⟩ : Table).add p := rfl
            rw [this, add_par _ e]
            rfl
          rw [hL] at e1
          rcases List.append_eq_append_iff.mp e1 with ⟨W, w1, w2⟩ | ⟨W, w1, w2⟩
          · cases W with
            | nil =>
              simp at w2
              exact single (w2.1 ▸ f2)
            | cons w W =>
              simp at w2
              exact (f1 p (by rw [w1, w2.1]; simp)).2 hm
          · cases W with
            | nil =>
              simp at w2
              exact single (w2.1 ▸ f2)
            | cons w W =>
              simp at w2
              exact hC c (by rw [w1, w2.1]; simp) (.inl f2)
        · exact hb rfl

end Anywhere
open Anywhere

/-- C156: if a pattern is the answer for a text whenever it is loaded with at most two of the others, then the trie of all of them, if it can be made, does not
panic for this text and answers with this pattern. -/
theorem C156_answer (sip : Bytes → UInt64) (ps : List Pattern) (hps : Proper sip ps) (hd : ps.Pairwise fun p q => p.uuid ≠ q.uuid) (p : Pattern) (hp : p ∈ ps)
    (t : SuffixTree) (hb : SuffixTree.build sip ps = .ok t) (text : Bytes) (hx : Utf8 text)
    (h : ∀ qs : List Pattern, qs.Sublist ps → qs.length ≤ 3 → p ∈ qs →
      ∃ res, (SuffixTree.build sip qs >>= fun t => t.parse text) = .ok (some res) ∧ res.pattern.uuid = p.uuid) :
    ∃ res, t.parse text = .ok (some res) ∧ res.pattern.uuid = p.uuid := by
  obtain ⟨A, B, rfl⟩ := List.append_of_mem hp
  have hn : ¬(Table.of (A ++ p :: B)).Panics text := by
    refine no_panic hd (fun l hl => hps.nonempty p hp l hl) fun X Y hX hY hn => ?_
    have hs : (X ++ p :: Y).Sublist (A ++ p :: B) := hX.append (hY.cons_cons p)
    have hXY := proper_sub hps (qs := X ++ p :: Y) fun s g => hs.subset g
    obtain ⟨res, hr, hres⟩ := h (X ++ p :: Y) hs (by simp; omega) (by simp)
    refine ⟨fun k => ?_, res, proper_answer hXY hx hr, hres⟩
    cases hb1 : SuffixTree.build sip (X ++ p :: Y) with
    | error e => rw [hb1] at hr; simp [bind, Except.bind] at hr
    | ok t1 =>
      have := (C66_panics_iff sip (X ++ p :: Y) hXY.utf8 hXY.nonempty hXY.split hXY.hashes t1 hb1 text hx).1 k
      rw [hb1] at hr
      have hr' : t1.parse text = .ok (some res) := hr
      rw [this] at hr'
      simp at hr'
  obtain ⟨r, hr, _⟩ := (C66_panics_iff sip _ hps.utf8 hps.nonempty hps.split hps.hashes t hb text hx).2 hn
  have hrun : (SuffixTree.build sip (A ++ p :: B) >>= fun t => t.parse text) = .ok r := by rw [hb]; exact hr
  obtain ⟨res, rfl, hres⟩ := C149_three sip _ hps hd p hp text hx h r hrun
  exact ⟨res, hr, hres⟩

/-- C156: a test message of a pattern passes in the finished matcher if it passes in the matcher of every part with this pattern and at most two others. -/
theorem C156_message (sip : Bytes → UInt64) (ps : List Pattern) (hps : Proper sip ps) (hd : ps.Pairwise fun p q => p.uuid ≠ q.uuid) (p : Pattern) (hp : p ∈ ps)
    (m : SuffixTree) (hb : built (trieMatcher sip) ps = .ok m) (msg : TestMessage) (hx : Utf8 msg.message)
    (h : ∀ qs : List Pattern, qs.Sublist ps → qs.length ≤ 3 → p ∈ qs → ∃ m, built (trieMatcher sip) qs = .ok m ∧ PassesIn (trieMatcher sip) m p.uuid msg) :
    PassesIn (trieMatcher sip) m p.uuid msg := by
  have hpl := AnyScript.loaded_proper hps
  have hb' : SuffixTree.build sip (ps.map loaded) = .ok m := hb
  have run : ∀ qs : List Pattern, qs.Sublist ps → qs.length ≤ 3 → p ∈ qs → ∃ res, (SuffixTree.build sip (qs.map loaded) >>= fun t => t.parse msg.message) = .ok (some res) ∧
      res.pattern.uuid = p.uuid ∧ Passes p.uuid msg (some res) := by
    intro qs h1 h2 h3
    obtain ⟨m, k1, b, k2, k3⟩ := h qs h1 h2 h3
    obtain ⟨r, rfl, hr, _⟩ := id k3
    have k1' : SuffixTree.build sip (qs.map loaded) = .ok m := k1
    exact ⟨r, by rw [k1']; exact k2, hr, k3⟩
  obtain ⟨res, hrun, hres⟩ := C156_answer sip (ps.map loaded) hpl (loaded_apart hd) (loaded p) (List.mem_map.mpr ⟨p, hp, rfl⟩) m hb' msg.message hx (by
    intro qs h1 h2 h3
    obtain ⟨qs, k1, rfl⟩ := List.sublist_map_iff.mp h1
    obtain ⟨p', k2, k3⟩ := List.mem_map.mp h3
    have k4 : p' = p := Triples.apart_eq hd (k1.subset k2) hp (by simpa [loaded] using congrArg Pattern.uuid k3)
    subst k4
    obtain ⟨res, g1, g2, _⟩ := run qs k1 (by simpa using h2) k2
    exact ⟨res, g1, g2⟩)
  obtain ⟨res', g1, g2, g3⟩ := run [p] (List.singleton_sublist.mpr hp) (by simp) (by simp)
  have hrun' : (SuffixTree.build sip (ps.map loaded) >>= fun t => t.parse msg.message) = .ok (some res) := by rw [hb']; exact hrun
  have := Triples.same_answer hpl (loaded_apart hd) (qs := [p].map loaded) (by intro q hq; simp at hq; exact List.mem_map.mpr ⟨p, hp, hq.symm⟩) hx hrun' g1
    (by rw [g2]; exact hres)
  exact ⟨some res, hrun, this ▸ g3⟩

/-- C156: one other pattern at a time is not enough to exclude a panic. -/
theorem C156_pairs_do_not_count : ∃ (ps : List Pattern) (p : Pattern) (text : Bytes), Proper Samples.sip ps ∧ (ps.Pairwise fun p q => p.uuid ≠ q.uuid) ∧ p ∈ ps ∧
    Utf8 text ∧ (∃ t, SuffixTree.build Samples.sip ps = .ok t) ∧
    (∀ qs : List Pattern, qs.Sublist ps → qs.length ≤ 2 → p ∈ qs →
      ∃ res, (SuffixTree.build Samples.sip qs >>= fun t => t.parse text) = .ok (some res) ∧ res.pattern.uuid = p.uuid) ∧
    (SuffixTree.build Samples.sip ps >>= fun t => t.parse text) = .error .slice := by
  refine ⟨[Triples.ab, Triples.ac, Samples.pat 3 [.parser (Samples.greedy b!"x" none)]], Samples.pat 3 [.parser (Samples.greedy b!"x" none)], b!"aé",
    ⟨?_, ?_, ?_, ?_⟩, by decide +kernel, by decide +kernel, ⟨['a', 'é'], by decide +kernel⟩, SmallPanics.makes_iff.mp (by decide +kernel), ?_, by decide +kernel⟩
  · intro p hp l hl
    simp [Triples.ab, Triples.ac] at hp
    rcases hp with rfl | rfl | rfl <;> simp [Samples.pat] at hl <;> subst hl <;> exact ascii_utf8 (by decide)
  · intro p hp l hl
    simp [Triples.ab, Triples.ac] at hp
    rcases hp with rfl | rfl | rfl <;> simp [Samples.pat] at hl <;> subst hl <;> decide
  · intro p hp l rest' e l'
    simp [Triples.ab, Triples.ac] at hp
    rcases hp with rfl | rfl | rfl <;> simp [Samples.pat] at e <;> first | (rw [← e.2]; simp) | (rw [e.2]; simp)
  · have key : ∀ a, (∃ p ∈ [Triples.ab, Triples.ac, Samples.pat 3 [.parser (Samples.greedy b!"x" none)]], p.pattern.head? = some (.parser a)) →
        a = Samples.greedy b!"x" none := by
      rintro a ⟨p, hp, e⟩
      simp [Triples.ab, Triples.ac] at hp
      rcases hp with rfl | rfl | rfl <;> simp [Samples.pat] at e
      exact e.symm
    intro a b ha hb _
    rw [key a ha, key b hb]
  · have key : ∀ qs ∈ Three.subs [Triples.ab, Triples.ac, Samples.pat 3 [.parser (Samples.greedy b!"x" none)]], qs.length ≤ 2 →
        Samples.pat 3 [.parser (Samples.greedy b!"x" none)] ∈ qs →
        (SuffixTree.build Samples.sip qs >>= fun t => t.parse b!"aé") = .ok (some { pattern := Samples.pat 3 [], values := [(b!"x", b!"aé")] }) := by decide +kernel
    exact fun qs hs hl hp => ⟨_, key qs (Three.mem_subs hs) hl hp, rfl⟩

example (t : SuffixTree) (hb : SuffixTree.build Samples.sip SmallPanics.fine = .ok t) :
    ∃ res, t.parse b!"aé" = .ok (some res) ∧ res.pattern.uuid = SmallPanics.accent.uuid := by
  have key : ∀ qs ∈ Three.subs SmallPanics.fine, qs.length ≤ 3 → SmallPanics.accent ∈ qs →
      (SuffixTree.build Samples.sip qs >>= fun t => t.parse b!"aé") = .ok (some { pattern := Samples.pat 2 [], values := [] }) := by decide +kernel
  exact C156_answer Samples.sip SmallPanics.fine
    (proper_sub SmallPanics.all_proper (by intro s hs; simp [SmallPanics.fine] at hs ⊢; rcases hs with h | h | h <;> simp [h])) (by decide +kernel)
    SmallPanics.accent (by decide +kernel) t hb b!"aé" ⟨['a', 'é'], by decide +kernel⟩ fun qs hs hl hp => ⟨_, key qs (Three.mem_subs hs) hl hp, rfl⟩

/-- The matcher of this example can be made. -/
example : ∃ t, SuffixTree.build Samples.sip SmallPanics.fine = .ok t := SmallPanics.makes_iff.mp (by decide +kernel)

example (m : SuffixTree) (hb : built (trieMatcher Samples.sip) ([AnyScript.seven, AnyScript.nine] ++ [AnyScript.rest]) = .ok m) : ∀ msg ∈ testsOf AnyScript.rest,
    PassesIn (trieMatcher Samples.sip) m AnyScript.rest.uuid msg := by
  intro msg hm
  have key : ∀ X ∈ Three.subs [AnyScript.seven, AnyScript.nine], loads (fromSource (trieMatcher Samples.sip) ((X ++ [AnyScript.rest]).map .ok)) = true := by
    decide +kernel
  refine C156_message Samples.sip _ (proper_sub AnyScript.sources_proper (by intro s hs; simp [AnyScript.sources] at hs ⊢; rcases hs with h | h | h <;> simp [h]))
    (by decide +kernel) AnyScript.rest (by simp) m hb msg (AnyScript.sources_messages AnyScript.rest (by decide +kernel) msg hm) fun qs hs _ hp => ?_
  obtain ⟨X, hX, rfl⟩ := OneMore.parts_snoc (by decide +kernel) hs hp
  obtain ⟨m, g1, g2⟩ := OneMore.passes_of_loads (loads_iff.mp (key X (Three.mem_subs hX)))
  exact ⟨m, g1, g2 msg hm⟩

end Verif
