import Verif.Spec.Found
import Verif.Props.C147_Compact
/-! C148: literals after which no pattern can ever go on. -/
namespace Verif
open Spec

namespace Blocked

/-- No additions can make a pattern go on after `l`. -/
def Shut (rows : List Row) (l : Bytes) : Prop := Extended rows l ∧ ∀ l', l' <+: l → (rowOf rows l').more = none

theorem shut_add {rows : List Row} {l : Bytes} (h : Shut rows l) (k : Bytes) (alone : Bool) (p : Pattern) : Shut (addLiteralLed rows k alone p) l := by
  obtain ⟨h1, h2⟩ := h
  have lost : k <+: l → (rowOf rows k).more = none ∧ Extended rows k := by
    intro g
    refine ⟨h2 k g, ?_⟩
    obtain ⟨r, g1, g2, g3⟩ := h1
    refine ⟨r, g1, g.trans g2, fun e => g3 ?_⟩
    rw [e] at g2 ⊢
    exact prefix_eq g g2.length_le
  constructor
  · rw [extended_rowAt] at h1 ⊢
    obtain ⟨y, g1, g2, g3⟩ := h1
    by_cases c : y = k
    · exact ⟨y, g1, g2, by rw [rowAt_add, if_pos c]; simp⟩
    · by_cases c2 : alone = false ∧ ¬((rowOf rows k).more = none ∧ Extended rows k) ∧ k <+: y
      · have hk : ¬ k <+: l := fun g => c2.2.1 (lost g)
        refine ⟨k, ?_, fun e => hk (e ▸ List.prefix_refl _), by rw [rowAt_add, if_pos rfl]; simp⟩
        rcases Nat.le_total l.length k.length with q | q
        · exact prefix_total g1 c2.2.2 q
        · exact absurd (prefix_total c2.2.2 g1 q) hk
      · exact ⟨y, g1, g2, by rw [rowAt_add, if_neg c, if_neg c2]; exact g3⟩
  · intro l' hl
    have ho := h2 l' hl
    rw [rowOf_rowAt, rowAt_add]
    by_cases c : l' = k
    · subst c
      rw [if_pos rfl]
      cases alone with
      | true => simpa using ho
      | false =>
        simp only [Option.getD_some]
        rw [if_neg (by simp), if_pos (lost hl)]
        exact ho
    · rw [if_neg c]
      split
      · rfl
      · rw [← rowOf_rowAt]
        exact ho

theorem shut_fold {l : Bytes} (qs : List Pattern) : ∀ T : Table, Shut T.rows l → Shut (qs.foldl Table.add T).rows l := by
  induction qs with
  | nil => intro T h; exact h
  | cons q qs ih =>
    intro T h
    refine ih _ ?_
    unfold Table.add
    split
    · exact h
    · exact shut_add h _ _ _
    · exact h

theorem shut_never {A B : List Pattern} {l l' : Bytes} (h : Shut (Table.of A).rows l) (hu : UuidsTell (A ++ B)) {q : Pattern} (hq : q ∈ A ++ B) (hl : l' <+: l)
    (hg : GoesOn q l') {x : Bytes} {r : MatchResult} (ha : (Table.of (A ++ B)).Answer x (some r)) : r.pattern.uuid ≠ q.uuid := by
  refine never_answer hu hq hg ?_ ha
  intro row hrow ht p hp
  have hs := (shut_fold B _ h).2 l' hl
  rw [← Deleted.table_split, ← ht, rowOf_mem (table_rows (A ++ B)).1 hrow, hp] at hs
  simp at hs

theorem opened {A : List Pattern} {l l' : Bytes} {p : Pattern} (hl : l' <+: l) (hp : GoesOn p l') (hm : (rowOf (Table.of A).rows l').more ≠ none) :
    TakesEffect (A ++ [p]) l := by
  rintro ⟨h1, h2⟩
  rw [table_goesOn hp] at h1 h2
  simp only [] at h1 h2
  by_cases c : l = l'
  · subst c
    rw [rowOf_rowAt, rowAt_add, if_pos rfl] at h1
    simp [hm] at h1
  · rw [extended_rowAt] at h2
    obtain ⟨y, g1, g2, g3⟩ := h2
    rw [rowAt_add] at g3
    by_cases c2 : y = l'
    · subst c2
      exact g2 (prefix_eq hl g1.length_le)
    · rw [if_neg c2, if_pos ⟨rfl, fun g => hm g.1, hl.trans g1⟩] at g3
      exact g3 rfl

end Blocked
open Blocked

/-- C148: after any history, a pattern that goes on after the literal `l` is found if it is added now, or if one of the earlier patterns is added again
before it; or else no pattern that goes on after `l` or after a beginning of `l` is ever found, whatever is added. -/
theorem C148_now_or_never (sip : Bytes → UInt64) (A : List Pattern) (l : Bytes) (hl : l ≠ []) :
    (∃ B, (B = [] ∨ ∃ p ∈ A, B = [p]) ∧ ∀ q, GoesOn q l → Proper sip (A ++ [q]) → FoundAfter sip (A ++ B) q) ∨
    (∀ B, Proper sip (A ++ B) → UuidsTell (A ++ B) → ∀ q ∈ A ++ B, ∀ l', l' <+: l → GoesOn q l' → NeverFound sip (A ++ B) q) := by
  by_cases h : Shut (Table.of A).rows l
  · exact .inr fun B hps hu q hq l' hl' hg text res hx hr => shut_never h hu hq hl' hg (proper_answer hps hx hr)
  · refine .inl ?_
    by_cases he : Extended (Table.of A).rows l
    · obtain ⟨l', h1, h2⟩ : ∃ l', l' <+: l ∧ (rowOf (Table.of A).rows l').more ≠ none := by
        refine Classical.byContradiction fun g => h ⟨he, fun l' hl' => ?_⟩
        exact Classical.byContradiction fun k => g ⟨l', hl', k⟩
      cases hp : (rowOf (Table.of A).rows l').more with
      | none => exact absurd hp h2
      | some p =>
        obtain ⟨hpA, hg⟩ : p ∈ A ∧ GoesOn p l' := by
          rcases Compact.rowOf_held (rows := (Table.of A).rows) (l := l') with k | k
          · exact (Compact.held_of A).mores l' _ p k hp
          · rw [k.2] at hp; simp at hp
        refine ⟨[p], .inr ⟨p, hpA, rfl⟩, fun q hq hps text caps r hx hm hr => ?_⟩
        have hps' : Proper sip (A ++ [p] ++ [q]) := proper_sub hps (by
          intro s hs
          simp at hs ⊢
          rcases hs with k | rfl | rfl
          · exact .inl k
          · exact .inl hpA
          · exact .inr rfl)
        exact effect_answers hq hl (opened h1 hg (by rw [hp]; simp)) hm (proper_answer hps' hx hr)
    · refine ⟨[], .inl rfl, fun q hq hps text caps r hx hm hr => ?_⟩
      rw [List.append_nil] at hr
      exact effect_answers hq hl (fun g => he g.2) hm (proper_answer hps hx hr)

/-- C148: it is never found if a longer literal that begins with `l` came before all patterns that go on after `l` or a beginning of it. -/
theorem C148_never (sip : Bytes → UInt64) (A B : List Pattern) (l : Bytes) (hno : ∀ p ∈ A, ∀ l', l' <+: l → ¬ GoesOn p l') (hl : LongerLed A l)
    (hps : Proper sip (A ++ B)) (hu : UuidsTell (A ++ B)) (q : Pattern) (hq : q ∈ B) (l' : Bytes) (hl' : l' <+: l) (hg : GoesOn q l') :
    NeverFound sip (A ++ B) q := by
  have h : Shut (Table.of A).rows l := ⟨longer_stays A hno hl, fun k hk => no_more_at fun p hp => hno p hp k hk⟩
  exact fun text res hx hr => shut_never h hu (by simp [hq]) hl' hg (proper_answer hps hx hr)

/-- C148: if some pattern that goes on after `l` or a beginning of it is the answer for some text now, then adding it again makes way for every pattern that
goes on after `l`. -/
theorem C148_again (sip : Bytes → UInt64) (A : List Pattern) (hu : UuidsTell A) (p : Pattern) (hp : p ∈ A) (l l' : Bytes) (hl : l ≠ []) (hl' : l' <+: l)
    (hg : GoesOn p l') (text : Bytes) (hx : Utf8 text) (res : MatchResult)
    (hr : (SuffixTree.build sip A >>= fun t => t.parse text) = .ok (some res)) (hres : res.pattern.uuid = p.uuid) (q : Pattern) (hq : GoesOn q l)
    (hps : Proper sip (A ++ [q])) : FoundAfter sip (A ++ [p]) q := by
  intro text' caps r hx' hm hr'
  have hps' : Proper sip (A ++ [p] ++ [q]) := proper_sub hps (by
    intro s hs
    simp at hs ⊢
    rcases hs with k | rfl | rfl
    · exact .inl k
    · exact .inl hp
    · exact .inr rfl)
  have hA : Proper sip A := proper_sub hps fun s hs => by simp [hs]
  refine effect_answers hq hl (opened hl' hg fun hmore => ?_) hm (proper_answer hps' hx' hr')
  refine never_answer hu hp hg ?_ (proper_answer hA hx hr) hres
  intro row hrow ht s hs
  rw [← ht, rowOf_mem (table_rows A).1 hrow, hs] at hmore
  simp at hmore

/-! `ab` alone shuts `a`: nothing that goes on after `a` is found any more.  After `a%{INT:x}` and `ab`, adding `a%{INT:x}` again makes way. -/

def shutSample : List Pattern := [Samples.pat 1 [.literal b!"ab"]]
def lateSample : Pattern := Samples.pat 2 [.literal b!"a", .parser (Samples.int b!"x")]
def laterSample : Pattern := Samples.pat 3 [.literal b!"a", .parser (Samples.greedy b!"y" none)]

theorem shutSample_proper : Proper Samples.sip [Samples.pat 1 [.literal b!"ab"], lateSample, laterSample] := by
  refine ⟨?_, ?_, ?_, ?_⟩
  · intro p hp l hl
    simp [lateSample, laterSample] at hp
    rcases hp with rfl | rfl | rfl <;> simp [Samples.pat] at hl <;> subst hl <;> exact ascii_utf8 (by decide)
  · intro p hp l hl
    simp [lateSample, laterSample] at hp
    rcases hp with rfl | rfl | rfl <;> simp [Samples.pat] at hl <;> subst hl <;> decide
  · intro p hp l rest e l'
    simp [lateSample, laterSample] at hp
    rcases hp with rfl | rfl | rfl <;> simp [Samples.pat] at e <;> first | (rw [← e.2]; simp) | (rw [e.2]; simp)
  · rintro a b ⟨p, hp, e⟩
    simp [lateSample, laterSample] at hp
    rcases hp with rfl | rfl | rfl <;> simp [Samples.pat] at e

example (n : Nat) : NeverFound Samples.sip (shutSample ++ (List.replicate (n + 1) [lateSample, laterSample]).flatten) laterSample := by
  have hm := copies_mem [lateSample, laterSample] (n + 1)
  have hsub : ∀ s ∈ shutSample ++ (List.replicate (n + 1) [lateSample, laterSample]).flatten,
      s ∈ [Samples.pat 1 [.literal b!"ab"], lateSample, laterSample] := by
    intro s hs
    rcases List.mem_append.mp hs with g | g
    · simp [shutSample] at g; simp [g]
    · have := hm s g
      simp at this ⊢
      exact .inr this
  refine C148_never Samples.sip _ _ b!"a" ?_ ⟨b!"ab", ⟨_, by simp [shutSample]; rfl, [], rfl⟩, by decide, by decide⟩ (proper_sub shutSample_proper hsub) ?_ laterSample ?_ b!"a"
    (List.prefix_refl _) ⟨_, by simp, rfl⟩
  · rintro p hp l' _ ⟨rest, hr, e⟩
    simp [shutSample] at hp
    subst hp
    simp [Samples.pat] at e
    exact hr e.2
  · have : UuidsTell [Samples.pat 1 [.literal b!"ab"], lateSample, laterSample] := by decide +kernel
    exact fun p hp q hq => this p (hsub p hp) q (hsub q hq)
  · rw [List.replicate_succ, List.flatten_cons]
    simp

example : (SuffixTree.build Samples.sip [lateSample, Samples.pat 1 [.literal b!"ab"], laterSample] >>= fun t => t.parse b!"ac") =
    .ok (some { pattern := Samples.pat 3 [], values := [(b!"y", b!"c")] }) ∧
    (SuffixTree.build Samples.sip [Samples.pat 1 [.literal b!"ab"], lateSample, laterSample] >>= fun t => t.parse b!"ac") = .ok none := by decide +kernel

example : FoundAfter Samples.sip ([lateSample, Samples.pat 1 [.literal b!"ab"]] ++ [lateSample]) laterSample :=
  C148_again Samples.sip _ (by decide +kernel) lateSample (by simp) b!"a" b!"a" (by decide) (List.prefix_refl _) ⟨_, by simp, rfl⟩ b!"a7" (ascii_utf8 (by decide))
    { pattern := Samples.pat 2 [], values := [(b!"x", b!"7")] } (by decide +kernel) rfl laterSample ⟨_, by simp, rfl⟩
    (proper_sub shutSample_proper (by intro s hs; simp at hs ⊢; rcases hs with h | h | h <;> simp [h]))

end Verif
