import Verif.Props.C15_C24_Trie
import Verif.Props.C25_C31_SuffixArray
import Verif.Spec.Histories
/-! C140: what a matcher answers depends only on the patterns it holds, not on what else the program did. -/
namespace Verif
open Spec

namespace Histories

def make (sip : Bytes → UInt64) (x : Kind × List Pattern) : M Boxed :=
  match x.1 with
  | .trie => SuffixTree.build sip x.2 >>= fun t => .ok (.trie t)
  | .suffixArray => SuffixTable.build sip x.2 >>= fun t => .ok (.suffixArray t)

/-- Every matcher is the one made from the patterns it holds. -/
def Inv (sip : Bytes → UInt64) (s : List (Option Boxed)) (h : Holdings) : Prop := h.map (Option.map (make sip)) = s.map (Option.map Except.ok)

theorem make_new (sip : Bytes → UInt64) (k : Kind) : make sip (k, []) = .ok (Boxed.new k) := by cases k <;> rfl

theorem make_add (sip : Bytes → UInt64) (k : Kind) (ps : List Pattern) (p : Pattern) :
    make sip (k, ps ++ [p]) = make sip (k, ps) >>= fun b => b.addPattern sip p := by
  cases k
  · simp only [make, SuffixTree.build, List.foldlM_append, bind, Except.bind]
    cases List.foldlM (fun t p => SuffixTree.addPattern sip t p) SuffixTree.new ps with
    | error e => rfl
    | ok t => simp only [List.foldlM_cons, List.foldlM_nil, Boxed.addPattern, bind, Except.bind]; cases t.addPattern sip p <;> rfl
  · simp only [make, SuffixTable.build, List.foldlM_append, bind, Except.bind]
    cases List.foldlM (fun t p => SuffixTable.addPattern sip t p) SuffixTable.new ps with
    | error e => rfl
    | ok t => simp only [List.foldlM_cons, List.foldlM_nil, Boxed.addPattern, bind, Except.bind]; cases t.addPattern sip p <;> rfl

theorem make_parse (sip : Bytes → UInt64) (k : Kind) (ps : List Pattern) (text : Bytes) :
    freshAnswer sip k ps text = make sip (k, ps) >>= fun b => b.parse text := by
  cases k
  · simp only [make, freshAnswer, bind, Except.bind]; cases SuffixTree.build sip ps <;> rfl
  · simp only [make, freshAnswer, bind, Except.bind]; cases SuffixTable.build sip ps <;> rfl

theorem make_panics (sip : Bytes → UInt64) (k : Kind) (ps : List Pattern) (e : Panic) : FreshPanics sip k ps e ↔ make sip (k, ps) = .error e := by
  cases k
  · simp only [make, FreshPanics, bind, Except.bind]; cases SuffixTree.build sip ps <;> simp
  · simp only [make, FreshPanics, bind, Except.bind]; cases SuffixTable.build sip ps <;> simp

theorem clone_eq (b : Boxed) : b.boxedClone = b := by
  cases b with
  | trie t => simp [Boxed.boxedClone, suffixTree_clone_id]
  | suffixArray t => simp [Boxed.boxedClone, suffixTable_clone_id]

/-- What is known of one matcher. -/
theorem Inv.get {sip : Bytes → UInt64} {s : List (Option Boxed)} {h : Holdings} (hi : Inv sip s h) (i : Nat) :
    (∃ k ps b, h[i]? = some (some (k, ps)) ∧ s[i]? = some (some b) ∧ make sip (k, ps) = .ok b) ∨
    ((∀ x, h[i]? ≠ some (some x)) ∧ ∀ b, s[i]? ≠ some (some b)) := by
  have := congrArg (fun l : List (Option (M Boxed)) => l[i]?) hi
  simp only [List.getElem?_map] at this
  rcases hh : h[i]? with _ | _ | ⟨k, ps⟩ <;> rcases hs : s[i]? with _ | _ | b <;> simp [hh, hs] at this ⊢
  exact ⟨k, ps, ⟨rfl, rfl⟩, this⟩

theorem add_after {h : Holdings} {i : Nat} (h1 : ∀ x, h[i]? ≠ some (some x)) {p : Pattern} : after h (.add i p) = h := by
  simp only [after]
  try split
  all_goals first
    | rfl
    | (rename_i heq; exact absurd heq (h1 _))

theorem clone_after {h : Holdings} {i : Nat} (h1 : ∀ x, h[i]? ≠ some (some x)) : after h (.clone i) = h := by
  simp only [after]
  try split
  all_goals first
    | rfl
    | (rename_i heq; exact absurd heq (h1 _))

theorem add_step {sip : Bytes → UInt64} {s : List (Option Boxed)} {i : Nat} (h2 : ∀ b, s[i]? ≠ some (some b)) {p : Pattern} :
    (MatcherCall.add i p).step sip s = .ok (s, none) := by
  simp only [MatcherCall.step]
  try split
  all_goals first
    | rfl
    | (rename_i heq; exact absurd heq (h2 _))

theorem parse_step {sip : Bytes → UInt64} {s : List (Option Boxed)} {i : Nat} (h2 : ∀ b, s[i]? ≠ some (some b)) {text : Bytes} :
    (MatcherCall.parse i text).step sip s = .ok (s, none) := by
  simp only [MatcherCall.step]
  try split
  all_goals first
    | rfl
    | (rename_i heq; exact absurd heq (h2 _))

theorem clone_step {sip : Bytes → UInt64} {s : List (Option Boxed)} {i : Nat} (h2 : ∀ b, s[i]? ≠ some (some b)) :
    (MatcherCall.clone i).step sip s = .ok (s, none) := by
  simp only [MatcherCall.step]
  try split
  all_goals first
    | rfl
    | (rename_i heq; exact absurd heq (h2 _))

theorem step_ok {sip : Bytes → UInt64} {s s' : List (Option Boxed)} {h : Holdings} (hi : Inv sip s h) {c : MatcherCall} {a}
    (hs : c.step sip s = .ok (s', a)) : Inv sip s' (after h c) := by
  cases c with
  | create k =>
    simp only [MatcherCall.step, Except.ok.injEq, Prod.mk.injEq] at hs
    rw [← hs.1]
    simp only [Inv, after, List.map_append, List.map_cons, List.map_nil, Option.map_some, make_new]
    rw [hi]
  | add i p =>
    rcases hi.get i with ⟨k, ps, b, h1, h2, h3⟩ | ⟨h1, h2⟩
    · simp only [MatcherCall.step, h2, bind, Except.bind] at hs
      split at hs
      · simp at hs
      · rename_i b' hb
        simp only [pure, Except.pure, Except.ok.injEq, Prod.mk.injEq] at hs
        rw [← hs.1]
        simp only [Inv, after, h1, List.map_set, Option.map_some, make_add, h3, bind, Except.bind, hb]
        rw [hi]
    · have e1 : after h (.add i p) = h := add_after h1
      have e2 : (MatcherCall.add i p).step sip s = .ok (s, none) := add_step h2
      rw [e2] at hs
      simp at hs; rw [e1, ← hs.1]; exact hi
  | parse i text =>
    simp only [MatcherCall.step] at hs
    split at hs
    · simp only [bind, Except.bind] at hs
      split at hs
      · simp at hs
      · simp [pure, Except.pure] at hs; rw [← hs.1]; exact hi
    · simp at hs; rw [← hs.1]; exact hi
  | clone i =>
    rcases hi.get i with ⟨k, ps, b, h1, h2, h3⟩ | ⟨h1, h2⟩
    · simp only [MatcherCall.step, h2, Except.ok.injEq, Prod.mk.injEq] at hs
      rw [← hs.1]
      simp only [Inv, after, h1, List.map_append, List.map_cons, List.map_nil, Option.map_some, h3, clone_eq]
      rw [hi]
    · have e1 : after h (.clone i) = h := clone_after h1
      have e2 : (MatcherCall.clone i).step sip s = .ok (s, none) := clone_step h2
      rw [e2] at hs
      simp at hs; rw [e1, ← hs.1]; exact hi
  | drop i =>
    simp only [MatcherCall.step, Except.ok.injEq, Prod.mk.injEq] at hs
    rw [← hs.1]
    simp only [Inv, after, List.map_set, Option.map_none]
    rw [hi]

theorem step_answer {sip : Bytes → UInt64} {s s' : List (Option Boxed)} {h : Holdings} (hi : Inv sip s h) {i : Nat} {text : Bytes} {a}
    (hs : (MatcherCall.parse i text).step sip s = .ok (s', a)) {k ps} (hh : h[i]? = some (some (k, ps))) :
    ∃ r, a = some r ∧ freshAnswer sip k ps text = .ok r := by
  rcases hi.get i with ⟨k', ps', b, h1, h2, h3⟩ | ⟨h1, h2⟩
  · rw [hh] at h1
    simp at h1
    obtain ⟨rfl, rfl⟩ := h1
    simp only [MatcherCall.step, h2, bind, Except.bind] at hs
    rw [make_parse, h3]
    simp only [bind, Except.bind]
    split at hs
    · simp at hs
    · rename_i r hr
      simp [pure, Except.pure] at hs
      exact ⟨r, hs.2.symm, hr⟩
  · exact absurd hh (h1 _)

theorem step_panics {sip : Bytes → UInt64} {s : List (Option Boxed)} {h : Holdings} (hi : Inv sip s h) (c : MatcherCall) (e : Panic) :
    c.step sip s = .error e ↔ CallPanics sip h c e := by
  cases c with
  | create k => simp only [MatcherCall.step]; exact ⟨nofun, nofun⟩
  | clone i =>
    refine ⟨fun hs => ?_, nofun⟩
    simp only [MatcherCall.step] at hs
    split at hs <;> simp at hs
  | drop i => simp only [MatcherCall.step]; exact ⟨nofun, nofun⟩
  | add i p =>
    rcases hi.get i with ⟨k, ps, b, h1, h2, h3⟩ | ⟨h1, h2⟩
    · have key : (MatcherCall.add i p).step sip s = .error e ↔ FreshPanics sip k (ps ++ [p]) e := by
        rw [make_panics, make_add, h3]
        simp only [MatcherCall.step, h2, bind, Except.bind]
        cases b.addPattern sip p <;> simp [pure, Except.pure]
      rw [key]
      refine ⟨.add i p k ps e h1, fun hp => ?_⟩
      cases hp with
      | add _ _ k' ps' _ g1 g2 => rw [h1] at g1; simp at g1; rw [g1.1, g1.2]; exact g2
    · refine ⟨fun hs => ?_, fun hp => ?_⟩
      · rw [add_step h2] at hs; simp at hs
      · cases hp with
        | add _ _ _ _ _ g1 g2 => exact absurd g1 (h1 _)
  | parse i text =>
    rcases hi.get i with ⟨k, ps, b, h1, h2, h3⟩ | ⟨h1, h2⟩
    · have key : (MatcherCall.parse i text).step sip s = .error e ↔ freshAnswer sip k ps text = .error e := by
        rw [make_parse, h3]
        simp only [MatcherCall.step, h2, bind, Except.bind]
        cases b.parse text <;> simp [pure, Except.pure]
      rw [key]
      refine ⟨.parse i text k ps e h1, fun hp => ?_⟩
      cases hp with
      | parse _ _ k' ps' _ g1 g2 => rw [h1] at g1; simp at g1; rw [g1.1, g1.2]; exact g2
    · refine ⟨fun hs => ?_, fun hp => ?_⟩
      · rw [parse_step h2] at hs; simp at hs
      · cases hp with
        | parse _ _ _ _ _ g1 g2 => exact absurd g1 (h1 _)

/-- All answers of a run. -/
theorem run_answers {sip : Bytes → UInt64} (calls : List MatcherCall) : ∀ {s s' : List (Option Boxed)} {h : Holdings} {as}, Inv sip s h →
    runCalls sip s calls = .ok (s', as) → Inv sip s' (calls.foldl after h) ∧ ∀ pre i text post k ps, calls = pre ++ .parse i text :: post →
    (pre.foldl after h)[i]? = some (some (k, ps)) → ∃ a, as[pre.length]? = some (some a) ∧ freshAnswer sip k ps text = .ok a := by
  induction calls with
  | nil =>
    intro s s' h as hi hr
    simp [runCalls] at hr
    refine ⟨by rw [← hr.1]; exact hi, ?_⟩
    intro pre i text post k ps he; simp at he
  | cons c rest ih =>
    intro s s' h as hi hr
    unfold runCalls at hr
    split at hr
    · simp at hr
    · rename_i s1 a hs
      split at hr
      · simp at hr
      · rename_i s2 as' hr2
        simp at hr
        obtain ⟨rfl, rfl⟩ := hr
        obtain ⟨h1, h2⟩ := ih (step_ok hi hs) hr2
        refine ⟨h1, ?_⟩
        intro pre i text post k ps he hh
        cases pre with
        | nil =>
          simp at he
          obtain ⟨rfl, rfl⟩ := he
          obtain ⟨r, rfl, hf⟩ := step_answer hi hs hh
          exact ⟨r, by simp, hf⟩
        | cons d pre =>
          simp at he
          obtain ⟨rfl, rfl⟩ := he
          obtain ⟨r, g1, g2⟩ := h2 pre i text post k ps rfl hh
          exact ⟨r, by simpa using g1, g2⟩

theorem run_panics {sip : Bytes → UInt64} (calls : List MatcherCall) (e : Panic) : ∀ {s : List (Option Boxed)} {h : Holdings}, Inv sip s h →
    (runCalls sip s calls = .error e ↔ ∃ pre c post, calls = pre ++ c :: post ∧ (∃ r, runCalls sip s pre = .ok r) ∧
      CallPanics sip (pre.foldl after h) c e) := by
  induction calls with
  | nil => intro s h _; simp [runCalls]
  | cons c rest ih =>
    intro s h hi
    rcases hs : c.step sip s with e' | ⟨s1, a⟩
    · simp only [runCalls, hs]
      refine ⟨fun he => ⟨[], c, rest, rfl, ⟨_, rfl⟩, (step_panics hi c e).mp (by rw [hs]; simpa using he)⟩, ?_⟩
      rintro ⟨pre, d, post, he, ⟨r, hr⟩, hp⟩
      cases pre with
      | nil =>
        simp at he
        obtain ⟨rfl, rfl⟩ := he
        have := (step_panics hi c e).mpr hp
        rw [hs] at this; simpa using this
      | cons d' pre =>
        simp at he
        obtain ⟨rfl, rfl⟩ := he
        simp [runCalls, hs] at hr
    · have e1 : runCalls sip s (c :: rest) = .error e ↔ runCalls sip s1 rest = .error e := by
        simp only [runCalls, hs]
        cases runCalls sip s1 rest <;> simp
      rw [e1, ih (step_ok hi hs)]
      constructor
      · rintro ⟨pre, d, post, rfl, ⟨⟨s2, as⟩, hr⟩, hp⟩
        exact ⟨c :: pre, d, post, rfl, ⟨(s2, a :: as), by simp [runCalls, hs, hr]⟩, hp⟩
      · rintro ⟨pre, d, post, he, ⟨r, hr⟩, hp⟩
        cases pre with
        | nil =>
          simp at he
          obtain ⟨rfl, rfl⟩ := he
          have := (step_panics hi c e).mpr hp
          rw [hs] at this; simp at this
        | cons d' pre =>
          simp at he
          obtain ⟨rfl, rfl⟩ := he
          refine ⟨pre, d, post, rfl, ?_, hp⟩
          simp only [runCalls, hs] at hr
          cases hr2 : runCalls sip s1 pre with
          | error e2 => simp [hr2] at hr
          | ok r2 => exact ⟨r2, rfl⟩

theorem inv_nil (sip : Bytes → UInt64) : Inv sip [] [] := rfl

end Histories

/-- C140: in every program, every `parse` gives the answer of a new matcher to which just the patterns were added that this matcher holds. -/
theorem C140_answers (sip : Bytes → UInt64) (calls : List MatcherCall) (s : List (Option Boxed)) (as : List (Option (Option MatchResult)))
    (hr : runCalls sip [] calls = .ok (s, as)) (pre post : List MatcherCall) (i : Nat) (text : Bytes) (he : calls = pre ++ .parse i text :: post)
    (kind : Kind) (ps : List Pattern) (hh : (held pre)[i]? = some (some (kind, ps))) :
    ∃ a, as[pre.length]? = some (some a) ∧ freshAnswer sip kind ps text = .ok a :=
  (Histories.run_answers calls (Histories.inv_nil sip) hr).2 pre i text post kind ps he hh

/-- C140: hence two `parse` calls for one text, in any two programs or at two places of one, have the same answer if the two matchers hold the same. -/
theorem C140_same (sip : Bytes → UInt64) (calls calls' : List MatcherCall) (s s' : List (Option Boxed)) (as as' : List (Option (Option MatchResult)))
    (hr : runCalls sip [] calls = .ok (s, as)) (hr' : runCalls sip [] calls' = .ok (s', as')) (pre post pre' post' : List MatcherCall) (i i' : Nat)
    (text : Bytes) (he : calls = pre ++ .parse i text :: post) (he' : calls' = pre' ++ .parse i' text :: post')
    (x : Kind × List Pattern) (hh : (held pre)[i]? = some (some x)) (hh' : (held pre')[i']? = some (some x)) :
    ∃ a, as[pre.length]? = some (some a) ∧ as'[pre'.length]? = some (some a) := by
  obtain ⟨a, h1, h2⟩ := C140_answers sip calls s as hr pre post i text he x.1 x.2 hh
  obtain ⟨a', h1', h2'⟩ := C140_answers sip calls' s' as' hr' pre' post' i' text he' x.1 x.2 hh'
  rw [h2] at h2'
  simp at h2'
  subst h2'
  exact ⟨a, h1, h1'⟩

/-- C140: a program panics exactly if it comes to a call for which a new matcher with the same patterns panics; nothing else it did matters. -/
theorem C140_panics (sip : Bytes → UInt64) (calls : List MatcherCall) (e : Panic) :
    runCalls sip [] calls = .error e ↔
      ∃ pre c post, calls = pre ++ c :: post ∧ (∃ r, runCalls sip [] pre = .ok r) ∧ CallPanics sip (held pre) c e :=
  Histories.run_panics calls e (Histories.inv_nil sip)

end Verif
