import Verif.Spec.Loader
import Verif.Proofs.Matching
/-! Proofs about the loader. -/
namespace Verif
open Spec

/-! ### Maps -/

theorem get?_eq_find (m : BMap) (k : Bytes) : m.get? k = (m.find? fun kv => decide (kv.1 = k)).map (·.2) := by
  induction m with
  | nil => rfl
  | cons e m ih =>
    obtain ⟨k', v⟩ := e
    unfold BMap.get?
    rw [List.find?_cons]
    by_cases h : k' = k
    · simp [h]
    · simp [h, ih]

theorem get?_insert' {m : BMap} (ho : OrderedMap m) (k v x : Bytes) : (m.insert k v).get? x = if k = x then some v else m.get? x := by
  induction m with
  | nil => simp [BMap.insert, BMap.get?]
  | cons e m ih =>
    obtain ⟨k', v'⟩ := e
    rw [orderedMap_iff, List.map_cons, List.pairwise_cons] at ho
    have ih := ih (orderedMap_iff.mpr ho.2)
    unfold BMap.insert
    split
    · simp [BMap.get?]
    · rename_i he
      rw [cmpBytes_eq] at he; subst he
      simp only [BMap.get?]
      split <;> rfl
    · rename_i hg
      simp only [BMap.get?]
      by_cases h : k' = x
      · subst h
        have : k ≠ k' := by rintro rfl; rw [cmpBytes_eq.mpr rfl] at hg; simp at hg
        simp [this]
      · simp [h, ih]

theorem foldl_insert {l : BMap} : ∀ {m : BMap}, OrderedMap m →
    OrderedMap (l.foldl (fun m kv => m.insert kv.1 kv.2) m) ∧
    ∀ k, (l.foldl (fun m kv => m.insert kv.1 kv.2) m).get? k = ((l.reverse.find? fun kv => decide (kv.1 = k)).map (·.2)).or (m.get? k) := by
  induction l with
  | nil => intro m ho; exact ⟨ho, fun k => by simp⟩
  | cons e l ih =>
    intro m ho
    rw [List.foldl_cons]
    obtain ⟨h1, h2⟩ := ih (insert_ordered ho e.1 e.2)
    refine ⟨h1, fun k => ?_⟩
    rw [h2, get?_insert' ho, List.reverse_cons, List.find?_append]
    cases (l.reverse.find? fun kv => decide (kv.1 = k)) with
    | some kv => simp
    | none =>
      by_cases hk : e.1 = k <;> simp [hk]

theorem mergeValues_get (r : MatchResult) (k : Bytes) : (mergeValues r).get? k = valueOf r k := by
  unfold mergeValues valueOf
  have hnil : OrderedMap ([] : BMap) := List.Pairwise.nil
  cases hv : r.pattern.values with
  | none =>
    simp only [Option.getD_none, List.nil_append]
    rw [(foldl_insert hnil).2]
    simp [BMap.get?]
  | some vs =>
    simp only [Option.getD_some, List.reverse_append]
    rw [(foldl_insert (foldl_insert hnil).1).2, (foldl_insert hnil).2, List.find?_append]
    cases (r.values.reverse.find? fun kv => decide (kv.1 = k)) <;> simp [BMap.get?]

theorem find?_reverse_ordered {m : BMap} (ho : OrderedMap m) (k : Bytes) :
    ((m.reverse.find? fun kv => decide (kv.1 = k)).map (·.2)) = m.get? k := by
  induction m with
  | nil => rfl
  | cons e m ih =>
    obtain ⟨k', v⟩ := e
    rw [orderedMap_iff, List.map_cons, List.pairwise_cons] at ho
    have ih := ih (orderedMap_iff.mpr ho.2)
    rw [List.reverse_cons, List.find?_append]
    unfold BMap.get?
    by_cases h : k' = k
    · subst h
      have : m.reverse.find? (fun kv => decide (kv.1 = k')) = none := by
        rw [List.find?_eq_none]
        intro x hx hk
        simp at hk hx
        have := ho.1 x.1 (by simp; exact ⟨x.2, hx⟩)
        rw [hk, cmpBytes_eq.mpr rfl] at this
        exact absurd this (by decide)
      simp [this]
    · cases hf : m.reverse.find? (fun kv => decide (kv.1 = k)) with
      | none => rw [hf] at ih; simp [h] at ih ⊢; exact ih
      | some x => rw [hf] at ih; simp [h] at ih ⊢; exact ih

/-- With ordered maps the value of a key is the captured one if there is one, and else the fixed one. -/
theorem valueOf_ordered {r : MatchResult} (h : OrderedMap r.values) (h' : ∀ vs, r.pattern.values = some vs → OrderedMap vs) (k : Bytes) :
    valueOf r k = (r.values.get? k).or (r.pattern.values.bind fun vs => vs.get? k) := by
  unfold valueOf
  rw [List.reverse_append, List.find?_append]
  have := find?_reverse_ordered h k
  cases hv : r.pattern.values with
  | none => simp; exact this
  | some vs =>
    have h2 := find?_reverse_ordered (h' vs hv) k
    simp only [Option.getD_some, Option.bind_some]
    rw [← this, ← h2]
    cases r.values.reverse.find? (fun kv => decide (kv.1 = k)) <;> simp

/-! ### Test messages -/

theorem testValuesLoop_spec (r : MatchResult) (vs : BMap) :
    (testValuesLoop (mergeValues r) r vs = .ok () ∧ ∀ kv ∈ vs, valueOf r kv.1 = some kv.2) ∨
    (∃ A k v B, vs = A ++ (k, v) :: B ∧ (∀ kv ∈ A, valueOf r kv.1 = some kv.2) ∧
      ((valueOf r k = none ∧ testValuesLoop (mergeValues r) r vs = .error (.keyNotFound r.pattern.uuid k)) ∨
       ∃ w, w ≠ v ∧ valueOf r k = some w ∧ testValuesLoop (mergeValues r) r vs = .error (.valueNotMatch r.pattern.uuid k v w))) := by
  induction vs with
  | nil => left; exact ⟨rfl, by simp⟩
  | cons e vs ih =>
    obtain ⟨k, v⟩ := e
    unfold testValuesLoop testValue
    rw [mergeValues_get]
    cases hv : valueOf r k with
    | none => right; exact ⟨[], k, v, vs, rfl, by simp, .inl ⟨hv, by simp⟩⟩
    | some w =>
      by_cases hw : v = w
      · subst hw
        simp only [↓reduceIte]
        rcases ih with ⟨h1, h2⟩ | ⟨A, k', v', B, h1, h2, h3⟩
        · left
          refine ⟨h1, ?_⟩
          intro kv hkv
          rcases List.mem_cons.mp hkv with rfl | hkv
          · exact hv
          · exact h2 kv hkv
        · right
          refine ⟨(k, v) :: A, k', v', B, by rw [h1]; rfl, ?_, ?_⟩
          · intro kv hkv
            rcases List.mem_cons.mp hkv with rfl | hkv
            · exact hv
            · exact h2 kv hkv
          · simpa using h3
      · right
        exact ⟨[], k, v, vs, rfl, by simp, .inr ⟨w, fun e => hw e.symm, hv, by simp [hw]⟩⟩

theorem testExpectedTags_spec (msg : TestMessage) (r : MatchResult) (got : List Bytes) (ts : List Bytes) :
    msg.testExpectedTags r got ts = if ∀ t ∈ ts, t ∈ got then .ok () else .error (msg.unexpectedTagsError r) := by
  induction ts with
  | nil => simp [TestMessage.testExpectedTags]
  | cons t ts ih =>
    unfold TestMessage.testExpectedTags
    by_cases h : t ∈ got
    · simp [h, ih]
    · simp [h]

theorem testTags_spec (msg : TestMessage) (r : MatchResult) :
    (msg.testTags r = .ok () ∧ TagsOk msg r) ∨
    (msg.testTags r = .error (.unexpectedTags r.pattern.uuid msg.tags r.pattern.tags) ∧ ¬ TagsOk msg r) := by
  unfold TestMessage.testTags TagsOk
  cases hm : msg.tags with
  | none => left; simp
  | some ts =>
    cases hr : r.pattern.tags with
    | none =>
      right
      simp [TestMessage.unexpectedTagsError, hm, hr]
    | some gs =>
      simp only
      rw [testExpectedTags_spec]
      by_cases h : ∀ t ∈ ts, t ∈ gs
      · left; rw [if_pos h]; exact ⟨rfl, by simpa using h⟩
      · right
        rw [if_neg h]
        refine ⟨by simp [TestMessage.unexpectedTagsError, hm, hr], ?_⟩
        intro hc
        obtain ⟨g, hg, h2⟩ := hc ts rfl
        simp at hg; subst hg
        exact h h2

theorem testResult_ok (msg : TestMessage) (r : MatchResult) : msg.testResult r = .ok () ↔ TagsOk msg r ∧ ValuesOk msg r := by
  unfold TestMessage.testResult
  rcases testTags_spec msg r with ⟨h1, h2⟩ | ⟨h1, h2⟩
  · rw [h1]
    simp only [h2, true_and]
    unfold TestMessage.testValues
    rcases testValuesLoop_spec r msg.values with ⟨h3, h4⟩ | ⟨A, k, v, B, e, hA, h3⟩
    · exact ⟨fun _ => h4, fun _ => h3⟩
    · constructor
      · intro h; rcases h3 with ⟨_, h3⟩ | ⟨w, _, _, h3⟩ <;> rw [h3] at h <;> simp at h
      · intro h
        have := h (k, v) (by rw [e]; simp)
        rcases h3 with ⟨h3, _⟩ | ⟨w, hw, h3, _⟩
        · rw [h3] at this; simp at this
        · rw [h3] at this; simp at this; exact absurd this hw
  · rw [h1]; simp [h2]

theorem testResult_error (msg : TestMessage) (r : MatchResult) (e : TestError) : msg.testResult r = .error e ↔ Rejects msg r e := by
  constructor
  · unfold TestMessage.testResult
    rcases testTags_spec msg r with ⟨h1, h2⟩ | ⟨h1, h2⟩
    · rw [h1]
      simp only
      unfold TestMessage.testValues
      rcases testValuesLoop_spec r msg.values with ⟨h3, h4⟩ | ⟨A, k, v, B, he, hA, ⟨h3, h4⟩ | ⟨w, hw, h3, h4⟩⟩
      · rw [h3]; simp
      · rw [h4]; intro h; simp at h; subst h; exact .key A B k v h2 he hA h3
      · rw [h4]; intro h; simp at h; subst h; exact .value A B k v w h2 he hA h3 hw
    · rw [h1]; intro h; simp at h; subst h; exact .tags h2
  · intro h
    have first : ∀ {A B A' B' : BMap} {k v k' v' : Bytes}, A ++ (k, v) :: B = A' ++ (k', v') :: B' →
        (∀ kv ∈ A, valueOf r kv.1 = some kv.2) → (∀ kv ∈ A', valueOf r kv.1 = some kv.2) → valueOf r k ≠ some v → valueOf r k' ≠ some v' →
        k = k' ∧ v = v' := by
      intro A
      induction A with
      | nil =>
        intro B A' B' k v k' v' e hA hA' hk hk'
        cases A' with
        | nil => simp at e; exact e.1
        | cons x A' => simp at e; exact absurd (hA' (k, v) (by rw [e.1]; simp)) hk
      | cons x A ih =>
        intro B A' B' k v k' v' e hA hA' hk hk'
        cases A' with
        | nil => simp at e; exact absurd (hA (k', v') (by rw [e.1]; simp)) hk'
        | cons y A' =>
          simp at e
          exact ih e.2 (fun kv h => hA kv (by simp [h])) (fun kv h => hA' kv (by simp [h])) hk hk'
    unfold TestMessage.testResult
    rcases testTags_spec msg r with ⟨h1, h2⟩ | ⟨h1, h2⟩
    · rw [h1]
      simp only
      unfold TestMessage.testValues
      cases h with
      | tags h => exact absurd h2 h
      | key A B k v _ he hA hk =>
        rcases testValuesLoop_spec r msg.values with ⟨h3, h4⟩ | ⟨A', k', v', B', he', hA', ⟨h3, h4⟩ | ⟨w, hw, h3, h4⟩⟩
        · have := h4 (k, v) (by rw [he]; simp)
          rw [hk] at this; simp at this
        · obtain ⟨rfl, rfl⟩ := first (he.symm.trans he') hA hA' (by simp [hk]) (by simp [h3])
          exact h4
        · obtain ⟨rfl, rfl⟩ := first (he.symm.trans he') hA hA' (by simp [hk]) (by simp [h3, hw])
          rw [hk] at h3; simp at h3
      | value A B k v w _ he hA hk hne =>
        rcases testValuesLoop_spec r msg.values with ⟨h3, h4⟩ | ⟨A', k', v', B', he', hA', ⟨h3, h4⟩ | ⟨w', hw, h3, h4⟩⟩
        · have := h4 (k, v) (by rw [he]; simp)
          rw [hk] at this; simp at this; exact absurd this hne
        · obtain ⟨rfl, rfl⟩ := first (he.symm.trans he') hA hA' (by simp [hk, hne]) (by simp [h3])
          rw [hk] at h3; simp at h3
        · obtain ⟨rfl, rfl⟩ := first (he.symm.trans he') hA hA' (by simp [hk, hne]) (by simp [h3, hw])
          rw [hk] at h3; simp at h3; subst h3; exact h4
    · rw [h1]
      cases h with
      | tags h => rfl
      | key _ _ _ _ h => exact absurd h h2
      | value _ _ _ _ _ h => exact absurd h h2

/-! ### Test messages of a pattern -/

theorem extractLoop (ms : List TestMessage) : ∀ (p : Pattern) (acc : List TestMessage), p.testMessages = some ms.reverse →
    extractTestMessagesLoop p acc = (acc ++ ms, { p with testMessages := some [] }) := by
  induction ms with
  | nil =>
    intro p acc h
    rw [extractTestMessagesLoop]
    have : p.popTestMessage = none := by simp [Pattern.popTestMessage, h]
    split
    · rename_i h2; rw [this] at h2; simp at h2
    · obtain ⟨a, b, c, d, e, f⟩ := p
      simp_all
  | cons m ms ih =>
    intro p acc h
    rw [extractTestMessagesLoop]
    have : p.popTestMessage = some (m, { p with testMessages := some ms.reverse }) := by simp [Pattern.popTestMessage, h]
    split
    · rename_i h2
      rw [this] at h2; simp at h2
      rw [← h2.1, ← h2.2, ih _ _ rfl]
      simp
    · rename_i h2; rw [this] at h2; simp at h2

theorem extract_eq (p : Pattern) : extractTestMessages p = ((testsOf p).reverse, loaded p) := by
  unfold extractTestMessages testsOf loaded
  cases h : p.testMessages with
  | none =>
    rw [extractTestMessagesLoop]
    have : p.popTestMessage = none := by simp [Pattern.popTestMessage, h]
    split
    · rename_i h2; rw [this] at h2; simp at h2
    · obtain ⟨a, b, c, d, e, f⟩ := p
      simp_all
  | some ms =>
    rw [extractLoop ms.reverse p [] (by simp [h])]
    simp

theorem fileItems_eq (ps : List Pattern) : fileItems ps = ps.reverse.map .ok := by
  suffices ∀ qs : List Pattern, fileItems qs.reverse = qs.map .ok by simpa using this ps.reverse
  intro qs
  induction qs with
  | nil => rw [fileItems]; split
           · rename_i h; simp [fileNext] at h
           · rfl
  | cons q qs ih =>
    rw [fileItems]
    have : fileNext (q :: qs).reverse = some (.ok q, qs.reverse) := by simp [fileNext]
    split
    · rename_i h; rw [this] at h; simp at h
      rw [← h.1, ← h.2, ih]; rfl
    · rename_i h; rw [this] at h; simp at h

/-! ### Checking a pattern -/

variable {T : Type}

/-- The first message whose answer is wrong or whose parsing panics, all the ones before it being right. -/
theorem checkTestMessages_spec (I : MatcherImpl T) (m : T) (uuid : Nat) (ms : List TestMessage) :
    (checkTestMessages I m uuid ms = .ok (.ok ()) ∧ ∀ msg ∈ ms, PassesIn I m uuid msg) ∨
    (∃ A msg B, ms = A ++ msg :: B ∧ (∀ x ∈ A, PassesIn I m uuid x) ∧
      ((∃ e, I.parse m msg.message = .error e ∧ checkTestMessages I m uuid ms = .error e) ∨
       ∃ a e, I.parse m msg.message = .ok a ∧ FailsWith uuid msg a e ∧ checkTestMessages I m uuid ms = .ok (.error (.testMessage e)))) := by
  induction ms with
  | nil => left; exact ⟨rfl, by simp⟩
  | cons msg ms ih =>
    unfold checkTestMessages
    cases hp : I.parse m msg.message with
    | error e => right; exact ⟨[], msg, ms, rfl, by simp, .inl ⟨e, hp, rfl⟩⟩
    | ok a =>
      cases a with
      | none => right; exact ⟨[], msg, ms, rfl, by simp, .inr ⟨none, _, hp, .noMatch, rfl⟩⟩
      | some r =>
        simp only
        unfold checkTestMessage
        by_cases hu : r.pattern.uuid = uuid
        · rw [if_pos hu]
          cases ht : msg.testResult r with
          | error e =>
            right
            exact ⟨[], msg, ms, rfl, by simp, .inr ⟨some r, e, hp, .rejected r e hu ((testResult_error msg r e).mp ht), rfl⟩⟩
          | ok u =>
            simp only
            have hpass : PassesIn I m uuid msg := ⟨some r, hp, r, rfl, hu, (testResult_ok msg r).mp ht⟩
            rcases ih with ⟨h1, h2⟩ | ⟨A, msg', B, h1, h2, h3⟩
            · left
              refine ⟨h1, ?_⟩
              intro x hx
              rcases List.mem_cons.mp hx with rfl | hx
              · exact hpass
              · exact h2 x hx
            · right
              refine ⟨msg :: A, msg', B, by rw [h1]; rfl, ?_, h3⟩
              intro x hx
              rcases List.mem_cons.mp hx with rfl | hx
              · exact hpass
              · exact h2 x hx
        · rw [if_neg hu]
          right
          exact ⟨[], msg, ms, rfl, by simp, .inr ⟨some r, _, hp, .other r hu, rfl⟩⟩

theorem rejects_not {msg : TestMessage} {r : MatchResult} {e : TestError} (h : Rejects msg r e) : ¬ (TagsOk msg r ∧ ValuesOk msg r) := by
  rw [← testResult_ok, (testResult_error msg r e).mpr h]; simp

theorem fails_not_passes {uuid : Nat} {msg : TestMessage} {a : Option MatchResult} {e : TestError} (h : FailsWith uuid msg a e) :
    ¬ Passes uuid msg a := by
  rintro ⟨r, h1, h2, h3⟩
  cases h with
  | noMatch => simp at h1
  | other r' hne => simp at h1; subst h1; exact hne h2
  | rejected r' e hu hr => simp at h1; subst h1; exact rejects_not hr h3

theorem passes_or_fails (uuid : Nat) (msg : TestMessage) (a : Option MatchResult) : Passes uuid msg a ∨ ∃ e, FailsWith uuid msg a e := by
  cases a with
  | none => exact .inr ⟨_, .noMatch⟩
  | some r =>
    by_cases hu : r.pattern.uuid = uuid
    · cases ht : msg.testResult r with
      | ok u => exact .inl ⟨r, rfl, hu, (testResult_ok msg r).mp ht⟩
      | error e => exact .inr ⟨e, .rejected r e hu ((testResult_error msg r e).mp ht)⟩
    · exact .inr ⟨_, .other r hu⟩

theorem fails_unique {uuid : Nat} {msg : TestMessage} {a : Option MatchResult} {e e' : TestError} (h : FailsWith uuid msg a e)
    (h' : FailsWith uuid msg a e') : e = e' := by
  cases h with
  | noMatch => cases h'; rfl
  | other r hne => cases h' with
    | other => rfl
    | rejected _ _ hu => exact absurd hu hne
  | rejected r e hu hr => cases h' with
    | other _ hne => exact absurd hu hne
    | rejected _ _ _ hr' =>
      have := ((testResult_error msg r e).mpr hr).symm.trans ((testResult_error msg r e').mpr hr')
      simpa using this

theorem checkPattern_ok (I : MatcherImpl T) (m : T) (p : Pattern) :
    checkPattern I m (.ok p) = (match I.addPattern m (loaded p) with
      | .error e => .error e
      | .ok m => match checkTestMessages I m p.uuid (testsOf p).reverse with
        | .error e => .error e
        | .ok r => .ok (m, r)) := by
  unfold checkPattern
  simp only [extract_eq]
  rfl

/-! ### Building a matcher -/

/-- `Validated`, but starting with the matcher `m0`. -/
def ValidFrom (I : MatcherImpl T) (m0 : T) (ps : List Pattern) (m : T) : Prop :=
  (ps.map loaded).foldlM I.addPattern m0 = .ok m ∧
  ∀ pre p post, ps = pre ++ p :: post →
    ∃ m1, ((pre ++ [p]).map loaded).foldlM I.addPattern m0 = .ok m1 ∧ ∀ msg ∈ testsOf p, PassesIn I m1 p.uuid msg

theorem validFrom_nil (I : MatcherImpl T) (m0 m : T) : ValidFrom I m0 [] m ↔ m = m0 := by
  unfold ValidFrom
  simp [pure, Except.pure, eq_comm]

theorem validFrom_cons (I : MatcherImpl T) (m0 : T) (p : Pattern) (ps : List Pattern) (m : T) :
    ValidFrom I m0 (p :: ps) m ↔
      ∃ m1, I.addPattern m0 (loaded p) = .ok m1 ∧ (∀ msg ∈ testsOf p, PassesIn I m1 p.uuid msg) ∧ ValidFrom I m1 ps m := by
  unfold ValidFrom
  cases ha : I.addPattern m0 (loaded p) with
  | error e =>
    simp [ha, bind, Except.bind]
  | ok m1 =>
    constructor
    · rintro ⟨h1, h2⟩
      simp [ha, bind, Except.bind] at h1
      refine ⟨m1, rfl, ?_, h1, ?_⟩
      · obtain ⟨m2, h3, h4⟩ := h2 [] p ps rfl
        simp [ha, bind, Except.bind, pure, Except.pure] at h3
        subst h3; exact h4
      · intro pre q post e
        obtain ⟨m2, h3, h4⟩ := h2 (p :: pre) q post (by rw [e]; rfl)
        rw [List.cons_append, List.map_cons, List.foldlM_cons, ha] at h3
        exact ⟨m2, h3, h4⟩
    · rintro ⟨m1', hm, h1, h2, h3⟩
      simp at hm; subst hm
      refine ⟨by simpa [ha, bind, Except.bind] using h2, ?_⟩
      intro pre q post e
      cases pre with
      | nil =>
        simp at e
        obtain ⟨rfl, rfl⟩ := e
        exact ⟨m1, by simp [ha, bind, Except.bind, pure, Except.pure], h1⟩
      | cons x pre =>
        simp at e
        obtain ⟨rfl, rfl⟩ := e
        obtain ⟨m2, h4, h5⟩ := h3 pre q post rfl
        exact ⟨m2, by simpa [ha, bind, Except.bind] using h4, h5⟩

theorem last_split {α : Type} {Q : α → Prop} {A B A' B' : List α} {x x' : α} (h : A ++ x :: B = A' ++ x' :: B') (hB : ∀ y ∈ B, Q y)
    (hB' : ∀ y ∈ B', Q y) (hx : ¬ Q x) (hx' : ¬ Q x') : x = x' ∧ B = B' := by
  have h2 := congrArg List.reverse h
  simp only [List.reverse_append, List.reverse_cons, List.append_assoc, List.singleton_append] at h2
  have key : ∀ {C C' D D' : List α}, C ++ x :: D = C' ++ x' :: D' → (∀ y ∈ C, Q y) → (∀ y ∈ C', Q y) → x = x' ∧ C = C' := by
    intro C
    induction C with
    | nil =>
      intro C' D D' e h1 h2
      cases C' with
      | nil => simp at e; exact ⟨e.1, rfl⟩
      | cons y C' => simp at e; exact absurd (h2 x (by rw [e.1]; simp)) hx
    | cons y C ih =>
      intro C' D D' e h1 h2
      cases C' with
      | nil => simp at e; exact absurd (h1 x' (by rw [e.1]; simp)) hx'
      | cons z C' =>
        simp at e
        obtain ⟨h3, h4⟩ := ih e.2 (fun y hy => h1 y (by simp [hy])) (fun y hy => h2 y (by simp [hy]))
        exact ⟨h3, by rw [e.1, h4]⟩
  obtain ⟨h3, h4⟩ := key h2 (by simpa using hB) (by simpa using hB')
  exact ⟨h3, by simpa using h4⟩

/-- What `check_pattern` does with an item. -/
theorem checkPattern_spec (I : MatcherImpl T) (m : T) (x : BuildResult) :
    (∃ p m1, x = .ok p ∧ I.addPattern m (loaded p) = .ok m1 ∧ (∀ msg ∈ testsOf p, PassesIn I m1 p.uuid msg) ∧ checkPattern I m x = .ok (m1, .ok ())) ∨
    (∃ e m1, Problem I m x e ∧ checkPattern I m x = .ok (m1, .error e)) ∨
    (∃ p e, x = .ok p ∧ Panics I m p e ∧ checkPattern I m x = .error e) := by
  cases x with
  | error e => exact .inr (.inl ⟨e, m, .item e, rfl⟩)
  | ok p =>
    rw [checkPattern_ok]
    cases ha : I.addPattern m (loaded p) with
    | error e => exact .inr (.inr ⟨p, e, rfl, .add e ha, rfl⟩)
    | ok m1 =>
      simp only
      rcases checkTestMessages_spec I m1 p.uuid (testsOf p).reverse with ⟨h1, h2⟩ | ⟨A, msg, B, h1, h2, ⟨e, h3, h4⟩ | ⟨a, e, h3, h4, h5⟩⟩
      · rw [h1]; exact .inl ⟨p, m1, rfl, ha, by simpa using h2, rfl⟩
      · have h1' : testsOf p = B.reverse ++ msg :: A.reverse := by
          have := congrArg List.reverse h1; simpa using this
        rw [h4]
        exact .inr (.inr ⟨p, e, rfl, .message m1 _ _ msg e ha h1' (by simpa using h2) h3, rfl⟩)
      · have h1' : testsOf p = B.reverse ++ msg :: A.reverse := by
          have := congrArg List.reverse h1; simpa using this
        rw [h5]
        exact .inr (.inl ⟨.testMessage e, m1, .message p m1 _ _ msg a e ha h1' (by simpa using h2) h3 h4, rfl⟩)

theorem passesIn_not_fail {I : MatcherImpl T} {m : T} {uuid : Nat} {msg : TestMessage} {a : Option MatchResult} {e : TestError}
    (h : I.parse m msg.message = .ok a) (h' : FailsWith uuid msg a e) : ¬ PassesIn I m uuid msg := by
  rintro ⟨b, h1, h2⟩
  rw [h] at h1; simp at h1; subst h1
  exact fails_not_passes h' h2

theorem passesIn_not_panic {I : MatcherImpl T} {m : T} {uuid : Nat} {msg : TestMessage} {e : Panic}
    (h : I.parse m msg.message = .error e) : ¬ PassesIn I m uuid msg := by
  rintro ⟨b, h1, h2⟩
  rw [h] at h1; simp at h1

theorem problem_not_pass {I : MatcherImpl T} {m m1 : T} {p : Pattern} {e : BuildError} (h : Problem I m (.ok p) e)
    (ha : I.addPattern m (loaded p) = .ok m1) : ¬ ∀ msg ∈ testsOf p, PassesIn I m1 p.uuid msg := by
  cases h with
  | message p m1' A B msg a e h1 h2 h3 h4 h5 =>
    rw [ha] at h1; simp at h1; subst h1
    intro h
    exact passesIn_not_fail h4 h5 (h msg (by rw [h2]; simp))

theorem panics_not_pass {I : MatcherImpl T} {m m1 : T} {p : Pattern} {e : Panic} (h : Panics I m p e)
    (ha : I.addPattern m (loaded p) = .ok m1) : ¬ ∀ msg ∈ testsOf p, PassesIn I m1 p.uuid msg := by
  cases h with
  | add e h => rw [ha] at h; simp at h
  | message m1' A B msg e h1 h2 h3 h4 =>
    rw [ha] at h1; simp at h1; subst h1
    intro h
    exact passesIn_not_panic h4 (h msg (by rw [h2]; simp))

theorem problem_unique {I : MatcherImpl T} {m : T} {x : BuildResult} {e e' : BuildError} (h : Problem I m x e) (h' : Problem I m x e') :
    e = e' := by
  cases h with
  | item => cases h'; rfl
  | message p m1 A B msg a e h1 h2 h3 h4 h5 =>
    cases h' with
    | message _ m1' A' B' msg' a' e' h1' h2' h3' h4' h5' =>
      rw [h1] at h1'; simp at h1'; subst h1'
      obtain ⟨rfl, rfl⟩ := last_split (h2.symm.trans h2') h3 h3' (passesIn_not_fail h4 h5) (passesIn_not_fail h4' h5')
      rw [h4] at h4'; simp at h4'; subst h4'
      rw [fails_unique h5 h5']

theorem panics_unique {I : MatcherImpl T} {m : T} {p : Pattern} {e e' : Panic} (h : Panics I m p e) (h' : Panics I m p e') : e = e' := by
  cases h with
  | add e h1 => cases h' with
    | add _ h1' => rw [h1] at h1'; simpa using h1'
    | message _ _ _ _ _ h1' => rw [h1] at h1'; simp at h1'
  | message m1 A B msg e h1 h2 h3 h4 => cases h' with
    | add _ h1' => rw [h1] at h1'; simp at h1'
    | message m1' A' B' msg' e' h1' h2' h3' h4' =>
      rw [h1] at h1'; simp at h1'; subst h1'
      obtain ⟨rfl, rfl⟩ := last_split (h2.symm.trans h2') h3 h3' (passesIn_not_panic h4) (passesIn_not_panic h4')
      rw [h4] at h4'; simpa using h4'

theorem problem_not_panics {I : MatcherImpl T} {m : T} {p : Pattern} {e : BuildError} {e' : Panic} (h : Problem I m (.ok p) e) :
    ¬ Panics I m p e' := by
  cases h with
  | message p m1 A B msg a e h1 h2 h3 h4 h5 =>
    intro h'
    cases h' with
    | add _ h1' => rw [h1] at h1'; simp at h1'
    | message m1' A' B' msg' e' h1' h2' h3' h4' =>
      rw [h1] at h1'; simp at h1'; subst h1'
      obtain ⟨rfl, rfl⟩ := last_split (h2.symm.trans h2') h3 h3' (passesIn_not_fail h4 h5) (passesIn_not_panic h4')
      rw [h4] at h4'; simp at h4'

/-- The three things `from_source` can do. -/
theorem fromSourceLoop_cases (I : MatcherImpl T) (items : List BuildResult) : ∀ m0 : T,
    (∃ ps m, items = ps.map .ok ∧ ValidFrom I m0 ps m ∧ fromSourceLoop I m0 items = .ok (.ok m, [])) ∨
    (∃ ps bad rest m e, items = ps.map .ok ++ bad :: rest ∧ ValidFrom I m0 ps m ∧ Problem I m bad e ∧
      fromSourceLoop I m0 items = .ok (.error e, rest)) ∨
    (∃ ps p rest m e, items = ps.map .ok ++ .ok p :: rest ∧ ValidFrom I m0 ps m ∧ Panics I m p e ∧ fromSourceLoop I m0 items = .error e) := by
  induction items with
  | nil => intro m0; exact .inl ⟨[], m0, rfl, (validFrom_nil I m0 m0).mpr rfl, rfl⟩
  | cons x items ih =>
    intro m0
    unfold fromSourceLoop
    rcases checkPattern_spec I m0 x with ⟨p, m1, hx, ha, hp, hc⟩ | ⟨e, m1, hp, hc⟩ | ⟨p, e, hx, hp, hc⟩
    · rw [hc]
      simp only
      rcases ih m1 with ⟨ps, m, h1, h2, h3⟩ | ⟨ps, bad, rest, m, e, h1, h2, h3, h4⟩ | ⟨ps, q, rest, m, e, h1, h2, h3, h4⟩
      · exact .inl ⟨p :: ps, m, by rw [hx, h1]; rfl, (validFrom_cons I m0 p ps m).mpr ⟨m1, ha, hp, h2⟩, h3⟩
      · exact .inr (.inl ⟨p :: ps, bad, rest, m, e, by rw [hx, h1]; rfl, (validFrom_cons I m0 p ps m).mpr ⟨m1, ha, hp, h2⟩, h3, h4⟩)
      · exact .inr (.inr ⟨p :: ps, q, rest, m, e, by rw [hx, h1]; rfl, (validFrom_cons I m0 p ps m).mpr ⟨m1, ha, hp, h2⟩, h3, h4⟩)
    · rw [hc]
      exact .inr (.inl ⟨[], x, items, m0, e, rfl, (validFrom_nil I m0 m0).mpr rfl, hp, rfl⟩)
    · rw [hc]
      exact .inr (.inr ⟨[], p, items, m0, e, by rw [hx]; rfl, (validFrom_nil I m0 m0).mpr rfl, hp, rfl⟩)

/-- Going through validated patterns. -/
theorem fromSourceLoop_valid (I : MatcherImpl T) (ps : List Pattern) (tail : List BuildResult) : ∀ m0 m : T, ValidFrom I m0 ps m →
    fromSourceLoop I m0 (ps.map .ok ++ tail) = fromSourceLoop I m tail := by
  induction ps with
  | nil => intro m0 m h; rw [(validFrom_nil I m0 m).mp h]; rfl
  | cons p ps ih =>
    intro m0 m h
    obtain ⟨m1, ha, hp, hv⟩ := (validFrom_cons I m0 p ps m).mp h
    rw [List.map_cons, List.cons_append]
    rw [fromSourceLoop]
    rcases checkPattern_spec I m0 (.ok p) with ⟨q, m2, hx, ha', hp', hc⟩ | ⟨e, m2, hp', hc⟩ | ⟨q, e, hx, hp', hc⟩
    · simp at hx; subst hx
      rw [ha] at ha'; simp at ha'; subst ha'
      rw [hc]
      exact ih m1 m hv
    · exact absurd hp (problem_not_pass hp' ha)
    · simp at hx; subst hx
      exact absurd hp (panics_not_pass hp' ha)

theorem fromSourceLoop_problem {I : MatcherImpl T} {m : T} {x : BuildResult} {e : BuildError} (rest : List BuildResult) (h : Problem I m x e) :
    fromSourceLoop I m (x :: rest) = .ok (.error e, rest) := by
  unfold fromSourceLoop
  rcases checkPattern_spec I m x with ⟨p, m1, hx, ha, hp, hc⟩ | ⟨e', m1, hp, hc⟩ | ⟨p, e', hx, hp, hc⟩
  · subst hx; exact absurd hp (problem_not_pass h ha)
  · rw [hc, problem_unique h hp]
  · subst hx; exact absurd hp (problem_not_panics h)

theorem fromSourceLoop_panics {I : MatcherImpl T} {m : T} {p : Pattern} {e : Panic} (rest : List BuildResult) (h : Panics I m p e) :
    fromSourceLoop I m (.ok p :: rest) = .error e := by
  unfold fromSourceLoop
  rcases checkPattern_spec I m (.ok p) with ⟨q, m1, hx, ha, hp, hc⟩ | ⟨e', m1, hp, hc⟩ | ⟨q, e', hx, hp, hc⟩
  · simp at hx; subst hx; exact absurd hp (panics_not_pass h ha)
  · exact absurd h (problem_not_panics hp)
  · simp at hx; subst hx; rw [hc, panics_unique h hp]

theorem fromSource_ok (I : MatcherImpl T) (items : List BuildResult) (m : T) (rest : List BuildResult) :
    fromSource I items = .ok (.ok m, rest) ↔ rest = [] ∧ ∃ ps, items = ps.map .ok ∧ Validated I ps m := by
  constructor
  · intro h
    unfold fromSource at h
    rcases fromSourceLoop_cases I items I.new with ⟨ps, m', h1, h2, h3⟩ | ⟨ps, bad, rest', m', e, h1, h2, h3, h4⟩ | ⟨ps, q, rest', m', e, h1, h2, h3, h4⟩
    · rw [h3] at h; simp at h
      obtain ⟨rfl, rfl⟩ := h
      exact ⟨rfl, ps, h1, h2⟩
    · rw [h4] at h; simp at h
    · rw [h4] at h; simp at h
  · rintro ⟨rfl, ps, rfl, h⟩
    have := fromSourceLoop_valid I ps [] I.new m h
    rw [List.append_nil] at this
    unfold fromSource
    rw [this]; rfl

theorem fromSource_error (I : MatcherImpl T) (items : List BuildResult) (e : BuildError) (rest : List BuildResult) :
    fromSource I items = .ok (.error e, rest) ↔ ∃ ps bad m, items = ps.map .ok ++ bad :: rest ∧ Validated I ps m ∧ Problem I m bad e := by
  constructor
  · intro h
    unfold fromSource at h
    rcases fromSourceLoop_cases I items I.new with ⟨ps, m', h1, h2, h3⟩ | ⟨ps, bad, rest', m', e', h1, h2, h3, h4⟩ | ⟨ps, q, rest', m', e', h1, h2, h3, h4⟩
    · rw [h3] at h; simp at h
    · rw [h4] at h; simp at h
      obtain ⟨rfl, rfl⟩ := h
      exact ⟨ps, bad, m', h1, h2, h3⟩
    · rw [h4] at h; simp at h
  · rintro ⟨ps, bad, m, rfl, h1, h2⟩
    unfold fromSource
    rw [fromSourceLoop_valid I ps _ I.new m h1, fromSourceLoop_problem rest h2]

theorem fromSource_panic (I : MatcherImpl T) (items : List BuildResult) (e : Panic) :
    fromSource I items = .error e ↔ ∃ ps p rest m, items = ps.map .ok ++ .ok p :: rest ∧ Validated I ps m ∧ Panics I m p e := by
  constructor
  · intro h
    unfold fromSource at h
    rcases fromSourceLoop_cases I items I.new with ⟨ps, m', h1, h2, h3⟩ | ⟨ps, bad, rest', m', e', h1, h2, h3, h4⟩ | ⟨ps, q, rest', m', e', h1, h2, h3, h4⟩
    · rw [h3] at h; simp at h
    · rw [h4] at h; simp at h
    · rw [h4] at h; simp at h; subst h
      exact ⟨ps, q, rest', m', h1, h2, h3⟩
  · rintro ⟨ps, p, rest, m, rfl, h1, h2⟩
    unfold fromSource
    rw [fromSourceLoop_valid I ps _ I.new m h1, fromSourceLoop_panics rest h2]

/-! ### Ignoring errors -/

/-- No step with these patterns panics, beginning with the matcher `m0`. -/
def NoPanicFrom (I : MatcherImpl T) (m0 : T) (ps : List Pattern) : Prop :=
  ∀ pre p post m1 e, ps = pre ++ p :: post → (pre.map loaded).foldlM I.addPattern m0 = .ok m1 → ¬ Panics I m1 p e

theorem noPanicFrom_cons (I : MatcherImpl T) (m0 m1 : T) (p : Pattern) (ps : List Pattern) (ha : I.addPattern m0 (loaded p) = .ok m1) :
    NoPanicFrom I m0 (p :: ps) ↔ (∀ e, ¬ Panics I m0 p e) ∧ NoPanicFrom I m1 ps := by
  constructor
  · intro h
    refine ⟨fun e => h [] p ps m0 e rfl rfl, ?_⟩
    intro pre q post m2 e he hb
    exact h (p :: pre) q post m2 e (by rw [he]; rfl) (by rw [List.map_cons, List.foldlM_cons, ha]; exact hb)
  · rintro ⟨h1, h2⟩ pre q post m2 e he hb
    cases pre with
    | nil =>
      simp at he; obtain ⟨rfl, rfl⟩ := he
      simp [pure, Except.pure] at hb; subst hb
      exact h1 e
    | cons x pre =>
      simp at he; obtain ⟨rfl, rfl⟩ := he
      rw [List.map_cons, List.foldlM_cons, ha] at hb
      exact h2 pre q post m2 e rfl hb

theorem checkPattern_problem_state {I : MatcherImpl T} {m m1 : T} {p : Pattern} {r : Except BuildError Unit}
    (h : checkPattern I m (.ok p) = .ok (m1, r)) : I.addPattern m (loaded p) = .ok m1 := by
  rw [checkPattern_ok] at h
  cases ha : I.addPattern m (loaded p) with
  | error e => rw [ha] at h; simp at h
  | ok m2 =>
    rw [ha] at h
    simp only at h
    cases hc : checkTestMessages I m2 p.uuid (testsOf p).reverse with
    | error e => rw [hc] at h; simp at h
    | ok r => rw [hc] at h; simp at h; rw [h.1]

theorem ignoreLoop (I : MatcherImpl T) (items : List BuildResult) (m : T) : ∀ m0 : T,
    fromSourceIgnoreErrorsLoop I m0 items = .ok m ↔
      ((delivered items).map loaded).foldlM I.addPattern m0 = .ok m ∧ NoPanicFrom I m0 (delivered items) := by
  induction items with
  | nil =>
    intro m0
    simp only [fromSourceIgnoreErrorsLoop, delivered, List.filterMap_nil, List.map_nil, List.foldlM_nil]
    refine ⟨fun h => ⟨h, ?_⟩, fun h => h.1⟩
    intro pre p post m1 e he
    simp at he
  | cons x items ih =>
    intro m0
    cases x with
    | error e =>
      have : delivered (.error e :: items) = delivered items := by simp [delivered]
      rw [this, fromSourceIgnoreErrorsLoop]
      exact ih m0
    | ok p =>
      have hd : delivered (.ok p :: items) = p :: delivered items := by simp [delivered]
      rw [hd, fromSourceIgnoreErrorsLoop, List.map_cons, List.foldlM_cons]
      cases hc : checkPattern I m0 (.ok p) with
      | error e =>
        simp only
        constructor
        · intro h; simp at h
        · rintro ⟨_, h⟩
          rcases checkPattern_spec I m0 (.ok p) with ⟨q, m1, hx, ha, hp, hc'⟩ | ⟨e', m1, hp, hc'⟩ | ⟨q, e', hx, hp, hc'⟩
          · rw [hc] at hc'; simp at hc'
          · rw [hc] at hc'; simp at hc'
          · simp at hx; subst hx
            exact absurd hp (h [] p _ m0 e' rfl rfl)
      | ok mr =>
        obtain ⟨m1, r⟩ := mr
        have ha := checkPattern_problem_state hc
        simp only
        rw [ha, ih m1, noPanicFrom_cons I m0 m1 p _ ha]
        have hnp : ∀ e, ¬ Panics I m0 p e := by
          intro e he
          rcases checkPattern_spec I m0 (.ok p) with ⟨q, m2, hx, ha', hp, hc'⟩ | ⟨e', m2, hp, hc'⟩ | ⟨q, e', hx, hp, hc'⟩
          · simp at hx; subst hx; exact panics_not_pass he ha' hp
          · exact problem_not_panics hp he
          · rw [hc] at hc'; simp at hc'
        exact ⟨fun h => ⟨h.1, hnp, h.2⟩, fun h => ⟨h.1, h.2.2⟩⟩

theorem noPanicFrom_nil (I : MatcherImpl T) (m0 : T) : NoPanicFrom I m0 [] := by
  intro pre p post m1 e he
  simp at he

theorem ignoreLoop_panic (I : MatcherImpl T) (items : List BuildResult) (e : Panic) : ∀ m0 : T,
    fromSourceIgnoreErrorsLoop I m0 items = .error e ↔
      ∃ pre p post m, delivered items = pre ++ p :: post ∧ (pre.map loaded).foldlM I.addPattern m0 = .ok m ∧ NoPanicFrom I m0 pre ∧
        Panics I m p e := by
  induction items with
  | nil =>
    intro m0
    simp [fromSourceIgnoreErrorsLoop, delivered]
  | cons x items ih =>
    intro m0
    cases x with
    | error e' =>
      have : delivered (.error e' :: items) = delivered items := by simp [delivered]
      rw [this, fromSourceIgnoreErrorsLoop]
      exact ih m0
    | ok p =>
      have hd : delivered (.ok p :: items) = p :: delivered items := by simp [delivered]
      rw [hd, fromSourceIgnoreErrorsLoop]
      cases hc : checkPattern I m0 (.ok p) with
      | error e' =>
        have hp : Panics I m0 p e' := by
          rcases checkPattern_spec I m0 (.ok p) with ⟨q, m1, hx, ha, hp, hc'⟩ | ⟨e'', m1, hp, hc'⟩ | ⟨q, e'', hx, hp, hc'⟩
          · rw [hc] at hc'; simp at hc'
          · rw [hc] at hc'; simp at hc'
          · rw [hc] at hc'; simp at hc' hx; subst hx; subst hc'; exact hp
        simp only
        constructor
        · intro h
          simp at h; subst h
          exact ⟨[], p, _, m0, rfl, rfl, noPanicFrom_nil I m0, hp⟩
        · rintro ⟨pre, q, post, m, he, hb, hn, hq⟩
          cases pre with
          | nil =>
            simp at he; obtain ⟨rfl, rfl⟩ := he
            simp [pure, Except.pure] at hb; subst hb
            rw [panics_unique hp hq]
          | cons y pre =>
            simp at he; obtain ⟨rfl, _⟩ := he
            exact absurd hp (hn [] p pre m0 e' rfl rfl)
      | ok mr =>
        obtain ⟨m1, r⟩ := mr
        have ha := checkPattern_problem_state hc
        have hnp : ∀ e, ¬ Panics I m0 p e := by
          intro e he
          rcases checkPattern_spec I m0 (.ok p) with ⟨q, m2, hx, ha', hp, hc'⟩ | ⟨e', m2, hp, hc'⟩ | ⟨q, e', hx, hp, hc'⟩
          · simp at hx; subst hx; exact panics_not_pass he ha' hp
          · exact problem_not_panics hp he
          · rw [hc] at hc'; simp at hc'
        simp only
        rw [ih m1]
        constructor
        · rintro ⟨pre, q, post, m, he, hb, hn, hq⟩
          refine ⟨p :: pre, q, post, m, by rw [he]; rfl, ?_, (noPanicFrom_cons I m0 m1 p pre ha).mpr ⟨hnp, hn⟩, hq⟩
          rw [List.map_cons, List.foldlM_cons, ha]; exact hb
        · rintro ⟨pre, q, post, m, he, hb, hn, hq⟩
          cases pre with
          | nil =>
            simp at he; obtain ⟨rfl, rfl⟩ := he
            simp [pure, Except.pure] at hb; subst hb
            exact absurd hq (hnp e)
          | cons y pre =>
            simp at he; obtain ⟨rfl, he⟩ := he
            rw [List.map_cons, List.foldlM_cons, ha] at hb
            exact ⟨pre, q, post, m, he, hb, ((noPanicFrom_cons I m0 m1 p pre ha).mp hn).2, hq⟩

end Verif
