import Verif.Spec.Documents
import Verif.Proofs.Loader
/-! Proofs about the deserializers. -/
namespace Verif
open Spec

variable (d : Deps)

theorem deserAll_ok {α : Type} (f : Val → Except DeError α) (R : Val → α → Prop) (hR : ∀ v x, f v = .ok x ↔ R v x) :
    ∀ (l : List Val) (xs : List α), deserAll f l = .ok xs ↔ Each R l xs := by
  intro l
  induction l with
  | nil =>
    intro xs
    simp only [deserAll, Except.ok.injEq]
    constructor
    · rintro rfl; exact .nil
    · intro h; cases h; rfl
  | cons v l ih =>
    intro xs
    simp only [deserAll, bind, Except.bind]
    constructor
    · intro h
      cases h1 : f v with
      | error e => rw [h1] at h; simp at h
      | ok a =>
        rw [h1] at h; simp only at h
        cases h2 : deserAll f l with
        | error e => rw [h2] at h; simp at h
        | ok as =>
          rw [h2] at h; simp at h; subst h
          exact .cons _ _ _ _ ((hR _ _).mp h1) ((ih _).mp h2)
    · intro h
      cases h with
      | cons _ b _ bs h1 h2 => rw [(hR _ _).mpr h1, (ih _).mpr h2]

theorem deserVec_ok {α : Type} (f : Val → Except DeError α) (R : Val → α → Prop) (hR : ∀ v x, f v = .ok x ↔ R v x) (v : Val) (xs : List α) :
    deserVec d f v = .ok xs ↔ IsList d R v xs := by
  unfold deserVec IsList
  simp only [bind, Except.bind]
  cases h : d.seq v with
  | error e => simp
  | ok l => simp [deserAll_ok f R hR]

theorem deserMapLoop_ok : ∀ (l : List (Val × Val)) (m m' : BMap),
    deserMapLoop d l m = .ok m' ↔ ∃ kvs : BMap, Each (fun e kv => IsString d e.1 kv.1 ∧ IsString d e.2 kv.2) l kvs ∧
      m' = kvs.foldl (fun m kv => m.insert kv.1 kv.2) m := by
  intro l
  induction l with
  | nil =>
    intro m m'
    simp only [deserMapLoop, Except.ok.injEq]
    constructor
    · rintro rfl; exact ⟨[], .nil, rfl⟩
    · rintro ⟨kvs, h, rfl⟩; cases h; rfl
  | cons e l ih =>
    intro m m'
    obtain ⟨k, v⟩ := e
    simp only [deserMapLoop, bind, Except.bind]
    constructor
    · intro h
      cases h1 : d.string k with
      | error e => rw [h1] at h; simp at h
      | ok k' =>
        rw [h1] at h; simp only at h
        cases h2 : d.string v with
        | error e => rw [h2] at h; simp at h
        | ok v' =>
          rw [h2] at h; simp only at h
          obtain ⟨kvs, h3, h4⟩ := (ih _ _).mp h
          exact ⟨(k', v') :: kvs, .cons _ _ _ _ ⟨h1, h2⟩ h3, h4⟩
    · rintro ⟨kvs, h, rfl⟩
      cases h with
      | cons _ kv _ kvs h1 h2 =>
        obtain ⟨k', v'⟩ := kv
        have e1 : d.string k = .ok k' := h1.1
        have e2 : d.string v = .ok v' := h1.2
        rw [e1, e2]
        exact (ih _ _).mpr ⟨kvs, h2, rfl⟩

theorem deserMap_ok (v : Val) (m : BMap) : deserMap d v = .ok m ↔ IsMap d v m := by
  unfold deserMap IsMap
  simp only [bind, Except.bind]
  have hnil : OrderedMap ([] : BMap) := List.Pairwise.nil
  cases h : d.entries v with
  | error e => simp
  | ok l =>
    simp only [Except.ok.injEq]
    rw [deserMapLoop_ok]
    constructor
    · rintro ⟨kvs, h1, rfl⟩
      refine ⟨l, kvs, rfl, h1, (foldl_insert hnil).1, ?_⟩
      intro k x
      rw [mem_iff_get (foldl_insert hnil).1, (foldl_insert hnil).2]
      simp [BMap.get?]
    · rintro ⟨l', kvs, rfl, h1, h2, h3⟩
      refine ⟨kvs, h1, orderedMap_ext h2 (foldl_insert hnil).1 ?_⟩
      intro k
      rw [(foldl_insert hnil).2]
      refine Option.ext fun x => ?_
      rw [← mem_iff_get h2, h3]
      simp [BMap.get?]

/-! ### The first thing that is wrong -/

theorem firstWrong_nil {α ε : Type} {right : α → Prop} {wrong : α → ε → Prop} {e : ε} : ¬ FirstWrong right wrong [] e := by
  rintro ⟨A, x, B, h, _⟩
  simp at h

theorem firstWrong_right {α ε : Type} {right : α → Prop} {wrong : α → ε → Prop} {x : α} {l : List α} {e : ε} (hx : right x)
    (hn : ∀ e, ¬ wrong x e) : FirstWrong right wrong (x :: l) e ↔ FirstWrong right wrong l e := by
  constructor
  · rintro ⟨A, y, B, h, hA, hw⟩
    cases A with
    | nil => simp at h; obtain ⟨rfl, rfl⟩ := h; exact absurd hw (hn e)
    | cons a A => simp at h; exact ⟨A, y, B, h.2, fun a ha => hA a (by simp [ha]), hw⟩
  · rintro ⟨A, y, B, rfl, hA, hw⟩
    refine ⟨x :: A, y, B, rfl, ?_, hw⟩
    intro a ha
    rcases List.mem_cons.mp ha with rfl | ha
    · exact hx
    · exact hA a ha

theorem firstWrong_wrong {α ε : Type} {right : α → Prop} {wrong : α → ε → Prop} {x : α} {l : List α} {e : ε} (hx : ¬ right x) :
    FirstWrong right wrong (x :: l) e ↔ wrong x e := by
  constructor
  · rintro ⟨A, y, B, h, hA, hw⟩
    cases A with
    | nil => simp at h; obtain ⟨rfl, rfl⟩ := h; exact hw
    | cons a A => simp at h; exact absurd (hA x (by rw [h.1]; simp)) hx
  · intro hw; exact ⟨[], x, l, rfl, by simp, hw⟩

theorem firstWrong_not_right {α ε : Type} {right : α → Prop} {wrong : α → ε → Prop} {l : List α} {e : ε}
    (hn : ∀ x e, wrong x e → ¬ right x) (h : FirstWrong right wrong l e) : ¬ ∀ x ∈ l, right x := by
  obtain ⟨A, x, B, rfl, _, hw⟩ := h
  intro hr
  exact hn x e hw (hr x (by simp))

theorem deserAll_error {α : Type} (f : Val → Except DeError α) (right : Val → Prop) (wrong : Val → DeError → Prop)
    (hr : ∀ v, (∃ x, f v = .ok x) ↔ right v) (hw : ∀ v e, f v = .error e ↔ wrong v e) (l : List Val) (e : DeError) :
    deserAll f l = .error e ↔ FirstWrong right wrong l e := by
  induction l with
  | nil => simp [deserAll, firstWrong_nil]
  | cons v l ih =>
    simp only [deserAll, bind, Except.bind]
    cases h1 : f v with
    | error e' =>
      rw [firstWrong_wrong (by rw [← hr, h1]; simp), ← hw, h1]
      simp
    | ok x =>
      rw [firstWrong_right ((hr v).mp ⟨x, h1⟩) (by intro e; rw [← hw, h1]; simp), ← ih]
      cases deserAll f l <;> simp

theorem deserVec_error {α : Type} (f : Val → Except DeError α) (right : Val → Prop) (wrong : Val → DeError → Prop)
    (hr : ∀ v, (∃ x, f v = .ok x) ↔ right v) (hw : ∀ v e, f v = .error e ↔ wrong v e) (v : Val) (e : DeError) :
    deserVec d f v = .error e ↔ ListError d right wrong v e := by
  unfold deserVec ListError
  simp only [bind, Except.bind]
  cases h : d.seq v with
  | error e' => simp
  | ok l => simp [deserAll_error f right wrong hr hw]

theorem strings_error (v : Val) (e : DeError) : deserVec d d.string v = .error e ↔ StringsError d v e :=
  deserVec_error d _ _ _ (fun _ => Iff.rfl) (fun _ _ => Iff.rfl) v e

theorem deserMapLoop_error (l : List (Val × Val)) (e : DeError) : ∀ m, deserMapLoop d l m = .error e ↔
    FirstWrong (fun x => (∃ s, IsString d x.1 s) ∧ ∃ s, IsString d x.2 s)
      (fun x e => d.string x.1 = .error e ∨ (∃ s, IsString d x.1 s) ∧ d.string x.2 = .error e) l e := by
  induction l with
  | nil => intro m; simp [deserMapLoop, firstWrong_nil]
  | cons x l ih =>
    intro m
    obtain ⟨k, v⟩ := x
    simp only [deserMapLoop, bind, Except.bind]
    cases h1 : d.string k with
    | error e' =>
      rw [firstWrong_wrong (by simp [IsString, h1])]
      simp [IsString, h1]
    | ok k' =>
      cases h2 : d.string v with
      | error e' =>
        rw [firstWrong_wrong (by simp [IsString, h2])]
        simp [IsString, h1, h2]
      | ok v' =>
        rw [firstWrong_right ⟨⟨k', h1⟩, v', h2⟩ (by simp [h1, h2])]
        exact ih _

theorem deserMap_error (v : Val) (e : DeError) : deserMap d v = .error e ↔ MapError d v e := by
  unfold deserMap MapError
  simp only [bind, Except.bind]
  cases h : d.entries v with
  | error e' => simp
  | ok l => simp [deserMapLoop_error]

/-! ### Fields -/

/-- `Field`, if the variable for the field has the value `old` before the entries `l`. -/
def FieldFrom {α : Type} (l : List (Val × Val)) (k : Bytes) (R : Val → α → Prop) (old new : Option α) : Prop :=
  ((∀ e ∈ l, e.1 ≠ .str k) ∧ new = old) ∨ ∃ x, new = some x ∧ ∃ v, LastEntry l k v ∧ R v x

theorem fieldFrom_none {α : Type} (l : List (Val × Val)) (k : Bytes) (R : Val → α → Prop) (new : Option α) :
    FieldFrom l k R none new ↔ Field l k R new := by
  unfold FieldFrom Field
  cases new with
  | none => simp
  | some x => simp

theorem fieldFrom_nil {α : Type} (k : Bytes) (R : Val → α → Prop) (old new : Option α) : FieldFrom [] k R old new ↔ new = old := by
  unfold FieldFrom LastEntry
  simp

theorem lastEntry_cons_ne {l : List (Val × Val)} {k : Bytes} {e : Val × Val} (h : e.1 ≠ .str k) (v : Val) :
    LastEntry (e :: l) k v ↔ LastEntry l k v := by
  constructor
  · rintro ⟨A, B, e1, e2⟩
    cases A with
    | nil => simp at e1; rw [e1.1] at h; simp at h
    | cons x A => simp at e1; exact ⟨A, B, e1.2, e2⟩
  · rintro ⟨A, B, rfl, e2⟩
    exact ⟨e :: A, B, rfl, e2⟩

theorem lastEntry_cons_eq {l : List (Val × Val)} {k : Bytes} {w : Val} (v : Val) :
    LastEntry ((.str k, w) :: l) k v ↔ LastEntry l k v ∨ (v = w ∧ ∀ e ∈ l, e.1 ≠ .str k) := by
  constructor
  · rintro ⟨A, B, e1, e2⟩
    cases A with
    | nil => simp at e1; obtain ⟨rfl, rfl⟩ := e1; exact .inr ⟨rfl, e2⟩
    | cons x A => simp at e1; exact .inl ⟨A, B, e1.2, e2⟩
  · rintro (⟨A, B, rfl, e2⟩ | ⟨rfl, h⟩)
    · exact ⟨_ :: A, B, rfl, e2⟩
    · exact ⟨[], l, rfl, h⟩

theorem fieldFrom_ne {α : Type} {l : List (Val × Val)} {k : Bytes} {R : Val → α → Prop} {old new : Option α} {k' : Bytes} {w : Val} (h : k' ≠ k) :
    FieldFrom ((.str k', w) :: l) k R old new ↔ FieldFrom l k R old new := by
  have h' : Val.str k' ≠ Val.str k := by simpa using h
  unfold FieldFrom
  simp only [List.mem_cons, forall_eq_or_imp, lastEntry_cons_ne (e := (Val.str k', w)) h']
  simp [h]

theorem lastEntry_absent {l : List (Val × Val)} {k : Bytes} {v : Val} (h : LastEntry l k v) : ¬ ∀ e ∈ l, e.1 ≠ .str k := by
  obtain ⟨A, B, rfl, _⟩ := h
  intro h
  exact h (.str k, v) (by simp) rfl

theorem fieldFrom_eq {α : Type} {l : List (Val × Val)} {k : Bytes} {R : Val → α → Prop} {old new : Option α} {w : Val} {y : α}
    (hR : ∀ x, R w x ↔ x = y) : FieldFrom ((.str k, w) :: l) k R old new ↔ FieldFrom l k R (some y) new := by
  unfold FieldFrom
  simp only [List.mem_cons, forall_eq_or_imp, lastEntry_cons_eq]
  constructor
  · rintro (⟨h, _⟩ | ⟨x, rfl, v, h | ⟨rfl, h⟩, hr⟩)
    · exact absurd rfl h.1
    · exact .inr ⟨x, rfl, v, h, hr⟩
    · exact .inl ⟨h, by rw [(hR x).mp hr]⟩
  · rintro (⟨h, rfl⟩ | ⟨x, rfl, v, h, hr⟩)
    · exact .inr ⟨y, rfl, w, .inr ⟨rfl, h⟩, (hR y).mpr rfl⟩
    · exact .inr ⟨x, rfl, v, .inl h, hr⟩

theorem fun_of_iff {α : Type} {f : Val → Except DeError α} {R : Val → α → Prop} (hR : ∀ v x, f v = .ok x ↔ R v x) {w : Val} {y : α} (h : f w = .ok y) :
    ∀ x, R w x ↔ x = y := by
  intro x
  rw [← hR, h]
  simp [eq_comm]

/-! ### Test messages -/

def MsgEntryOk (k w : Val) : Prop :=
  (k = .str b!"message" ∧ ∃ s, IsString d w s) ∨ (k = .str b!"values" ∧ ∃ m, IsMap d w m) ∨ (k = .str b!"tags" ∧ ∃ ts, IsList d (IsString d) w ts)

theorem string_iff (v : Val) (s : Bytes) : d.string v = .ok s ↔ IsString d v s := Iff.rfl
theorem tags_iff (v : Val) (s : List Bytes) : deserVec d d.string v = .ok s ↔ IsList d (IsString d) v s := deserVec_ok d _ _ (string_iff d) v s

theorem msgLoop_ok : ∀ (l : List (Val × Val)) (vars vars' : MsgVars),
    msgLoop d l vars = .ok vars' ↔ (∀ k w, (k, w) ∈ l → MsgEntryOk d k w) ∧ FieldFrom l b!"message" (IsString d) vars.message vars'.message ∧
      FieldFrom l b!"values" (IsMap d) vars.values vars'.values ∧ FieldFrom l b!"tags" (IsList d (IsString d)) vars.tags vars'.tags := by
  intro l
  induction l with
  | nil =>
    intro vars vars'
    obtain ⟨a, b, c⟩ := vars
    obtain ⟨a', b', c'⟩ := vars'
    simp [msgLoop, fieldFrom_nil, eq_comm]
  | cons e l ih =>
    intro vars vars'
    obtain ⟨k, v⟩ := e
    have hcons : (∀ k' w, (k', w) ∈ (k, v) :: l → MsgEntryOk d k' w) ↔ MsgEntryOk d k v ∧ ∀ k' w, (k', w) ∈ l → MsgEntryOk d k' w := by
      simp only [List.mem_cons, Prod.mk.injEq]
      constructor
      · intro h; exact ⟨h k v (.inl ⟨rfl, rfl⟩), fun k' w hw => h k' w (.inr hw)⟩
      · rintro ⟨h1, h2⟩ k' w (⟨rfl, rfl⟩ | hw)
        · exact h1
        · exact h2 _ _ hw
    rw [hcons]
    simp only [msgLoop, bind, Except.bind]
    cases k with
    | str s =>
      simp only [msgField]
      by_cases h1 : s = b!"message"
      · subst h1
        simp only [↓reduceIte]
        have e1 : MsgEntryOk d (.str b!"message") v ↔ ∃ s, d.string v = .ok s := by simp [MsgEntryOk, IsString]
        rw [e1]
        cases hv : d.string v with
        | error e => simp
        | ok x =>
          simp only [Except.ok.injEq]
          rw [ih, fieldFrom_eq (fun_of_iff (string_iff d) hv), fieldFrom_ne (by decide), fieldFrom_ne (by decide)]
          simp
      · rw [if_neg h1]
        by_cases h2 : s = b!"values"
        · subst h2
          simp only [↓reduceIte]
          have e1 : MsgEntryOk d (.str b!"values") v ↔ ∃ s, deserMap d v = .ok s := by
            simp only [deserMap_ok]; simp [MsgEntryOk]
          rw [e1]
          cases hv : deserMap d v with
          | error e => simp
          | ok x =>
            simp only [Except.ok.injEq]
            rw [ih, fieldFrom_ne (by decide), fieldFrom_eq (fun_of_iff (deserMap_ok d) hv), fieldFrom_ne (by decide)]
            simp
        · rw [if_neg h2]
          by_cases h3 : s = b!"tags"
          · subst h3
            simp only [↓reduceIte]
            have e1 : MsgEntryOk d (.str b!"tags") v ↔ ∃ s, deserVec d d.string v = .ok s := by
              simp only [tags_iff]; simp [MsgEntryOk]
            rw [e1]
            cases hv : deserVec d d.string v with
            | error e => simp
            | ok x =>
              simp only [Except.ok.injEq]
              rw [ih, fieldFrom_ne (by decide), fieldFrom_ne (by decide), fieldFrom_eq (fun_of_iff (tags_iff d) hv)]
              simp
          · rw [if_neg h3]
            simp [MsgEntryOk, h1, h2, h3]
    | _ => simp [msgField, MsgEntryOk]

theorem deserTestMessage_ok (v : Val) (msg : TestMessage) : deserTestMessage d v = .ok msg ↔ IsMessage d v msg := by
  unfold deserTestMessage IsMessage
  cases v with
  | obj l =>
    simp only [structEntries, bind, Except.bind, Val.obj.injEq]
    constructor
    · intro h
      cases hl : msgLoop d l {} with
      | error e => rw [hl] at h; simp at h
      | ok vars =>
        rw [hl] at h; simp only at h
        obtain ⟨h1, h2, h3, h4⟩ := (msgLoop_ok d l {} vars).mp hl
        rw [fieldFrom_none] at h2 h3 h4
        cases hm : vars.message with
        | none => rw [hm] at h; simp at h
        | some s =>
          rw [hm] at h h2; simp at h; subst h
          exact ⟨l, rfl, h1, h2, h4, vars.values, h3, rfl⟩
    · rintro ⟨l', rfl, h1, h2, h3, values, h4, h5⟩
      have : msgLoop d l {} = .ok { message := some msg.message, values := values, tags := msg.tags } := by
        rw [msgLoop_ok]
        simp only [fieldFrom_none]
        exact ⟨h1, h2, h4, h3⟩
      rw [this]
      simp [← h5]
  | _ => simp [structEntries, bind, Except.bind]

/-- What is wrong with an entry of a test message. -/
theorem msgEntry_cases (k w : Val) :
    (MessageEntry d k w ∧ (∀ e, ¬ MessageEntryError d k w e) ∧ ∀ rest vars, ∃ vars', msgLoop d ((k, w) :: rest) vars = msgLoop d rest vars') ∨
    (¬ MessageEntry d k w ∧ ∃ e, (∀ e', MessageEntryError d k w e' ↔ e' = e) ∧ ∀ rest vars, msgLoop d ((k, w) :: rest) vars = .error e) := by
  cases k with
  | str s =>
    by_cases h1 : s = b!"message"
    · subst h1
      have he : ∀ e, MessageEntryError d (.str b!"message") w e ↔ d.string w = .error e := by
        intro e
        constructor
        · intro h; cases h with
          | key _ _ hk => exact absurd rfl (hk _)
          | unknown _ _ hs => simp at hs
          | message _ _ h => exact h
        · exact .message w e
      cases hv : d.string w with
      | ok x => left; exact ⟨.inl ⟨rfl, x, hv⟩, by simp [he, hv], fun rest vars => ⟨_, by simp [msgLoop, msgField, hv, bind, Except.bind]; rfl⟩⟩
      | error e =>
        right; exact ⟨by simp [MessageEntry, IsString, hv], e, by simp [he, hv, eq_comm], fun rest vars => by simp [msgLoop, msgField, hv, bind, Except.bind]⟩
    by_cases h2 : s = b!"values"
    · subst h2
      have he : ∀ e, MessageEntryError d (.str b!"values") w e ↔ deserMap d w = .error e := by
        intro e
        rw [deserMap_error]
        constructor
        · intro h; cases h with
          | key _ _ hk => exact absurd rfl (hk _)
          | unknown _ _ hs => simp at hs
          | values _ _ h => exact h
        · exact .values w e
      cases hv : deserMap d w with
      | ok x =>
        left
        exact ⟨.inr (.inl ⟨rfl, x, (deserMap_ok d _ _).mp hv⟩), by simp [he, hv], fun rest vars => ⟨_, by simp [msgLoop, msgField, hv, bind, Except.bind]; rfl⟩⟩
      | error e =>
        right
        exact ⟨by simp [MessageEntry, ← deserMap_ok, hv], e, by simp [he, hv, eq_comm], fun rest vars => by simp [msgLoop, msgField, hv, bind, Except.bind]⟩
    by_cases h3 : s = b!"tags"
    · subst h3
      have he : ∀ e, MessageEntryError d (.str b!"tags") w e ↔ deserVec d d.string w = .error e := by
        intro e
        rw [strings_error]
        constructor
        · intro h; cases h with
          | key _ _ hk => exact absurd rfl (hk _)
          | unknown _ _ hs => simp at hs
          | tags _ _ h => exact h
        · exact .tags w e
      cases hv : deserVec d d.string w with
      | ok x =>
        left
        exact ⟨.inr (.inr ⟨rfl, x, (tags_iff d _ _).mp hv⟩), by simp [he, hv], fun rest vars => ⟨_, by simp [msgLoop, msgField, hv, bind, Except.bind]; rfl⟩⟩
      | error e =>
        right
        exact ⟨by simp [MessageEntry, ← tags_iff, hv], e, by simp [he, hv, eq_comm], fun rest vars => by simp [msgLoop, msgField, hv, bind, Except.bind]⟩
    right
    refine ⟨by simp [MessageEntry, h1, h2, h3], _, ?_, fun rest vars => by simp [msgLoop, msgField, h1, h2, h3, bind, Except.bind]; rfl⟩
    intro e
    constructor
    · intro h; cases h with
      | key _ _ hk => exact absurd rfl (hk _)
      | unknown _ _ hs => rfl
      | message => exact absurd rfl h1
      | values => exact absurd rfl h2
      | tags => exact absurd rfl h3
    · rintro rfl; exact .unknown s w (by simp [h1, h2, h3])
  | _ =>
    right
    refine ⟨by simp [MessageEntry], _, ?_, fun rest vars => by simp [msgLoop, msgField, bind, Except.bind]; rfl⟩
    intro e
    constructor
    · intro h; cases h; rfl
    · rintro rfl; exact .key _ w (by simp)

theorem msgLoop_error (l : List (Val × Val)) (e : DeError) : ∀ vars, msgLoop d l vars = .error e ↔
    FirstWrong (fun x => MessageEntry d x.1 x.2) (fun x => MessageEntryError d x.1 x.2) l e := by
  induction l with
  | nil => intro vars; simp [msgLoop, firstWrong_nil]
  | cons x l ih =>
    intro vars
    obtain ⟨k, w⟩ := x
    rcases msgEntry_cases d k w with ⟨h1, h2, h3⟩ | ⟨h1, e', h2, h3⟩
    · obtain ⟨vars', h3⟩ := h3 l vars
      rw [h3, firstWrong_right (right := fun x : Val × Val => MessageEntry d x.1 x.2) (wrong := fun x => MessageEntryError d x.1 x.2) (x := (k, w)) h1 h2, ih]
    · rw [h3, firstWrong_wrong (right := fun x : Val × Val => MessageEntry d x.1 x.2) (wrong := fun x => MessageEntryError d x.1 x.2) (x := (k, w)) h1, h2]
      simp [eq_comm]

theorem deserTestMessage_error (v : Val) (e : DeError) : deserTestMessage d v = .error e ↔ MessageError d v e := by
  unfold deserTestMessage MessageError
  cases v with
  | obj l =>
    simp only [structEntries, bind, Except.bind, ne_eq, Val.obj.injEq, forall_eq', false_and, false_or, exists_eq_left']
    rw [← msgLoop_error d l e {}]
    cases hl : msgLoop d l {} with
    | error e' =>
      simp only [Except.error.injEq]
      constructor
      · exact .inl
      · rintro (h | ⟨h, _⟩)
        · exact h
        · exfalso
          obtain ⟨A, x, B, rfl, _, hw⟩ := (msgLoop_error d l e' {}).mp hl
          rcases msgEntry_cases d x.1 x.2 with ⟨_, h2, _⟩ | ⟨h1, _⟩
          · exact h2 _ hw
          · exact h1 (h x.1 x.2 (by simp))
    | ok vars =>
      obtain ⟨h1, h2, _, _⟩ := (msgLoop_ok d l {} vars).mp hl
      rw [fieldFrom_none] at h2
      have h1' : (∀ k w, (k, w) ∈ l → MessageEntry d k w) ↔ True := iff_true_intro h1
      simp only [h1', true_and, reduceCtorEq, false_or]
      cases hm : vars.message with
      | none =>
        rw [hm] at h2
        simp only [Except.error.injEq]
        constructor
        · rintro rfl; exact ⟨h2, rfl⟩
        · rintro ⟨_, rfl⟩; rfl
      | some s =>
        rw [hm] at h2
        simp only [reduceCtorEq, false_iff]
        rintro ⟨h3, _⟩
        obtain ⟨v, hv, _⟩ := h2
        exact lastEntry_absent hv h3
  | _ => simp [structEntries, bind, Except.bind, eq_comm]

/-! ### Patterns -/

theorem messages_error (v : Val) (e : DeError) : deserVec d (deserTestMessage d) v = .error e ↔
    ListError d (fun v => ∃ m, IsMessage d v m) (MessageError d) v e :=
  deserVec_error d _ _ _ (fun v => by simp [deserTestMessage_ok]) (deserTestMessage_error d) v e

theorem messages_iff (v : Val) (s : List TestMessage) : deserVec d (deserTestMessage d) v = .ok s ↔ IsList d (IsMessage d) v s :=
  deserVec_ok d _ _ (deserTestMessage_ok d) v s

theorem patLoop_ok : ∀ (l : List (Val × Val)) (vars vars' : PatVars),
    patLoop d l vars = .ok vars' ↔ (∀ k w, (k, w) ∈ l → PatternEntry d k w) ∧ FieldFrom l b!"name" (IsString d) vars.name vars'.name ∧
      FieldFrom l b!"uuid" (fun w u => d.uuid w = .ok u) vars.uuid vars'.uuid ∧
      FieldFrom l b!"pattern" (IsString d) vars.pattern vars'.pattern ∧
      FieldFrom l b!"values" (IsMap d) vars.values vars'.values ∧ FieldFrom l b!"tags" (IsList d (IsString d)) vars.tags vars'.tags ∧
      FieldFrom l b!"test_messages" (IsList d (IsMessage d)) vars.testMessages vars'.testMessages := by
  intro l
  induction l with
  | nil =>
    intro vars vars'
    obtain ⟨a, b, c, e, f, g⟩ := vars
    obtain ⟨a', b', c', e', f', g'⟩ := vars'
    simp [patLoop, fieldFrom_nil, eq_comm]
  | cons e l ih =>
    intro vars vars'
    obtain ⟨k, v⟩ := e
    have hcons : (∀ k' w, (k', w) ∈ (k, v) :: l → PatternEntry d k' w) ↔ PatternEntry d k v ∧ ∀ k' w, (k', w) ∈ l → PatternEntry d k' w := by
      simp only [List.mem_cons, Prod.mk.injEq]
      constructor
      · intro h; exact ⟨h k v (.inl ⟨rfl, rfl⟩), fun k' w hw => h k' w (.inr hw)⟩
      · rintro ⟨h1, h2⟩ k' w (⟨rfl, rfl⟩ | hw)
        · exact h1
        · exact h2 _ _ hw
    rw [hcons]
    simp only [patLoop, bind, Except.bind]
    cases k with
    | str s =>
      simp only [patField]
      by_cases h1 : s = b!"name"
      · subst h1
        simp only [↓reduceIte]
        have e1 : PatternEntry d (.str b!"name") v ↔ ∃ s, d.string v = .ok s := by simp [PatternEntry, IsString]
        rw [e1]
        cases hv : d.string v with
        | error e => simp
        | ok x =>
          simp only [Except.ok.injEq]
          rw [ih, fieldFrom_eq (fun_of_iff (string_iff d) hv), fieldFrom_ne (by decide), fieldFrom_ne (by decide), fieldFrom_ne (by decide),
            fieldFrom_ne (by decide), fieldFrom_ne (by decide)]
          simp
      rw [if_neg h1]
      by_cases h2 : s = b!"uuid"
      · subst h2
        simp only [↓reduceIte]
        have e1 : PatternEntry d (.str b!"uuid") v ↔ ∃ s, d.uuid v = .ok s := by simp [PatternEntry, IsString]
        rw [e1]
        cases hv : d.uuid v with
        | error e => simp
        | ok x =>
          simp only [Except.ok.injEq]
          rw [ih, fieldFrom_ne (by decide), fieldFrom_eq (fun_of_iff (f := d.uuid) (fun _ _ => Iff.rfl) hv), fieldFrom_ne (by decide), fieldFrom_ne (by decide),
            fieldFrom_ne (by decide), fieldFrom_ne (by decide)]
          simp
      rw [if_neg h2]
      by_cases h3 : s = b!"pattern"
      · subst h3
        simp only [↓reduceIte]
        have e1 : PatternEntry d (.str b!"pattern") v ↔ ∃ s, d.string v = .ok s := by simp [PatternEntry, IsString]
        rw [e1]
        cases hv : d.string v with
        | error e => simp
        | ok x =>
          simp only [Except.ok.injEq]
          rw [ih, fieldFrom_ne (by decide), fieldFrom_ne (by decide), fieldFrom_eq (fun_of_iff (string_iff d) hv), fieldFrom_ne (by decide),
            fieldFrom_ne (by decide), fieldFrom_ne (by decide)]
          simp
      rw [if_neg h3]
      by_cases h4 : s = b!"values"
      · subst h4
        simp only [↓reduceIte]
        have e1 : PatternEntry d (.str b!"values") v ↔ ∃ s, deserMap d v = .ok s := by
          simp only [deserMap_ok]; simp [PatternEntry]
        rw [e1]
        cases hv : deserMap d v with
        | error e => simp
        | ok x =>
          simp only [Except.ok.injEq]
          rw [ih, fieldFrom_ne (by decide), fieldFrom_ne (by decide), fieldFrom_ne (by decide), fieldFrom_eq (fun_of_iff (deserMap_ok d) hv),
            fieldFrom_ne (by decide), fieldFrom_ne (by decide)]
          simp
      rw [if_neg h4]
      by_cases h5 : s = b!"tags"
      · subst h5
        simp only [↓reduceIte]
        have e1 : PatternEntry d (.str b!"tags") v ↔ ∃ s, deserVec d d.string v = .ok s := by
          simp only [tags_iff]; simp [PatternEntry]
        rw [e1]
        cases hv : deserVec d d.string v with
        | error e => simp
        | ok x =>
          simp only [Except.ok.injEq]
          rw [ih, fieldFrom_ne (by decide), fieldFrom_ne (by decide), fieldFrom_ne (by decide), fieldFrom_ne (by decide),
            fieldFrom_eq (fun_of_iff (tags_iff d) hv), fieldFrom_ne (by decide)]
          simp
      rw [if_neg h5]
      by_cases h6 : s = b!"test_messages"
      · subst h6
        simp only [↓reduceIte]
        have e1 : PatternEntry d (.str b!"test_messages") v ↔ ∃ s, deserVec d (deserTestMessage d) v = .ok s := by
          simp only [messages_iff]; simp [PatternEntry]
        rw [e1]
        cases hv : deserVec d (deserTestMessage d) v with
        | error e => simp
        | ok x =>
          simp only [Except.ok.injEq]
          rw [ih, fieldFrom_ne (by decide), fieldFrom_ne (by decide), fieldFrom_ne (by decide), fieldFrom_ne (by decide), fieldFrom_ne (by decide),
            fieldFrom_eq (fun_of_iff (messages_iff d) hv)]
          simp
      rw [if_neg h6]
      simp [PatternEntry, h1, h2, h3, h4, h5, h6]
    | _ => simp [patField, PatternEntry]

theorem deserPattern_ok (v : Val) (p : Pattern) : deserPattern d v = .ok (.ok p) ↔ IsPattern d v p := by
  unfold deserPattern IsPattern
  cases v with
  | obj l =>
    simp only [structEntries, Val.obj.injEq]
    constructor
    · intro h
      cases hl : patLoop d l {} with
      | error e => rw [hl] at h; simp at h
      | ok vars =>
        rw [hl] at h; simp only [patFinish] at h
        obtain ⟨h1, h2, h3, h4, h5, h6, h7⟩ := (patLoop_ok d l {} vars).mp hl
        rw [fieldFrom_none] at h2 h3 h4 h5 h6 h7
        cases hp : vars.pattern with
        | none => rw [hp] at h; simp at h
        | some s =>
          rw [hp] at h h4; simp only at h
          cases hc : compile s with
          | error e => rw [hc] at h; simp at h
          | ok r =>
            rw [hc] at h
            cases r with
            | error e => simp at h
            | ok toks =>
              simp only at h
              cases hu : vars.uuid with
              | none => rw [hu] at h; simp at h
              | some u =>
                rw [hu] at h h3; simp at h; subst h
                exact ⟨l, rfl, h1, ⟨s, h4, hc⟩, h3, h2, h5, h6, h7⟩
    · rintro ⟨l', rfl, h1, ⟨s, h2, h3⟩, h4, h5, h6, h7, h8⟩
      have : patLoop d l { } = .ok { name := p.name, uuid := some p.uuid, pattern := some s, values := p.values, tags := p.tags, testMessages := p.testMessages } := by
        rw [patLoop_ok]
        simp only [fieldFrom_none]
        exact ⟨h1, h5, h4, h2, h6, h7, h8⟩
      rw [this]
      simp [patFinish, h3]
  | _ => simp [structEntries]

/-- What is wrong with an entry. -/
theorem patEntry_cases (k w : Val) :
    (PatternEntry d k w ∧ ∀ rest vars, ∃ vars', patLoop d ((k, w) :: rest) vars = patLoop d rest vars') ∨
    (∃ e, PatternEntryError d k w e ∧ ∀ rest vars, patLoop d ((k, w) :: rest) vars = .error e) := by
  cases k with
  | str s =>
    by_cases h1 : s = b!"name"
    · subst h1
      cases hv : d.string w with
      | ok x => left; exact ⟨.inl ⟨rfl, x, hv⟩, fun rest vars => ⟨_, by simp [patLoop, patField, hv, bind, Except.bind]; rfl⟩⟩
      | error e => right; exact ⟨e, .string _ w e (by simp) hv, fun rest vars => by simp [patLoop, patField, hv, bind, Except.bind]⟩
    by_cases h2 : s = b!"uuid"
    · subst h2
      cases hv : d.uuid w with
      | ok x => left; exact ⟨.inr (.inl ⟨rfl, x, hv⟩), fun rest vars => ⟨_, by simp [patLoop, patField, hv, bind, Except.bind]; rfl⟩⟩
      | error e => right; exact ⟨e, .uuid w e hv, fun rest vars => by simp [patLoop, patField, hv, bind, Except.bind]⟩
    by_cases h3 : s = b!"pattern"
    · subst h3
      cases hv : d.string w with
      | ok x => left; exact ⟨.inr (.inr (.inl ⟨rfl, x, hv⟩)), fun rest vars => ⟨_, by simp [patLoop, patField, hv, bind, Except.bind]; rfl⟩⟩
      | error e => right; exact ⟨e, .string _ w e (by simp) hv, fun rest vars => by simp [patLoop, patField, hv, bind, Except.bind]⟩
    by_cases h4 : s = b!"values"
    · subst h4
      cases hv : deserMap d w with
      | ok x =>
        left
        exact ⟨.inr (.inr (.inr (.inl ⟨rfl, x, (deserMap_ok d _ _).mp hv⟩))), fun rest vars => ⟨_, by simp [patLoop, patField, hv, bind, Except.bind]; rfl⟩⟩
      | error e => right; exact ⟨e, .values w e ((deserMap_error d w e).mp hv), fun rest vars => by simp [patLoop, patField, hv, bind, Except.bind]⟩
    by_cases h5 : s = b!"tags"
    · subst h5
      cases hv : deserVec d d.string w with
      | ok x =>
        left
        exact ⟨.inr (.inr (.inr (.inr (.inl ⟨rfl, x, (tags_iff d _ _).mp hv⟩)))), fun rest vars => ⟨_, by simp [patLoop, patField, hv, bind, Except.bind]; rfl⟩⟩
      | error e => right; exact ⟨e, .tags w e ((strings_error d w e).mp hv), fun rest vars => by simp [patLoop, patField, hv, bind, Except.bind]⟩
    by_cases h6 : s = b!"test_messages"
    · subst h6
      cases hv : deserVec d (deserTestMessage d) w with
      | ok x =>
        left
        exact ⟨.inr (.inr (.inr (.inr (.inr ⟨rfl, x, (messages_iff d _ _).mp hv⟩)))), fun rest vars => ⟨_, by simp [patLoop, patField, hv, bind, Except.bind]; rfl⟩⟩
      | error e => right; exact ⟨e, .messages w e ((messages_error d w e).mp hv), fun rest vars => by simp [patLoop, patField, hv, bind, Except.bind]⟩
    right
    exact ⟨_, .unknown s w (by simp [h1, h2, h3, h4, h5, h6]),
      fun rest vars => by simp [patLoop, patField, h1, h2, h3, h4, h5, h6, bind, Except.bind, unexpectedField]⟩
  | _ => right; exact ⟨_, .key _ w (by simp), fun rest vars => by simp [patLoop, patField, bind, Except.bind]⟩

theorem patternEntry_not_error {k w : Val} {e : DeError} (h : PatternEntryError d k w e) : ¬ PatternEntry d k w := by
  cases h with
  | key _ _ hk => rintro (⟨rfl, _⟩ | ⟨rfl, _⟩ | ⟨rfl, _⟩ | ⟨rfl, _⟩ | ⟨rfl, _⟩ | ⟨rfl, _⟩) <;> exact hk _ rfl
  | unknown s w hs => simp at hs; simp [PatternEntry, hs]
  | string s w e hs he => simp at hs; rcases hs with rfl | rfl <;> simp [PatternEntry, IsString, he]
  | uuid w e he => simp [PatternEntry, he]
  | values w e he => rw [← deserMap_error] at he; simp [PatternEntry, ← deserMap_ok, he]
  | tags w e he => rw [← strings_error] at he; simp [PatternEntry, ← tags_iff, he]
  | messages w e he => rw [← messages_error] at he; simp [PatternEntry, ← messages_iff, he]

theorem patternEntryError_unique {k w : Val} {e e' : DeError} (h : PatternEntryError d k w e) (h' : PatternEntryError d k w e') : e = e' := by
  rcases patEntry_cases d k w with ⟨h1, _⟩ | ⟨e0, _, _⟩
  · exact absurd h1 (patternEntry_not_error d h)
  · cases h with
    | key _ _ hk => cases h' with
      | key => rfl
      | _ => exact absurd rfl (hk _)
    | unknown s w hs => cases h' with
      | key _ _ hk => exact absurd rfl (hk _)
      | unknown => rfl
      | string _ _ _ hs' => simp at hs hs'; rcases hs' with rfl | rfl <;> simp at hs
      | _ => simp at hs
    | string s w e hs he => cases h' with
      | key _ _ hk => exact absurd rfl (hk _)
      | unknown _ _ hs' => simp at hs hs'; rcases hs with rfl | rfl <;> simp at hs'
      | string _ _ _ _ he' => rw [he] at he'; simpa using he'
      | _ => simp at hs
    | uuid w e he => cases h' with
      | key _ _ hk => exact absurd rfl (hk _)
      | unknown _ _ hs' => simp at hs'
      | string _ _ _ hs' => simp at hs'
      | uuid _ _ he' => rw [he] at he'; simpa using he'
    | values w e he => cases h' with
      | key _ _ hk => exact absurd rfl (hk _)
      | unknown _ _ hs' => simp at hs'
      | string _ _ _ hs' => simp at hs'
      | values _ _ he' => rw [← deserMap_error] at he he'; rw [he] at he'; simpa using he'
    | tags w e he => cases h' with
      | key _ _ hk => exact absurd rfl (hk _)
      | unknown _ _ hs' => simp at hs'
      | string _ _ _ hs' => simp at hs'
      | tags _ _ he' => rw [← strings_error] at he he'; rw [he] at he'; simpa using he'
    | messages w e he => cases h' with
      | key _ _ hk => exact absurd rfl (hk _)
      | unknown _ _ hs' => simp at hs'
      | string _ _ _ hs' => simp at hs'
      | messages _ _ he' => rw [← messages_error] at he he'; rw [he] at he'; simpa using he'

theorem patLoop_error (l : List (Val × Val)) (e : DeError) : ∀ vars, patLoop d l vars = .error e ↔
    FirstWrong (fun x => PatternEntry d x.1 x.2) (fun x => PatternEntryError d x.1 x.2) l e := by
  induction l with
  | nil => intro vars; simp [patLoop, firstWrong_nil]
  | cons x l ih =>
    intro vars
    obtain ⟨k, w⟩ := x
    rcases patEntry_cases d k w with ⟨h1, h2⟩ | ⟨e', h1, h2⟩
    · obtain ⟨vars', h2⟩ := h2 l vars
      rw [h2, firstWrong_right (right := fun x : Val × Val => PatternEntry d x.1 x.2) (wrong := fun x => PatternEntryError d x.1 x.2) (x := (k, w)) h1 (fun e he => patternEntry_not_error d he h1), ih]
    · rw [h2, firstWrong_wrong (right := fun x : Val × Val => PatternEntry d x.1 x.2) (wrong := fun x => PatternEntryError d x.1 x.2) (x := (k, w)) (patternEntry_not_error d h1)]
      simp only [Except.error.injEq]
      exact ⟨fun h => h ▸ h1, fun h => patternEntryError_unique d h1 h⟩

theorem field_unique {l : List (Val × Val)} {α : Type} {k : Bytes} {R : Val → α → Prop} (hR : ∀ v x y, R v x → R v y → x = y) {o o' : Option α}
    (ho : Field l k R o) (ho' : Field l k R o') : o = o' := by
  cases o with
  | none => cases o' with
    | none => rfl
    | some x => obtain ⟨v, hv, _⟩ := ho'; exact absurd ho (lastEntry_absent hv)
  | some x =>
    obtain ⟨v, hv, hx⟩ := ho
    cases o' with
    | none => exact absurd ho' (lastEntry_absent hv)
    | some y =>
      obtain ⟨v', hv', hy⟩ := ho'
      have : v = v' := by
        obtain ⟨A, B, e1, e2⟩ := hv
        obtain ⟨A', B', e1', e2'⟩ := hv'
        have := (last_split (Q := fun x : Val × Val => x.1 ≠ .str k) (e1.symm.trans e1') e2 e2' (by simp) (by simp)).1
        simpa using this
      subst this
      rw [hR v x y hx hy]

theorem deserPattern_error (v : Val) (e : DeError) : deserPattern d v = .ok (.error e) ↔ PatternError d v e := by
  unfold deserPattern PatternError
  cases v with
  | obj l =>
    simp only [structEntries, ne_eq, Val.obj.injEq, forall_eq', false_and, false_or, exists_eq_left']
    cases hl : patLoop d l {} with
    | error e' =>
      have hw := (patLoop_error d l e' {}).mp hl
      simp only [Except.ok.injEq, Except.error.injEq]
      constructor
      · rintro rfl; exact .inl hw
      · rintro (h | ⟨h, _⟩)
        · have := (patLoop_error d l e {}).mpr h
          rw [hl] at this; simpa using this
        · exact (firstWrong_not_right (fun x e he => patternEntry_not_error d he) hw fun x hx => h x.1 x.2 hx).elim
    | ok vars =>
      obtain ⟨h1, h2, h3, h4, h5, h6, h7⟩ := (patLoop_ok d l {} vars).mp hl
      rw [fieldFrom_none] at h3 h4
      have hnot : ¬ FirstWrong (fun x => PatternEntry d x.1 x.2) (fun x => PatternEntryError d x.1 x.2) l e := fun h =>
        firstWrong_not_right (fun x e he => patternEntry_not_error d he) h fun x hx => h1 x.1 x.2 hx
      have uS : ∀ v x y, IsString d v x → IsString d v y → x = y := by
        intro v x y h h'; unfold IsString at h h'; rw [h] at h'; simpa using h'
      have uU : ∀ v x y, d.uuid v = .ok x → d.uuid v = .ok y → x = y := by
        intro v x y h h'; rw [h] at h'; simpa using h'
      simp only [hnot, false_or, patFinish]
      have h1' : (∀ k w, (k, w) ∈ l → PatternEntry d k w) ↔ True := iff_true_intro h1
      rw [h1', true_and]
      cases hp : vars.pattern with
      | none =>
        rw [hp] at h4
        simp only [Except.ok.injEq, Except.error.injEq]
        constructor
        · rintro rfl; exact .inl ⟨h4, rfl⟩
        · rintro (⟨_, rfl⟩ | ⟨s, hs, _⟩)
          · rfl
          · exact absurd (field_unique uS h4 hs) (by simp)
      | some s =>
        rw [hp] at h4
        have hs : ∀ s', Field l b!"pattern" (IsString d) (some s') → s' = s := by
          intro s' hs'; simpa using field_unique uS hs' h4
        have hn : ¬ Field l b!"pattern" (IsString d) none := by
          intro hn; exact absurd (field_unique uS h4 hn) (by simp)
        simp only
        cases hc : compile s with
        | error pe =>
          simp only [reduceCtorEq, false_iff, not_or]
          refine ⟨fun h => hn h.1, ?_⟩
          rintro ⟨s', hs', ⟨⟨x, h⟩, _⟩ | ⟨⟨x, h⟩, _⟩⟩ <;> rw [hs s' hs', hc] at h <;> simp at h
        | ok r =>
          cases r with
          | error pe =>
            simp only [Except.ok.injEq, Except.error.injEq]
            constructor
            · rintro rfl; exact .inr ⟨s, h4, .inl ⟨⟨pe, hc⟩, rfl⟩⟩
            · rintro (⟨h, _⟩ | ⟨s', hs', ⟨_, rfl⟩ | ⟨⟨x, h⟩, _⟩⟩)
              · exact absurd h hn
              · rfl
              · rw [hs s' hs', hc] at h; simp at h
          | ok toks =>
            simp only
            cases hu : vars.uuid with
            | none =>
              rw [hu] at h3
              simp only [Except.ok.injEq, Except.error.injEq]
              constructor
              · rintro rfl; exact .inr ⟨s, h4, .inr ⟨⟨toks, hc⟩, h3, rfl⟩⟩
              · rintro (⟨h, _⟩ | ⟨s', hs', ⟨⟨x, h⟩, _⟩ | ⟨_, _, rfl⟩⟩)
                · exact absurd h hn
                · rw [hs s' hs', hc] at h; simp at h
                · rfl
            | some u =>
              rw [hu] at h3
              simp only [Except.ok.injEq, reduceCtorEq, false_iff, not_or]
              refine ⟨fun h => hn h.1, ?_⟩
              rintro ⟨s', hs', ⟨⟨x, h⟩, _⟩ | ⟨_, h, _⟩⟩
              · rw [hs s' hs', hc] at h; simp at h
              · exact absurd (field_unique uU h3 h) (by simp)
  | _ => simp [structEntries, eq_comm]

/-! ### Files -/

theorem deserPatterns_ok : ∀ (l : List Val) (ps : List Pattern), deserPatterns d l = .ok (.ok ps) ↔ Each (IsPattern d) l ps := by
  intro l
  induction l with
  | nil =>
    intro ps
    simp only [deserPatterns, Except.ok.injEq]
    constructor
    · rintro rfl; exact .nil
    · intro h; cases h; rfl
  | cons v l ih =>
    intro ps
    simp only [deserPatterns]
    constructor
    · intro h
      cases h1 : deserPattern d v with
      | error e => rw [h1] at h; simp at h
      | ok r =>
        rw [h1] at h
        cases r with
        | error e => simp at h
        | ok p =>
          simp only at h
          cases h2 : deserPatterns d l with
          | error e => rw [h2] at h; simp at h
          | ok r =>
            rw [h2] at h
            cases r with
            | error e => simp at h
            | ok ps' =>
              simp at h; subst h
              exact .cons _ _ _ _ ((deserPattern_ok d _ _).mp h1) ((ih _).mp h2)
    · intro h
      cases h with
      | cons _ p _ ps' h1 h2 => rw [(deserPattern_ok d _ _).mpr h1, (ih _).mpr h2]

theorem fileLoop_ok : ∀ (l : List (Val × Val)) (old new : Option (List Pattern)),
    fileLoop d l old = .ok (.ok new) ↔ (∀ k w, (k, w) ∈ l → k = .str b!"patterns" ∧ ∃ ps, IsList d (IsPattern d) w ps) ∧
      FieldFrom l b!"patterns" (IsList d (IsPattern d)) old new := by
  intro l
  induction l with
  | nil => intro old new; simp [fileLoop, fieldFrom_nil, eq_comm]
  | cons e l ih =>
    intro old new
    obtain ⟨k, v⟩ := e
    have hcons : (∀ k' w, (k', w) ∈ (k, v) :: l → k' = .str b!"patterns" ∧ ∃ ps, IsList d (IsPattern d) w ps) ↔
        (k = .str b!"patterns" ∧ ∃ ps, IsList d (IsPattern d) v ps) ∧
        ∀ k' w, (k', w) ∈ l → k' = .str b!"patterns" ∧ ∃ ps, IsList d (IsPattern d) w ps := by
      simp only [List.mem_cons, Prod.mk.injEq]
      constructor
      · intro h; exact ⟨h k v (.inl ⟨rfl, rfl⟩), fun k' w hw => h k' w (.inr hw)⟩
      · rintro ⟨h1, h2⟩ k' w (⟨rfl, rfl⟩ | hw)
        · exact h1
        · exact h2 _ _ hw
    rw [hcons]
    simp only [fileLoop]
    cases k with
    | str s =>
      simp only [fileField]
      by_cases h1 : s = b!"patterns"
      · subst h1
        simp only [↓reduceIte, true_and]
        cases hs : d.seq v with
        | error e => simp [IsList, hs]
        | ok vs =>
          simp only
          have hlist : ∀ ps, IsList d (IsPattern d) v ps ↔ deserPatterns d vs = .ok (.ok ps) := by
            intro ps; rw [deserPatterns_ok]; simp [IsList, hs]
          cases hp : deserPatterns d vs with
          | error e => simp [hlist, hp]
          | ok r =>
            cases r with
            | error e => simp [hlist, hp]
            | ok ps =>
              simp only
              rw [ih, fieldFrom_eq (y := ps) (fun x => by rw [hlist, hp]; simp [eq_comm])]
              simp [hlist, hp]
      · simp [h1]
    | _ => simp [fileField]

theorem deserFile_ok (v : Val) (file : PatternFile) : deserFile d v = .ok (.ok file) ↔ IsFile d v file := by
  unfold deserFile IsFile
  cases v with
  | obj l =>
    simp only [structEntries, Val.obj.injEq]
    constructor
    · intro h
      cases hl : fileLoop d l none with
      | error e => rw [hl] at h; simp at h
      | ok r =>
        rw [hl] at h
        cases r with
        | error e => simp at h
        | ok o =>
          cases o with
          | none => simp at h
          | some ps =>
            simp at h; subst h
            obtain ⟨h1, h2⟩ := (fileLoop_ok d l none _).mp hl
            rw [fieldFrom_none] at h2
            exact ⟨l, rfl, h1, h2⟩
    · rintro ⟨l', rfl, h1, h2⟩
      rw [(fileLoop_ok d l none (some file.patterns)).mpr ⟨h1, (fieldFrom_none _ _ _ _).mpr h2⟩]
  | _ => simp [structEntries]

theorem isPattern_of_ok {v : Val} {p : Pattern} (h : deserPattern d v = .ok (.ok p)) : ∃ p, IsPattern d v p := ⟨p, (deserPattern_ok d v p).mp h⟩

theorem deserPatterns_error (l : List Val) (e : DeError) : deserPatterns d l = .ok (.error e) ↔
    FirstWrong (fun w => ∃ p, IsPattern d w p) (PatternError d) l e := by
  induction l with
  | nil => simp [deserPatterns, firstWrong_nil]
  | cons v l ih =>
    simp only [deserPatterns]
    cases h1 : deserPattern d v with
    | error e' =>
      rw [firstWrong_wrong (by simp [← deserPattern_ok, h1]), ← deserPattern_error, h1]
      simp
    | ok r =>
      cases r with
      | error e' =>
        rw [firstWrong_wrong (by simp [← deserPattern_ok, h1]), ← deserPattern_error, h1]
        simp
      | ok p =>
        rw [firstWrong_right (right := fun w => ∃ p, IsPattern d w p) (wrong := PatternError d) (x := v) (isPattern_of_ok d h1)
          (by intro e; rw [← deserPattern_error, h1]; simp), ← ih]
        cases deserPatterns d l with
        | error e' => simp
        | ok r => cases r <;> simp

/-- the right entries of a pattern file, see `FileError` -/
def FileEntry (x : Val × Val) : Prop := x.1 = .str b!"patterns" ∧ ∃ ps, IsList d (IsPattern d) x.2 ps

/-- the errors of the others -/
def FileEntryError (x : Val × Val) (e : DeError) : Prop :=
  ((∀ s, x.1 ≠ .str s) ∧ e = d.wrongType x.1) ∨ (∃ s, x.1 = .str s ∧ s ≠ b!"patterns" ∧ e = .custom (b!"Unexpected field: " ++ s)) ∨
    (x.1 = .str b!"patterns" ∧ ListError d (fun w => ∃ p, IsPattern d w p) (PatternError d) x.2 e)

theorem fileLoop_error (l : List (Val × Val)) (e : DeError) : ∀ old, fileLoop d l old = .ok (.error e) ↔
    FirstWrong (FileEntry d) (FileEntryError d) l e := by
  induction l with
  | nil => intro old; simp [fileLoop, firstWrong_nil]
  | cons x l ih =>
    intro old
    obtain ⟨k, v⟩ := x
    cases k with
    | str s =>
      by_cases h1 : s = b!"patterns"
      · subst h1
        have hwrong : ∀ e, FileEntryError d (.str b!"patterns", v) e ↔ ListError d (fun w => ∃ p, IsPattern d w p) (PatternError d) v e := by
          intro e; simp [FileEntryError]
        have hright : FileEntry d (.str b!"patterns", v) ↔ ∃ ps, IsList d (IsPattern d) v ps := by simp [FileEntry]
        simp only [fileLoop, fileField, ↓reduceIte]
        cases hs : d.seq v with
        | error e' =>
          rw [firstWrong_wrong (by simp [hright, IsList, hs]), hwrong]
          simp [ListError, hs]
        | ok vs =>
          have hlist : ∀ ps, IsList d (IsPattern d) v ps ↔ deserPatterns d vs = .ok (.ok ps) := by
            intro ps; rw [deserPatterns_ok]; simp [IsList, hs]
          have herr : ∀ e, ListError d (fun w => ∃ p, IsPattern d w p) (PatternError d) v e ↔ deserPatterns d vs = .ok (.error e) := by
            intro e; rw [deserPatterns_error]; simp [ListError, hs]
          cases hp : deserPatterns d vs with
          | error e' =>
            rw [firstWrong_wrong (by simp [hright, hlist, hp]), hwrong, herr]
            simp [hp]
          | ok r =>
            cases r with
            | error e' =>
              rw [firstWrong_wrong (by simp [hright, hlist, hp]), hwrong, herr]
              simp [hp]
            | ok ps =>
              rw [firstWrong_right (by rw [hright]; exact ⟨ps, (hlist ps).mpr hp⟩) (by intro e; rw [hwrong, herr, hp]; simp)]
              simp only [hp]
              exact ih _
      · rw [firstWrong_wrong (by simp [FileEntry, h1])]
        simp [fileLoop, fileField, FileEntryError, h1, unexpectedField, eq_comm]
    | _ =>
      rw [firstWrong_wrong (by simp [FileEntry])]
      simp [fileLoop, fileField, FileEntryError, eq_comm]

theorem deserFile_error (v : Val) (e : DeError) : deserFile d v = .ok (.error e) ↔ FileError d v e := by
  unfold deserFile FileError
  cases v with
  | obj l =>
    have key : (∃ l', Val.obj l = .obj l' ∧ FirstWrong (FileEntry d) (FileEntryError d) l' e) ↔ fileLoop d l none = .ok (.error e) := by
      rw [fileLoop_error]
      constructor
      · rintro ⟨l', h, h'⟩; simp at h; subst h; exact h'
      · intro h; exact ⟨l, rfl, h⟩
    refine Iff.trans ?_ (or_congr Iff.rfl (or_congr Iff.rfl key.symm))
    simp only [structEntries]
    cases l with
    | nil => simp [fileLoop, eq_comm]
    | cons x l =>
      simp only [ne_eq, Val.obj.injEq, forall_eq', false_and, false_or, reduceCtorEq]
      cases hl : fileLoop d (x :: l) none with
      | error e' => simp
      | ok r =>
        cases r with
        | error e' => simp
        | ok o =>
          cases o with
          | some ps => simp
          | none =>
            exfalso
            obtain ⟨h1, h2⟩ := (fileLoop_ok d (x :: l) none none).mp hl
            rw [fieldFrom_none] at h2
            exact h2 x (by simp) (h1 x.1 x.2 (by simp)).1
  | _ => simp [structEntries, eq_comm]

/-! ### Panics -/

theorem deserPattern_panic (v : Val) (e : Panic) : deserPattern d v = .error e ↔ PatternPanics d v e := by
  unfold deserPattern PatternPanics
  cases v with
  | obj l =>
    simp only [structEntries]
    cases hl : patLoop d l {} with
    | error e' =>
      simp only [reduceCtorEq, false_iff]
      rintro ⟨l', s, h, h1, _⟩
      simp at h; subst h
      exact firstWrong_not_right (fun x e he => patternEntry_not_error d he) ((patLoop_error d l e' {}).mp hl) fun x hx => h1 x.1 x.2 hx
    | ok vars =>
      obtain ⟨h1, h2, h3, h4, _⟩ := (patLoop_ok d l {} vars).mp hl
      rw [fieldFrom_none] at h4
      have huniq : ∀ s, Field l b!"pattern" (IsString d) (some s) → vars.pattern = some s := fun s hs =>
        field_unique (fun v x y h h' => by unfold IsString at h h'; rw [h] at h'; simpa using h') h4 hs
      simp only [patFinish]
      cases hp : vars.pattern with
      | none =>
        simp only [reduceCtorEq, false_iff]
        rintro ⟨l', s, h, _, h5, _⟩
        simp at h; subst h
        rw [huniq s h5] at hp
        cases hp
      | some s =>
        rw [hp] at h4
        have key : (∃ l' s, Val.obj l = .obj l' ∧ (∀ k w, (k, w) ∈ l' → PatternEntry d k w) ∧ Field l' b!"pattern" (IsString d) (some s) ∧
            compile s = .error e) ↔ compile s = .error e := by
          constructor
          · rintro ⟨l', s', h, _, h5, h6⟩
            simp at h; subst h
            have := huniq s' h5
            rw [hp] at this
            simp at this
            rw [this]; exact h6
          · intro h; exact ⟨l, s, rfl, h1, h4, h⟩
        rw [key]
        simp only
        cases hc : compile s with
        | error e' => simp
        | ok r =>
          cases r with
          | error pe => simp
          | ok toks => simp only; cases hu : vars.uuid <;> simp
  | _ => simp [structEntries]

theorem deserPatterns_panic (l : List Val) (e : Panic) : deserPatterns d l = .error e ↔
    FirstWrong (fun w => ∃ p, IsPattern d w p) (PatternPanics d) l e := by
  induction l with
  | nil => simp [deserPatterns, firstWrong_nil]
  | cons v l ih =>
    simp only [deserPatterns]
    cases h1 : deserPattern d v with
    | error e' =>
      rw [firstWrong_wrong (by simp [← deserPattern_ok, h1]), ← deserPattern_panic, h1]
      simp
    | ok r =>
      cases r with
      | error e' =>
        rw [firstWrong_wrong (by simp [← deserPattern_ok, h1]), ← deserPattern_panic, h1]
        simp
      | ok p =>
        rw [firstWrong_right (right := fun w => ∃ p, IsPattern d w p) (wrong := PatternPanics d) (x := v) (isPattern_of_ok d h1)
          (by intro e; rw [← deserPattern_panic, h1]; simp), ← ih]
        cases deserPatterns d l with
        | error e' => simp
        | ok r => cases r <;> simp

/-- the entries of a pattern file that panic, see `FilePanics` -/
def FileEntryPanics (x : Val × Val) (e : Panic) : Prop :=
  x.1 = .str b!"patterns" ∧ ∃ vs, d.seq x.2 = .ok vs ∧ FirstWrong (fun w => ∃ p, IsPattern d w p) (PatternPanics d) vs e

theorem fileLoop_panic (l : List (Val × Val)) (e : Panic) : ∀ old, fileLoop d l old = .error e ↔
    FirstWrong (FileEntry d) (FileEntryPanics d) l e := by
  induction l with
  | nil => intro old; simp [fileLoop, firstWrong_nil]
  | cons x l ih =>
    intro old
    obtain ⟨k, v⟩ := x
    cases k with
    | str s =>
      by_cases h1 : s = b!"patterns"
      · subst h1
        have hwrong : ∀ e, FileEntryPanics d (.str b!"patterns", v) e ↔
            ∃ vs, d.seq v = .ok vs ∧ FirstWrong (fun w => ∃ p, IsPattern d w p) (PatternPanics d) vs e := by
          intro e; simp [FileEntryPanics]
        have hright : FileEntry d (.str b!"patterns", v) ↔ ∃ ps, IsList d (IsPattern d) v ps := by simp [FileEntry]
        simp only [fileLoop, fileField, ↓reduceIte]
        cases hs : d.seq v with
        | error e' =>
          rw [firstWrong_wrong (by simp [hright, IsList, hs]), hwrong]
          simp [hs]
        | ok vs =>
          have hlist : ∀ ps, IsList d (IsPattern d) v ps ↔ deserPatterns d vs = .ok (.ok ps) := by
            intro ps; rw [deserPatterns_ok]; simp [IsList, hs]
          have herr : ∀ e, FileEntryPanics d (.str b!"patterns", v) e ↔ deserPatterns d vs = .error e := by
            intro e; rw [hwrong, deserPatterns_panic]; simp [hs]
          cases hp : deserPatterns d vs with
          | error e' =>
            rw [firstWrong_wrong (by simp [hright, hlist, hp]), herr]
            simp [hp]
          | ok r =>
            cases r with
            | error e' =>
              rw [firstWrong_wrong (by simp [hright, hlist, hp]), herr]
              simp [hp]
            | ok ps =>
              rw [firstWrong_right (by rw [hright]; exact ⟨ps, (hlist ps).mpr hp⟩) (by intro e; rw [herr, hp]; simp)]
              simp only [hp]
              exact ih _
      · rw [firstWrong_wrong (by simp [FileEntry, h1])]
        simp [fileLoop, fileField, FileEntryPanics, h1, unexpectedField]
    | _ =>
      rw [firstWrong_wrong (by simp [FileEntry])]
      simp [fileLoop, fileField, FileEntryPanics]

theorem deserFile_panic (v : Val) (e : Panic) : deserFile d v = .error e ↔ FilePanics d v e := by
  unfold deserFile FilePanics
  cases v with
  | obj l =>
    have key : (∃ l', Val.obj l = .obj l' ∧ FirstWrong (FileEntry d) (FileEntryPanics d) l' e) ↔ fileLoop d l none = .error e := by
      rw [fileLoop_panic]
      constructor
      · rintro ⟨l', h, h'⟩; simp at h; subst h; exact h'
      · intro h; exact ⟨l, rfl, h⟩
    refine Iff.trans ?_ key.symm
    simp only [structEntries]
    cases hl : fileLoop d l none with
    | error e' => simp
    | ok r =>
      cases r with
      | error e' => simp
      | ok o => cases o <;> simp
  | _ => simp [structEntries]

end Verif
