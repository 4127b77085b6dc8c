import Verif.Model.CostGrammar
import Verif.Proofs.Utf8
/-! C134: bounded work when compiling a pattern string. -/
namespace Verif
namespace RuleC

/-! ### The counter changes nothing -/

/-- `c` does what `r` does. -/
def Erases {α : Type} (c : RuleC α) (r : Rule α) : Prop := ∀ i s p, (c i s p).1 = r i s p

theorem look_erases {α : Type} (r : Rule α) : Erases (look r) r := fun _ _ _ => rfl
theorem done_erases {α : Type} (v : α) : Erases (done v) (fun _ s p => .ok (some (p, v), s)) := fun _ _ _ => rfl

theorem seq_erases {α β : Type} {c : RuleC α} {r : Rule α} (h : Erases c r) {k : α → RuleC β} {l : α → Rule β} (hk : ∀ v, Erases (k v) (l v)) :
    Erases (c.seq k) (r.seq l) := by
  intro i s p
  unfold seq Rule.seq
  rw [← h i s p]
  rcases c i s p with ⟨_ | ⟨_ | ⟨p', v⟩, s'⟩, n⟩ <;> simp
  exact hk v i s' p'

theorem action_erases {α β : Type} {c : RuleC α} {r : Rule α} (h : Erases c r) (f : Bytes → α → M β) : Erases (c.action f) (r.action f) := by
  intro i s p
  unfold action Rule.action
  rw [← h i s p]
  rcases c i s p with ⟨_ | ⟨_ | ⟨p', v⟩, s'⟩, n⟩ <;> simp
  cases slice i p p' <;> simp
  rename_i m
  cases f m v <;> simp

theorem orElse_erases {α : Type} {c d : RuleC α} {r t : Rule α} (h : Erases c r) (h' : Erases d t) : Erases (c.orElse d) (r.orElse t) := by
  intro i s p
  unfold orElse Rule.orElse
  rw [← h i s p]
  rcases c i s p with ⟨_ | ⟨_ | ⟨p', v⟩, s'⟩, n⟩ <;> simp
  exact h' i s' p

theorem opt_erases {α : Type} {c : RuleC α} {r : Rule α} (h : Erases c r) : Erases c.opt r.opt := by
  intro i s p
  unfold opt Rule.opt
  rw [← h i s p]
  rcases c i s p with ⟨_ | ⟨_ | ⟨p', v⟩, s'⟩, n⟩ <;> simp

theorem notP_erases {α : Type} {c : RuleC α} {r : Rule α} (h : Erases c r) : Erases c.notP r.notP := by
  intro i s p
  unfold notP Rule.notP
  rw [← h i s p]
  rcases c i s p with ⟨_ | ⟨_ | ⟨p', v⟩, s'⟩, n⟩ <;> simp

theorem loop_erases {α : Type} {c : RuleC α} {r : Rule α} (h : Erases c r) (i : Bytes) (s : PState) (p : Nat) : (c.loop i s p).1 = r.loop i s p := by
  fun_induction loop c i s p with
  | case1 s p e n he => rw [Rule.loop, ← h i s p, he]
  | case2 s p s' n he => rw [Rule.loop, ← h i s p, he]
  | case3 s p p' v s' n he hp e m hl ih =>
    rw [hl] at ih
    rw [Rule.loop, ← h i s p, he]
    simp only [if_pos hp, ← ih]
  | case4 s p p' v s' n he hp q vs s2 m hl ih =>
    rw [hl] at ih
    rw [Rule.loop, ← h i s p, he]
    simp only [if_pos hp, ← ih]
  | case5 s p p' v s' n he hp =>
    rw [Rule.loop, ← h i s p, he]
    simp only [if_neg hp]

theorem star_erases {α : Type} {c : RuleC α} {r : Rule α} (h : Erases c r) : Erases c.star r.star := by
  intro i s p
  unfold star Rule.star
  rw [← loop_erases h i s p]
  rcases c.loop i s p with ⟨_ | ⟨p', v, s'⟩, n⟩ <;> simp

theorem plus_erases {α : Type} {c : RuleC α} {r : Rule α} (h : Erases c r) : Erases c.plus r.plus := by
  intro i s p
  unfold plus Rule.plus
  rw [← loop_erases h i s p]
  rcases c.loop i s p with ⟨_ | ⟨p', v, s'⟩, n⟩ <;> simp
  split <;> rfl

theorem sepBy_erases {α β : Type} {c : RuleC α} {r : Rule α} (h : Erases c r) {d : RuleC β} {t : Rule β} (h' : Erases d t) :
    Erases (c.sepBy d) (r.sepBy t) := by
  intro i s p
  unfold sepBy Rule.sepBy
  rw [← h i s p]
  rcases c i s p with ⟨_ | ⟨_ | ⟨p', v⟩, s'⟩, n⟩ <;> simp
  rw [← loop_erases (seq_erases h' fun _ => h) i s' p']
  rcases (d.seq fun _ => c).loop i s' p' with ⟨_ | ⟨p2, v2, s2⟩, m⟩ <;> simp

theorem word_erases (m : Bytes) : Erases (word m) ((sliceEq m).action fun matchStr _ => .ok matchStr) := action_erases (look_erases _) _

theorem identifier_erases : Erases identifier parseIdentifier :=
  action_erases (seq_erases (look_erases _) fun _ => star_erases (seq_erases (look_erases _) fun _ => notP_erases (look_erases _))) _

theorem parserName_erases : Erases parserName parseParserName := action_erases (seq_erases (look_erases _) fun _ => identifier_erases) _

theorem literal_erases : Erases literal parseLiteral :=
  action_erases (plus_erases (seq_erases (notP_erases (look_erases _)) fun _ => look_erases _)) _

theorem quoted_erases : Erases quoted parseQuoted :=
  action_erases (plus_erases (seq_erases (notP_erases (look_erases _)) fun _ => look_erases _)) _

theorem string_erases : Erases string parseString :=
  action_erases (seq_erases (look_erases _) fun _ => seq_erases quoted_erases fun s => seq_erases (look_erases _) fun _ => done_erases s) _

theorem comma_erases : Erases comma parseComma := seq_erases (look_erases _) fun _ => star_erases (look_erases _)

theorem int_erases : Erases int parseInt := action_erases (plus_erases (look_erases _)) _

theorem baseOptionalParam_erases : Erases baseOptionalParam parseBaseOptionalParam :=
  orElse_erases
    (action_erases (seq_erases (word_erases _) fun _ => seq_erases (look_erases _) fun _ => seq_erases int_erases fun _ => done_erases _) _)
    (action_erases (seq_erases (word_erases _) fun _ => seq_erases (look_erases _) fun _ => seq_erases int_erases fun _ => done_erases _) _)

theorem setOptionalParams_erases : Erases setOptionalParams parseSetOptionalParams :=
  action_erases (seq_erases comma_erases fun _ => sepBy_erases baseOptionalParam_erases comma_erases) _

theorem parserSet_erases : Erases parserSet parseParserSet :=
  action_erases (seq_erases (word_erases _) fun _ => seq_erases (look_erases _) fun _ => seq_erases string_erases fun _ =>
    seq_erases (opt_erases setOptionalParams_erases) fun _ => seq_erases (look_erases _) fun _ => seq_erases (opt_erases parserName_erases) fun _ =>
    done_erases _) _

theorem intOptionalParams_erases : Erases intOptionalParams parseIntOptionalParams :=
  action_erases (seq_erases (look_erases _) fun _ => seq_erases (sepBy_erases baseOptionalParam_erases comma_erases) fun _ =>
    seq_erases (look_erases _) fun _ => done_erases _) _

theorem parserInt_erases : Erases parserInt parseParserInt :=
  action_erases (seq_erases (word_erases _) fun _ => seq_erases (opt_erases intOptionalParams_erases) fun _ =>
    seq_erases (opt_erases parserName_erases) fun _ => done_erases _) _

theorem pieceParser_erases : Erases pieceParser parsePieceParser :=
  action_erases (seq_erases (look_erases _) fun _ => seq_erases (orElse_erases parserSet_erases parserInt_erases) fun _ =>
    seq_erases (look_erases _) fun _ => done_erases _) _

theorem parserGreedy_erases : Erases parserGreedy parseParserGreedy :=
  action_erases (seq_erases (look_erases _) fun _ => seq_erases (word_erases _) fun _ => seq_erases (opt_erases parserName_erases) fun _ =>
    seq_erases (look_erases _) fun _ => seq_erases (opt_erases literal_erases) fun _ => done_erases _) _

theorem pattern_erases : Erases pattern parsePattern :=
  action_erases (plus_erases (orElse_erases parserGreedy_erases (orElse_erases (action_erases literal_erases _) pieceParser_erases))) _

theorem compileC_fst (input : Bytes) : (compileC input).1 = compile input := by
  unfold compileC compile
  rw [← pattern_erases input .new 0]
  rcases pattern input .new 0 with ⟨_ | ⟨_ | ⟨p', v⟩, s'⟩, n⟩ <;> simp
  split <;> rfl

/-! ### Counting -/

/-- The number of looks of a run that began at `p`: `a` for every byte taken and `b` more if it matched, at most `f` if it failed, and `a` for every byte
left and `b` more if it panicked. -/
def Out {α : Type} (a b f : Nat) (i : Bytes) (p : Nat) : M (Option (Nat × α) × PState) × Nat → Prop
  | (.ok (some (p', _), _), n) => p ≤ p' ∧ p' ≤ i.length ∧ n ≤ a * (p' - p) + b
  | (.ok (none, _), n) => n ≤ f
  | (.error _, n) => n ≤ a * (i.length - p) + b

/-- Failing costs no more than all that is left. -/
def Lin {α : Type} (a b : Nat) (r : RuleC α) : Prop := ∀ i s p, p ≤ i.length → Out a b (a * (i.length - p) + b) i p (r i s p)
/-- Failing costs at most `b`. -/
def LinC {α : Type} (a b : Nat) (r : RuleC α) : Prop := ∀ i s p, p ≤ i.length → Out a b b i p (r i s p)
/-- At most `c` looks in any case. -/
def Const {α : Type} (c : Nat) (r : RuleC α) : Prop := ∀ i s p, (r i s p).2 ≤ c

theorem Out.mono {α : Type} {a b f a' b' f' : Nat} {i : Bytes} {p : Nat} {o : M (Option (Nat × α) × PState) × Nat} (h : Out a b f i p o) (ha : a ≤ a')
    (hb : b ≤ b') (hf : f ≤ f') : Out a' b' f' i p o := by
  rcases o with ⟨_ | ⟨_ | ⟨p', v⟩, s'⟩, n⟩ <;> simp only [Out] at h ⊢
  · have := Nat.mul_le_mul_right (i.length - p) ha
    omega
  · omega
  · have := Nat.mul_le_mul_right (p' - p) ha
    omega

theorem LinC.mono {α : Type} {a b a' b' : Nat} {r : RuleC α} (h : LinC a b r) (ha : a ≤ a') (hb : b ≤ b') : LinC a' b' r :=
  fun i s p hp => (h i s p hp).mono ha hb hb

theorem Lin.mono {α : Type} {a b a' b' : Nat} {r : RuleC α} (h : Lin a b r) (ha : a ≤ a') (hb : b ≤ b') : Lin a' b' r := by
  intro i s p hp
  refine (h i s p hp).mono ha hb ?_
  have := Nat.mul_le_mul_right (i.length - p) ha
  omega

theorem LinC.lin {α : Type} {a b : Nat} {r : RuleC α} (h : LinC a b r) : Lin a b r := fun i s p hp => (h i s p hp).mono (Nat.le_refl _) (Nat.le_refl _) (by omega)

theorem split_mul (a : Nat) {p q r : Nat} (h : p ≤ q) (h' : q ≤ r) : a * (r - p) = a * (q - p) + a * (r - q) := by
  rw [← Nat.mul_add]
  congr 1
  omega

theorem seq_lin {α β : Type} {a b1 b2 : Nat} {r : RuleC α} {k : α → RuleC β} (h : Lin a b1 r) (hk : ∀ v, Lin a b2 (k v)) : Lin a (b1 + b2) (r.seq k) := by
  intro i s p hp
  have h := h i s p hp
  unfold seq
  rcases hr : r i s p with ⟨_ | ⟨_ | ⟨p', v⟩, s'⟩, n⟩ <;> rw [hr] at h <;> simp only [Out] at h ⊢
  · omega
  · omega
  · obtain ⟨h1, h2, h3⟩ := h
    have h4 := hk v i s' p' h2
    have e := split_mul a h1 h2
    rcases hk' : k v i s' p' with ⟨_ | ⟨_ | ⟨p2, v2⟩, s2⟩, m⟩ <;> rw [hk'] at h4 <;> simp only [Out] at h4 ⊢
    · omega
    · omega
    · have e2 := split_mul a h1 h4.1
      omega

theorem seq_linC {α β : Type} {a b1 b2 : Nat} {r : RuleC α} {k : α → RuleC β} (h : LinC a b1 r) (hc : Const b1 r) (hk : ∀ v, LinC a b2 (k v)) :
    LinC a (b1 + b2) (r.seq k) := by
  intro i s p hp
  have h := h i s p hp
  have hc := hc i s p
  unfold seq
  rcases hr : r i s p with ⟨_ | ⟨_ | ⟨p', v⟩, s'⟩, n⟩ <;> rw [hr] at h hc <;> simp only [Out] at h ⊢
  · omega
  · omega
  · obtain ⟨h1, h2, h3⟩ := h
    have h4 := hk v i s' p' h2
    have e := split_mul a h1 h2
    rcases hk' : k v i s' p' with ⟨_ | ⟨_ | ⟨p2, v2⟩, s2⟩, m⟩ <;> rw [hk'] at h4 <;> simp only [Out] at h4 hc ⊢
    · omega
    · omega
    · have e2 := split_mul a h1 h4.1
      omega

theorem seq_const {α β : Type} {b1 b2 : Nat} {r : RuleC α} {k : α → RuleC β} (h : Const b1 r) (hk : ∀ v, Const b2 (k v)) : Const (b1 + b2) (r.seq k) := by
  intro i s p
  have h := h i s p
  unfold seq
  rcases hr : r i s p with ⟨_ | ⟨_ | ⟨p', v⟩, s'⟩, n⟩ <;> rw [hr] at h <;> simp only at h ⊢
  · omega
  · omega
  · have := hk v i s' p'
    omega

theorem action_out {α β : Type} {a b f : Nat} {r : RuleC α} {g : Bytes → α → M β} {i : Bytes} {s : PState} {p : Nat} (h : Out a b f i p (r i s p)) :
    Out a b f i p (r.action g i s p) := by
  unfold action
  rcases hr : r i s p with ⟨_ | ⟨_ | ⟨p', v⟩, s'⟩, n⟩ <;> rw [hr] at h <;> simp only [Out] at h ⊢
  · exact h
  · exact h
  · have e := split_mul a h.1 h.2.1
    cases slice i p p' with
    | error e => simp only; omega
    | ok m =>
      simp only
      rcases g m v with e | u <;> simp only <;> omega

theorem action_lin {α β : Type} {a b : Nat} {r : RuleC α} {g : Bytes → α → M β} (h : Lin a b r) : Lin a b (r.action g) := fun i s p hp => action_out (h i s p hp)
theorem action_linC {α β : Type} {a b : Nat} {r : RuleC α} {g : Bytes → α → M β} (h : LinC a b r) : LinC a b (r.action g) := fun i s p hp => action_out (h i s p hp)

theorem action_const {α β : Type} {c : Nat} {r : RuleC α} {g : Bytes → α → M β} (h : Const c r) : Const c (r.action g) := by
  intro i s p
  have h := h i s p
  unfold action
  rcases hr : r i s p with ⟨_ | ⟨_ | ⟨p', v⟩, s'⟩, n⟩ <;> rw [hr] at h <;> simp only at h ⊢
  · exact h
  · exact h
  · cases slice i p p' with
    | error e => exact h
    | ok m =>
      simp only
      rcases g m v with e | u <;> exact h

theorem opt_linC {α : Type} {a b : Nat} {r : RuleC α} (h : LinC a b r) : LinC a b r.opt := by
  intro i s p hp
  have h := h i s p hp
  unfold opt
  rcases hr : r i s p with ⟨_ | ⟨_ | ⟨p', v⟩, s'⟩, n⟩ <;> rw [hr] at h <;> simp only [Out] at h ⊢
  · exact h
  · omega
  · exact h

theorem orElse_linC {α : Type} {a b1 b2 : Nat} {r t : RuleC α} (h : LinC a b1 r) (h' : LinC a b2 t) : LinC a (b1 + b2) (r.orElse t) := by
  intro i s p hp
  have h := h i s p hp
  unfold orElse
  rcases hr : r i s p with ⟨_ | ⟨_ | ⟨p', v⟩, s'⟩, n⟩ <;> rw [hr] at h <;> simp only [Out] at h ⊢
  · omega
  · have h' := h' i s' p hp
    rcases ht : t i s' p with ⟨_ | ⟨_ | ⟨p2, v2⟩, s2⟩, m⟩ <;> rw [ht] at h' <;> simp only [Out] at h' ⊢ <;> omega
  · omega

theorem notP_const {α : Type} {c : Nat} {r : RuleC α} (h : Const c r) : Const c r.notP := by
  intro i s p
  have h := h i s p
  unfold notP
  rcases hr : r i s p with ⟨_ | ⟨_ | ⟨p', v⟩, s'⟩, n⟩ <;> rw [hr] at h <;> exact h

theorem look_const {α : Type} (r : Rule α) : Const 1 (look r) := fun _ _ _ => Nat.le_refl _

theorem done_linC {α : Type} (v : α) (a : Nat) : LinC a 0 (done v) := by
  intro i s p hp
  simp [done, Out, hp]

/-- The string goes on with `m` at `p`. -/
def At (m i : Bytes) (p : Nat) : Prop := i.length ≥ p + m.length ∧ (i.drop p).take m.length = m

theorem text_at {m i : Bytes} {p : Nat} (h : At m i p) (s : PState) : text m i s p = (.ok (some (p + m.length, ()), s), 1) := by
  simp only [text, look, sliceEq]
  rw [if_pos (show i.length ≥ p + m.length ∧ (i.drop p).take m.length = m from h)]

theorem text_not {m i : Bytes} {p : Nat} (h : ¬ At m i p) (s : PState) : text m i s p = (.ok (none, s.markFailure p m), 1) := by
  simp only [text, look, sliceEq]
  rw [if_neg (show ¬(i.length ≥ p + m.length ∧ (i.drop p).take m.length = m) from h)]

theorem text_linC (m : Bytes) (a : Nat) : LinC a 1 (text m) := by
  intro i s p hp
  by_cases h : At m i p
  · rw [text_at h]
    have := h.1
    simp only [Out]
    omega
  · rw [text_not h]
    simp [Out]

theorem word_linC (m : Bytes) (a : Nat) : LinC a 1 (word m) := action_linC (text_linC m a)
theorem word_const (m : Bytes) : Const 1 (word m) := action_const (look_const _)

theorem word_not {m i : Bytes} {p : Nat} (h : ¬ At m i p) (s : PState) : word m i s p = (.ok (none, s.markFailure p m), 1) := by
  simp only [word, action, text_not h]

theorem class_linC {cls : UInt8 → Bool} (hc : ∀ c, cls c = true → c.toNat < 128) (name : Bytes) (a : Nat) : LinC a 1 (look (charClass cls name)) := by
  intro i s p hp
  simp only [look, charClass]
  by_cases h : i.length > p
  · rw [if_pos h]
    cases hr : charRangeAt i p with
    | error e => simp [Out]
    | ok x =>
      obtain ⟨c, next⟩ := x
      simp only
      by_cases hcc : cls c = true
      · rw [if_pos hcc]
        have : next = p + 1 := by
          simp only [charRangeAt] at hr
          split at hr <;> simp at hr
          rw [← hr.2, hr.1]
          simp [charLen, hc c hcc]
        simp only [Out]
        omega
      · rw [if_neg hcc]
        simp [Out]
  · rw [if_neg h]
    simp [Out]

/-! ### Loops -/

theorem loop_const {α : Type} {c : Nat} {r : RuleC α} (h : Const c r) (i : Bytes) (s : PState) (p : Nat) (hp : p ≤ i.length) :
    match r.loop i s p with
    | (.error _, n) => n ≤ c * (i.length - p) + c
    | (.ok (p', vs, _), n) => p ≤ p' ∧ p' ≤ i.length ∧ n ≤ c * (p' - p) + c ∧ (vs.length = 0 → n ≤ c) := by
  fun_induction loop r i s p with
  | case1 s p e n he => have := h i s p; rw [he] at this; simp only at this ⊢; omega
  | case2 s p s' n he => have := h i s p; rw [he] at this; simp only at this ⊢; omega
  | case3 s p p' v s' n he hpp e m hl ih =>
    have := h i s p
    rw [he] at this
    have ih := ih hpp.2
    rw [hl] at ih
    simp only at this ih ⊢
    have e := split_mul c (Nat.le_of_lt hpp.1) hpp.2
    have := Nat.mul_le_mul_left c (show 1 ≤ p' - p by omega)
    omega
  | case4 s p p' v s' n he hpp q vs s2 m hl ih =>
    have := h i s p
    rw [he] at this
    have ih := ih hpp.2
    rw [hl] at ih
    simp only [List.length_cons] at this ih ⊢
    have e := split_mul c (Nat.le_of_lt hpp.1) ih.1
    have := Nat.mul_le_mul_left c (show 1 ≤ p' - p by omega)
    refine ⟨by omega, ih.2.1, by omega, by omega⟩
  | case5 s p p' v s' n he hpp => have := h i s p; rw [he] at this; simp only at this ⊢; omega

theorem star_linC {α : Type} {c : Nat} {r : RuleC α} (h : Const c r) : LinC c c r.star := by
  intro i s p hp
  have := loop_const h i s p hp
  unfold star
  rcases hr : r.loop i s p with ⟨_ | ⟨p', v, s'⟩, n⟩ <;> rw [hr] at this <;> simp only [Out] at this ⊢
  · exact this
  · exact ⟨this.1, this.2.1, this.2.2.1⟩

theorem plus_linC {α : Type} {c : Nat} {r : RuleC α} (h : Const c r) : LinC c c r.plus := by
  intro i s p hp
  have := loop_const h i s p hp
  unfold plus
  rcases hr : r.loop i s p with ⟨_ | ⟨p', v, s'⟩, n⟩ <;> rw [hr] at this <;> simp only at this ⊢
  · exact this
  · by_cases hv : v.length ≥ 1
    · rw [if_pos hv]
      exact ⟨this.1, this.2.1, this.2.2.1⟩
    · rw [if_neg hv]
      exact this.2.2.2 (by omega)

/-- A loop over steps that cost `a` for every byte and `b` more; the last one may cost more than that. -/
theorem loop_lin {α : Type} {a b : Nat} {r : RuleC α} (h : Lin a b r) (i : Bytes) (s : PState) (p : Nat) (hp : p ≤ i.length) :
    match r.loop i s p with
    | (.error _, n) => n ≤ (a + b) * (i.length - p) + b
    | (.ok (p', _, _), n) => p ≤ p' ∧ p' ≤ i.length ∧
      ∃ last s1 s2, r i s1 p' = (.ok (none, s2), last) ∧ n ≤ (a + b) * (p' - p) + last := by
  fun_induction loop r i s p with
  | case1 s p e n he =>
    have := h i s p hp
    rw [he] at this
    simp only [Out, Nat.add_mul] at this ⊢
    omega
  | case2 s p s' n he => exact ⟨Nat.le_refl _, hp, n, s, s', he, by omega⟩
  | case3 s p p' v s' n he hpp e m hl ih =>
    have := h i s p hp
    rw [he] at this
    have ih := ih hpp.2
    rw [hl] at ih
    simp only [Out] at this ih ⊢
    have e := split_mul (a + b) this.1 this.2.1
    have := Nat.mul_le_mul_left b (show 1 ≤ p' - p by omega)
    have := Nat.add_mul a b (p' - p)
    omega
  | case4 s p p' v s' n he hpp q vs s2 m hl ih =>
    have := h i s p hp
    rw [he] at this
    have ih := ih hpp.2
    rw [hl] at ih
    simp only [Out] at this ih ⊢
    obtain ⟨i1, i2, last, s3, s4, i3, i4⟩ := ih
    have e := split_mul (a + b) this.1 i1
    have := Nat.mul_le_mul_left b (show 1 ≤ p' - p by omega)
    have := Nat.add_mul a b (p' - p)
    refine ⟨by omega, i2, last, s3, s4, i3, by omega⟩
  | case5 s p p' v s' n he hpp =>
    have := h i s p hp
    rw [he] at this
    simp only [Out] at this ⊢
    have e := split_mul a this.1 this.2.1
    have := Nat.add_mul a b (i.length - p)
    omega

/-! ### The rules -/

theorem ident_ascii : ∀ c, isIdentStart c = true → c.toNat < 128 := by
  intro c h
  simp [isIdentStart] at h
  rcases h with ((h | h) | h) | h
  · omega
  · omega
  · subst h; decide
  · subst h; decide

theorem digit_ascii : ∀ c, isDigit c = true → c.toNat < 128 := by
  intro c h
  simp [isDigit] at h
  omega

theorem identifier_linC : LinC 2 3 identifier :=
  action_linC (seq_linC (b1 := 1) (b2 := 2) (class_linC ident_ascii _ _) (look_const _) fun _ =>
    star_linC (seq_const (b1 := 1) (b2 := 1) (look_const _) fun _ => notP_const (look_const _)))

theorem parserName_linC : LinC 2 4 parserName :=
  action_linC (seq_linC (b1 := 1) (b2 := 3) (text_linC _ _) (look_const _) fun _ => identifier_linC)

theorem literal_linC : LinC 2 2 literal :=
  action_linC (plus_linC (seq_const (b1 := 1) (b2 := 1) (notP_const (look_const _)) fun _ => look_const _))

theorem quoted_linC : LinC 2 2 quoted :=
  action_linC (plus_linC (seq_const (b1 := 1) (b2 := 1) (notP_const (look_const _)) fun _ => look_const _))

theorem string_lin : Lin 2 4 string :=
  action_lin (seq_lin (b1 := 1) (b2 := 3) (text_linC _ _).lin fun _ => seq_lin (b1 := 2) (b2 := 1) quoted_linC.lin fun s =>
    seq_lin (b1 := 1) (b2 := 0) (text_linC _ _).lin fun _ => (done_linC _ _).lin)

theorem comma_linC : LinC 1 2 comma :=
  seq_linC (b1 := 1) (b2 := 1) (text_linC _ _) (look_const _) fun _ => star_linC (look_const _)

theorem int_linC : LinC 1 1 int := action_linC (plus_linC (look_const _))

theorem int_seq_linC {β : Type} (g : Nat → β) : LinC 1 1 (int.seq fun v => done (g v)) := by
  intro i s p hp
  have h := int_linC i s p hp
  unfold seq
  rcases hr : int i s p with ⟨_ | ⟨_ | ⟨p', v⟩, s'⟩, n⟩ <;> rw [hr] at h <;> simp only [Out, done] at h ⊢ <;> omega

theorem lengthParam_linC (key : Bytes) : LinC 1 3 (lengthParam key) :=
  action_linC (seq_linC (b1 := 1) (b2 := 2) (word_linC _ _) (word_const _) fun _ => seq_linC (b1 := 1) (b2 := 1) (text_linC _ _) (look_const _) fun _ =>
    int_seq_linC _)

theorem baseOptionalParam_linC : LinC 1 6 baseOptionalParam := orElse_linC (lengthParam_linC _) (lengthParam_linC _)

/-- As `Out`, but a run that matched may have cost more, up to all that is left, if it stopped before the character `c`. -/
def OutU {α : Type} (c : UInt8) (a b f : Nat) (i : Bytes) (p : Nat) : M (Option (Nat × α) × PState) × Nat → Prop
  | (.ok (some (p', _), _), n) => p ≤ p' ∧ p' ≤ i.length ∧ (n ≤ a * (p' - p) + b ∨ (i[p']? = some c ∧ n ≤ a * (i.length - p) + b))
  | (.ok (none, _), n) => n ≤ f
  | (.error _, n) => n ≤ a * (i.length - p) + b

theorem Out.outU {α : Type} {a b f : Nat} {i : Bytes} {p : Nat} {o : M (Option (Nat × α) × PState) × Nat} (h : Out a b f i p o) (c : UInt8) :
    OutU c a b f i p o := by
  rcases o with ⟨_ | ⟨_ | ⟨p', v⟩, s'⟩, n⟩ <;> simp only [Out, OutU] at h ⊢
  · exact h
  · exact h
  · exact ⟨h.1, h.2.1, .inl h.2.2⟩

theorem OutU.mono {α : Type} {c : UInt8} {a b f b' f' : Nat} {i : Bytes} {p : Nat} {o : M (Option (Nat × α) × PState) × Nat} (h : OutU c a b f i p o)
    (hb : b ≤ b') (hf : f ≤ f') : OutU c a b' f' i p o := by
  rcases o with ⟨_ | ⟨_ | ⟨p', v⟩, s'⟩, n⟩ <;> simp only [OutU] at h ⊢
  · omega
  · omega
  · refine ⟨h.1, h.2.1, h.2.2.imp (fun h => by omega) fun h => ⟨h.1, by omega⟩⟩

theorem action_outU {α β : Type} {c : UInt8} {a b f : Nat} {r : RuleC α} {g : Bytes → α → M β} {i : Bytes} {s : PState} {p : Nat}
    (h : OutU c a b f i p (r i s p)) : OutU c a b f i p (r.action g i s p) := by
  unfold action
  rcases hr : r i s p with ⟨_ | ⟨_ | ⟨p', v⟩, s'⟩, n⟩ <;> rw [hr] at h <;> simp only [OutU] at h ⊢
  · exact h
  · exact h
  · have e := split_mul a h.1 h.2.1
    have hn : n ≤ a * (i.length - p) + b := by rcases h.2.2 with h | h <;> omega
    cases slice i p p' with
    | error e => exact hn
    | ok m =>
      simp only
      rcases g m v with e | u <;> simp only
      · exact hn
      · exact h

theorem opt_outU {α : Type} {c : UInt8} {a b f : Nat} {r : RuleC α} {i : Bytes} {s : PState} {p : Nat} (hp : p ≤ i.length) (h : OutU c a b f i p (r i s p))
    (hf : f ≤ b ∨ (i[p]? = some c ∧ f ≤ a * (i.length - p) + b)) : OutU c a b 0 i p (r.opt i s p) := by
  unfold opt
  rcases hr : r i s p with ⟨_ | ⟨_ | ⟨p', v⟩, s'⟩, n⟩ <;> rw [hr] at h <;> simp only [OutU] at h ⊢
  · exact h
  · refine ⟨Nat.le_refl _, hp, hf.imp (fun h => by omega) fun h => ⟨h.1, by omega⟩⟩
  · exact h

theorem seq_outU {α β : Type} {c : UInt8} {a b1 b2 f1 : Nat} {r : RuleC α} {k : α → RuleC β} {i : Bytes} {s : PState} {p : Nat}
    (h : Out a b1 f1 i p (r i s p)) (hf : f1 ≤ b1) (hk : ∀ v s' p', p' ≤ i.length → OutU c a b2 (a * (i.length - p') + b2) i p' (k v i s' p')) :
    OutU c a (b1 + b2) (a * (i.length - p) + (b1 + b2)) i p (r.seq k i s p) := by
  unfold seq
  rcases hr : r i s p with ⟨_ | ⟨_ | ⟨p', v⟩, s'⟩, n⟩ <;> rw [hr] at h <;> simp only [Out, OutU] at h ⊢
  · omega
  · omega
  · obtain ⟨h1, h2, h3⟩ := h
    have h4 := hk v s' p' h2
    have e := split_mul a h1 h2
    rcases hk' : k v i s' p' with ⟨_ | ⟨_ | ⟨p2, v2⟩, s2⟩, m⟩ <;> rw [hk'] at h4 <;> simp only [OutU] at h4 ⊢
    · omega
    · omega
    · have e2 := split_mul a h1 h4.1
      exact ⟨by omega, h4.2.1, h4.2.2.imp (fun h => by omega) fun h => ⟨h.1, by omega⟩⟩

theorem seq_linU {α β : Type} {c : UInt8} {a b1 b2 f : Nat} {r : RuleC α} {k : α → RuleC β} {i : Bytes} {s : PState} {p : Nat}
    (h : OutU c a b1 f i p (r i s p)) (hf : f ≤ a * (i.length - p) + b1) (hk : ∀ v, Lin a b2 (k v))
    (hs : ∀ v s' p', i[p']? = some c → ∃ s2 m, k v i s' p' = (.ok (none, s2), m) ∧ m ≤ b2) :
    Out a (b1 + b2) (a * (i.length - p) + (b1 + b2)) i p (r.seq k i s p) := by
  unfold seq
  rcases hr : r i s p with ⟨_ | ⟨_ | ⟨p', v⟩, s'⟩, n⟩ <;> rw [hr] at h <;> simp only [Out, OutU] at h ⊢
  · omega
  · omega
  · obtain ⟨h1, h2, h3 | ⟨hc, h3⟩⟩ := h
    · have h4 := hk v i s' p' h2
      have e := split_mul a h1 h2
      rcases hk' : k v i s' p' with ⟨_ | ⟨_ | ⟨p2, v2⟩, s2⟩, m⟩ <;> rw [hk'] at h4 <;> simp only [Out] at h4 ⊢
      · omega
      · omega
      · have e2 := split_mul a h1 h4.1
        omega
    · obtain ⟨s2, m, e, hm⟩ := hs v s' p' hc
      rw [e]
      simp only
      omega

theorem at_char {c : UInt8} {i : Bytes} {p : Nat} : At [c] i p ↔ i[p]? = some c := by
  unfold At
  rw [List.getElem?_eq_some_iff]
  constructor
  · rintro ⟨h1, h2⟩
    have : p < i.length := by simp at h1; omega
    refine ⟨this, ?_⟩
    rw [List.drop_eq_getElem_cons this] at h2
    exact (List.cons.inj h2).1
  · rintro ⟨h1, h2⟩
    rw [List.drop_eq_getElem_cons h1]
    simp [h2]
    omega

theorem text_other {c d : UInt8} (hcd : c ≠ d) {i : Bytes} {p : Nat} (h : i[p]? = some c) (s : PState) :
    text [d] i s p = (.ok (none, s.markFailure p [d]), 1) :=
  text_not (fun hd => by rw [at_char, h] at hd; simp at hd; exact hcd hd) s

theorem sepBy_outU (i : Bytes) (s : PState) (p : Nat) (hp : p ≤ i.length) : OutU 44 9 14 0 i p (baseOptionalParam.sepBy comma i s p) := by
  have hb := baseOptionalParam_linC i s p hp
  unfold sepBy
  rcases hr : baseOptionalParam i s p with ⟨_ | ⟨_ | ⟨p', v⟩, s'⟩, n⟩ <;> rw [hr] at hb <;> simp only [Out, OutU] at hb ⊢
  · omega
  · exact ⟨Nat.le_refl _, hp, .inl (by omega)⟩
  · have hstep : Lin 1 8 (comma.seq fun _ => baseOptionalParam) := seq_lin (b1 := 2) (b2 := 6) comma_linC.lin fun _ => baseOptionalParam_linC.lin
    have hl := loop_lin hstep i s' p' hb.2.1
    rcases hr2 : (comma.seq fun _ => baseOptionalParam).loop i s' p' with ⟨_ | ⟨p2, v2, s2⟩, m⟩ <;> rw [hr2] at hl <;> simp only at hl ⊢
    · omega
    · obtain ⟨h1, h2, last, s3, s4, h3, h4⟩ := hl
      refine ⟨by omega, h2, ?_⟩
      by_cases hc : At b!"," i p2
      · refine .inr ⟨at_char.mp hc, ?_⟩
        have := hstep i s3 p2 h2
        rw [h3] at this
        simp only [Out] at this
        omega
      · refine .inl ?_
        have : last = 1 := by
          simp only [seq, comma, text_not hc] at h3
          simp at h3
          exact h3.2.symm
        omega

theorem setOptionalParams_outU (i : Bytes) (s : PState) (p : Nat) (hp : p ≤ i.length) : OutU 44 9 16 0 i p (setOptionalParams.opt i s p) := by
  by_cases hc : At b!"," i p
  · exact opt_outU hp (f := 9 * (i.length - p) + 16) (action_outU (seq_outU (b1 := 2) (b2 := 14) (comma_linC.mono (by decide) (by decide) i s p hp) (Nat.le_refl _)
      fun _ s' p' hp' => (sepBy_outU i s' p' hp').mono (Nat.le_refl _) (by omega))) (.inr ⟨at_char.mp hc, Nat.le_refl _⟩)
  · simp only [opt, setOptionalParams, action, seq, comma, text_not hc, OutU]
    exact ⟨Nat.le_refl _, hp, .inl (by omega)⟩

theorem parserName_opt (a : Nat) (ha : 2 ≤ a) : LinC a 4 parserName.opt := opt_linC (parserName_linC.mono ha (by decide))

theorem parserSet_lin : Lin 9 27 parserSet :=
  action_lin (seq_lin (b1 := 1) (b2 := 26) (word_linC _ _).lin fun _ => seq_lin (b1 := 1) (b2 := 25) (text_linC _ _).lin fun _ =>
    seq_lin (b1 := 4) (b2 := 21) (string_lin.mono (by decide) (by decide)) fun _ => fun i s p hp =>
      seq_linU (b1 := 16) (b2 := 5) (setOptionalParams_outU i s p hp) (by omega)
        (fun _ => seq_lin (b1 := 1) (b2 := 4) (text_linC _ _).lin fun _ => seq_lin (b1 := 4) (b2 := 0) (parserName_opt 9 (by decide)).lin fun _ => (done_linC _ _).lin)
        fun v s' p' hc => ⟨_, 1, by simp only [seq, text_other (by decide : (44 : UInt8) ≠ 41) hc s']; rfl, by decide⟩)

theorem intOptionalParams_lin : Lin 9 16 intOptionalParams :=
  action_lin (seq_lin (b1 := 1) (b2 := 15) (text_linC _ _).lin fun _ => fun i s p hp =>
    seq_linU (b1 := 14) (b2 := 1) (sepBy_outU i s p hp) (by omega) (fun _ => seq_lin (b1 := 1) (b2 := 0) (text_linC _ _).lin fun _ => (done_linC _ _).lin)
      fun v s' p' hc => ⟨_, 1, by simp only [seq, text_other (by decide : (44 : UInt8) ≠ 41) hc s']; rfl, by decide⟩)

theorem intOptionalParams_outU (i : Bytes) (s : PState) (p : Nat) (hp : p ≤ i.length) : OutU 40 9 16 0 i p (intOptionalParams.opt i s p) := by
  by_cases hc : At b!"(" i p
  · exact opt_outU hp ((intOptionalParams_lin i s p hp).outU 40) (.inr ⟨at_char.mp hc, Nat.le_refl _⟩)
  · simp only [opt, intOptionalParams, action, seq, text_not hc, OutU]
    exact ⟨Nat.le_refl _, hp, .inl (by omega)⟩

theorem intRest_outU (i : Bytes) (s : PState) (p : Nat) (hp : p ≤ i.length) :
    OutU 40 9 20 0 i p ((intOptionalParams.opt.seq fun params => parserName.opt.seq fun name => done (params, name)) i s p) := by
  have h := intOptionalParams_outU i s p hp
  rw [seq]
  rcases hr : intOptionalParams.opt i s p with ⟨_ | ⟨_ | ⟨p', v⟩, s'⟩, n⟩ <;> rw [hr] at h <;> simp only [OutU] at h ⊢
  · omega
  · exact h
  · obtain ⟨h1, h2, h3 | ⟨hc, h3⟩⟩ := h
    · have h4 := parserName_opt 9 (by decide) i s' p' h2
      have e := split_mul 9 h1 h2
      have hn : ∀ s2 m, parserName.opt i s' p' ≠ (.ok (none, s2), m) := by
        intro s2 m e
        unfold opt at e
        rcases hr : parserName i s' p' with ⟨_ | ⟨_ | ⟨p', v⟩, s'⟩, n⟩ <;> rw [hr] at e <;> simp at e
      rw [seq]
      rcases hk' : parserName.opt i s' p' with ⟨_ | ⟨_ | ⟨p2, v2⟩, s2⟩, m⟩ <;> rw [hk'] at h4 hn <;> simp only [Out, done] at h4 ⊢
      · omega
      · exact absurd rfl (hn _ _)
      · exact ⟨by omega, h4.2.1, .inl (by omega)⟩
    · simp only [seq, opt, parserName, action, text_other (by decide : (40 : UInt8) ≠ 58) hc, done]
      exact ⟨h1, h2, .inr ⟨hc, by omega⟩⟩

theorem parserInt_outU (i : Bytes) (s : PState) (p : Nat) (hp : p ≤ i.length) : OutU 40 9 21 (9 * (i.length - p) + 21) i p (parserInt i s p) :=
  action_outU (seq_outU (b1 := 1) (b2 := 20) (word_linC _ _ i s p hp) (Nat.le_refl _) fun _ s' p' hp' =>
    (intRest_outU i s' p' hp').mono (Nat.le_refl _) (by omega))

theorem parserSet_not {i : Bytes} {p : Nat} (h : ¬ At b!"SET" i p) (s : PState) : ∃ s', parserSet i s p = (.ok (none, s'), 1) :=
  ⟨_, by simp only [parserSet, action, seq, word_not h]; rfl⟩

theorem parserInt_not {i : Bytes} {p : Nat} (h : ¬ At b!"INT" i p) (s : PState) : ∃ s', parserInt i s p = (.ok (none, s'), 1) :=
  ⟨_, by simp only [parserInt, action, seq, word_not h]; rfl⟩

theorem parser_outU (i : Bytes) (s : PState) (p : Nat) (hp : p ≤ i.length) :
    OutU 40 9 28 (9 * (i.length - p) + 28) i p (parserSet.orElse parserInt i s p) := by
  rw [orElse]
  by_cases hs : At b!"SET" i p
  · have h := parserSet_lin i s p hp
    have hi : ¬ At b!"INT" i p := fun hi => by
      have h1 := hs.2
      rw [show (b!"SET").length = (b!"INT").length from rfl, hi.2] at h1
      exact absurd h1 (by decide)
    rcases hr : parserSet i s p with ⟨_ | ⟨_ | ⟨p', v⟩, s'⟩, n⟩ <;> rw [hr] at h <;> simp only [Out, OutU] at h ⊢
    · omega
    · obtain ⟨s2, e⟩ := parserInt_not hi s'
      rw [e]
      simp only
      omega
    · exact ⟨h.1, h.2.1, .inl (by omega)⟩
  · obtain ⟨s', e⟩ := parserSet_not hs s
    have h := parserInt_outU i s' p hp
    rw [e]
    simp only
    rcases hr : parserInt i s' p with ⟨_ | ⟨_ | ⟨p', v⟩, s2⟩, n⟩ <;> rw [hr] at h <;> simp only [OutU] at h ⊢
    · omega
    · omega
    · exact ⟨h.1, h.2.1, h.2.2.imp (fun h => by omega) fun h => ⟨h.1, by omega⟩⟩

theorem pieceParser_lin : Lin 9 30 pieceParser :=
  action_lin (seq_lin (b1 := 1) (b2 := 29) (text_linC _ _).lin fun _ => fun i s p hp =>
    seq_linU (b1 := 28) (b2 := 1) (parser_outU i s p hp) (Nat.le_refl _) (fun _ => seq_lin (b1 := 1) (b2 := 0) (text_linC _ _).lin fun _ => (done_linC _ _).lin)
      fun v s' p' hc => ⟨_, 1, by simp only [seq, text_other (by decide : (40 : UInt8) ≠ 125) hc s']; rfl, by decide⟩)

theorem parserGreedy_lin : Lin 9 9 parserGreedy :=
  action_lin (seq_lin (b1 := 1) (b2 := 8) (text_linC _ _).lin fun _ => seq_lin (b1 := 1) (b2 := 7) (word_linC _ _).lin fun _ =>
    seq_lin (b1 := 4) (b2 := 3) (parserName_opt 9 (by decide)).lin fun _ => seq_lin (b1 := 1) (b2 := 2) (text_linC _ _).lin fun _ =>
    seq_lin (b1 := 2) (b2 := 0) (opt_linC (literal_linC.mono (by decide) (by decide))).lin fun _ => (done_linC _ _).lin)

theorem parserGreedy_not {i : Bytes} {p : Nat} (h : ¬ (At b!"%{" i p ∧ At b!"GREEDY" i (p + 2))) (s : PState) :
    ∃ s' n, parserGreedy i s p = (.ok (none, s'), n) ∧ n ≤ 2 := by
  by_cases h1 : At b!"%{" i p
  · have h2 : ¬ At b!"GREEDY" i (p + (b!"%{").length) := fun h2 => h ⟨h1, h2⟩
    exact ⟨_, 2, by simp only [parserGreedy, action, seq, text_at h1, word_not h2]; rfl, by decide⟩
  · exact ⟨_, 1, by simp only [parserGreedy, action, seq, text_not h1]; rfl, by decide⟩

theorem pieceLiteral_not {i : Bytes} {p : Nat} (h : At b!"%{" i p) (s : PState) : ∃ s', pieceLiteral i s p = (.ok (none, s'), 1) := by
  refine ⟨s, ?_⟩
  simp only [pieceLiteral, literal, action, plus]
  rw [loop]
  simp only [seq, notP, text_at h]
  rfl

theorem pieceParser_not {i : Bytes} {p : Nat} (h : At b!"%{" i p) (hg : At b!"GREEDY" i (p + 2)) (s : PState) :
    ∃ s', pieceParser i s p = (.ok (none, s'), 3) := by
  have h3 : ((i.drop (p + 2)).take 3) = b!"GRE" := by
    have := congrArg (List.take 3) hg.2
    rw [List.take_take] at this
    exact this
  have hs : ¬ At b!"SET" i (p + (b!"%{").length) := fun h => absurd (h.2.symm.trans h3) (by decide)
  have hi : ¬ At b!"INT" i (p + (b!"%{").length) := fun h => absurd (h.2.symm.trans h3) (by decide)
  obtain ⟨s1, e1⟩ := parserSet_not hs s
  obtain ⟨s2, e2⟩ := parserInt_not hi s1
  exact ⟨s2, by simp only [pieceParser, action, seq, text_at h, orElse, e1, e2]⟩

theorem patternPiece_lin : Lin 9 34 patternPiece := by
  intro i s p hp
  unfold patternPiece
  rw [orElse]
  by_cases hg : At b!"%{" i p ∧ At b!"GREEDY" i (p + 2)
  · have h := parserGreedy_lin i s p hp
    rcases hr : parserGreedy i s p with ⟨_ | ⟨_ | ⟨p', v⟩, s'⟩, n⟩ <;> rw [hr] at h <;> simp only [Out] at h ⊢
    · omega
    · obtain ⟨s1, e1⟩ := pieceLiteral_not hg.1 s'
      obtain ⟨s2, e2⟩ := pieceParser_not hg.1 hg.2 s1
      simp only [orElse, e1, e2]
      omega
    · omega
  · obtain ⟨s', n, e, hn⟩ := parserGreedy_not hg s
    rw [e]
    simp only
    have h := action_linC (g := fun _ l => .ok [Token.literal (unescapeLiteral l)]) literal_linC i s' p hp
    rw [orElse]
    rcases hr : pieceLiteral i s' p with ⟨_ | ⟨_ | ⟨p', v⟩, s2⟩, m⟩ <;> rw [pieceLiteral] at hr <;> rw [hr] at h <;> simp only [Out] at h ⊢
    · omega
    · have h' := pieceParser_lin i s2 p hp
      rcases hr' : pieceParser i s2 p with ⟨_ | ⟨_ | ⟨p', v⟩, s3⟩, k⟩ <;> rw [hr'] at h' <;> simp only [Out] at h' ⊢ <;> omega
    · omega

theorem compileC_snd (input : Bytes) : (compileC input).2 ≤ 43 * input.length + 34 := by
  have hl := loop_lin patternPiece_lin input .new 0 (Nat.zero_le _)
  have hp : (patternPiece.loop input .new 0).2 ≤ 43 * input.length + 34 := by
    rcases hr : patternPiece.loop input .new 0 with ⟨_ | ⟨p', v, s'⟩, n⟩ <;> rw [hr] at hl <;> simp only at hl ⊢
    · omega
    · obtain ⟨h1, h2, last, s1, s2, h3, h4⟩ := hl
      have := patternPiece_lin input s1 p' h2
      rw [h3] at this
      simp only [Out] at this
      omega
  have hq : (pattern input .new 0).2 = (patternPiece.loop input .new 0).2 := by
    unfold pattern action plus
    rcases patternPiece.loop input .new 0 with ⟨_ | ⟨p', v, s'⟩, n⟩
    · rfl
    · simp only
      by_cases hv : v.length ≥ 1
      · simp only [if_pos hv]
        cases slice input 0 p' <;> rfl
      · simp only [if_neg hv]
  have hc : (compileC input).2 = (pattern input .new 0).2 := by
    unfold compileC
    rcases pattern input .new 0 with ⟨_ | ⟨_ | ⟨p', v⟩, s'⟩, n⟩ <;> simp only
    split <;> rfl
  omega

/-! ### Literal text -/

theorem not_at {i : Bytes} (h : ∀ c ∈ i, c.toNat < 128 ∧ c ≠ 37) (p : Nat) : ¬ At b!"%{" i p := by
  intro ha
  have hm : (37 : UInt8) ∈ (i.drop p).take (b!"%{").length := by
    rw [show (i.drop p).take (b!"%{").length = b!"%{" from ha.2]
    decide
  exact (h 37 (List.mem_of_mem_drop (List.mem_of_mem_take hm))).2 rfl

theorem literal_loop {i : Bytes} (h : ∀ c ∈ i, c.toNat < 128 ∧ c ≠ 37) (s : PState) (p : Nat) (hp : p ≤ i.length) :
    ∃ vs s', ((text b!"%{").notP.seq fun _ => look anyChar).loop i s p = (.ok (i.length, vs, s'), 2 * (i.length - p) + 2) ∧ vs.length = i.length - p := by
  generalize hk : i.length - p = k
  induction k generalizing s p with
  | zero =>
    have : ¬ i.length > p := by omega
    rw [loop]
    simp only [seq, notP, text_not (not_at h p), look, anyChar, if_neg this]
    exact ⟨[], _, by rw [show p = i.length by omega], rfl⟩
  | succ k ih =>
    have hl : i.length > p := by omega
    obtain ⟨vs, s', e, hv⟩ := ih (s.markFailure p b!"%{") (p + 1) (by omega) (by omega)
    have hc : charRangeAt i p = .ok (i[p], p + 1) := by
      have hb : charLen i[p] = 1 := by simp [charLen, (h i[p] (List.getElem_mem hl)).1]
      rw [charRangeAt, sliceFrom_ok (ascii_boundary (fun c hc => (h c hc).1) hp), List.drop_eq_getElem_cons hl]
      simp only [hb]
    rw [loop]
    simp only [seq, notP, text_not (not_at h p), look, anyChar, if_pos hl, hc]
    rw [if_pos ⟨by omega, by omega⟩, e]
    exact ⟨_, _, by simp only; congr 1; omega, by simp [hv]⟩

theorem slice_ascii {i : Bytes} (h : ∀ c ∈ i, c.toNat < 128 ∧ c ≠ 37) : ∃ m, slice i 0 i.length = .ok m :=
  ⟨_, by rw [slice, if_pos ⟨Nat.zero_le _, ascii_boundary (fun c hc => (h c hc).1) (Nat.zero_le _),
    ascii_boundary (fun c hc => (h c hc).1) (Nat.le_refl _)⟩]⟩

theorem literal_piece {i : Bytes} (h : ∀ c ∈ i, c.toNat < 128 ∧ c ≠ 37) (h0 : i ≠ []) (s : PState) :
    ∃ v s', patternPiece i s 0 = (.ok (some (i.length, v), s'), 2 * i.length + 3) := by
  obtain ⟨m, hm⟩ := slice_ascii h
  obtain ⟨vs, s', e, hv⟩ := literal_loop h (s.markFailure 0 b!"%{") 0 (Nat.zero_le _)
  have h1 : vs.length ≥ 1 := by have := List.length_pos_iff.mpr h0; omega
  simp only [patternPiece, orElse, parserGreedy, action, seq, text_not (not_at h 0), pieceLiteral, literal, plus]
  simp only [e, if_pos h1, hm]
  rw [show 1 + (2 * (i.length - 0) + 2) = 2 * i.length + 3 by omega]
  exact ⟨_, _, rfl⟩

theorem end_piece {i : Bytes} (h : ∀ c ∈ i, c.toNat < 128 ∧ c ≠ 37) (s : PState) : ∃ s', patternPiece i s i.length = (.ok (none, s'), 4) := by
  obtain ⟨vs, s', e, hv⟩ := literal_loop h (s.markFailure i.length b!"%{") i.length (Nat.le_refl _)
  have h1 : ¬ vs.length ≥ 1 := by omega
  simp only [patternPiece, orElse, parserGreedy, action, seq, text_not (not_at h _), pieceLiteral, literal, plus, pieceParser]
  simp only [e, if_neg h1]
  rw [show 1 + (2 * (i.length - i.length) + 2 + 1) = 4 by omega]
  exact ⟨_, rfl⟩

theorem compileC_literal {i : Bytes} (h : ∀ c ∈ i, c.toNat < 128 ∧ c ≠ 37) (h0 : i ≠ []) : (compileC i).2 = 2 * i.length + 7 := by
  obtain ⟨m, hm⟩ := slice_ascii h
  obtain ⟨v, s1, e1⟩ := literal_piece h h0 .new
  obtain ⟨s2, e2⟩ := end_piece h s1
  have hl := List.length_pos_iff.mpr h0
  have e3 : patternPiece.loop i .new 0 = (.ok (i.length, [v], s2), 2 * i.length + 7) := by
    rw [loop, e1]
    simp only
    rw [if_pos ⟨hl, Nat.le_refl _⟩, loop, e2]
  simp only [compileC, pattern, action, plus, e3]
  simp [hm]

end RuleC

/-- C134: while a pattern string is compiled, the parser looks at it at most 43 times for each of its bytes and 34 times more, whether it compiles or not. -/
theorem C134_linear (s : Bytes) : ∃ n, compileC s = (compile s, n) ∧ n ≤ 43 * s.length + 34 :=
  ⟨(compileC s).2, by rw [← RuleC.compileC_fst], RuleC.compileC_snd s⟩

/-- C134: a pattern string of plain text alone, without a percent sign, takes exactly two looks for each byte and seven more: the bound above is of the
right order. -/
theorem C134_plain {s : Bytes} (h : ∀ c ∈ s, c.toNat < 128 ∧ c ≠ 37) (h0 : s ≠ []) : (compileC s).2 = 2 * s.length + 7 :=
  RuleC.compileC_literal h h0

end Verif
