import Verif.Spec.SameData
import Verif.Props.C46_C48_Files
/-! C123: the order of the entries of an object in a pattern file does not matter. -/
namespace Verif
open Spec

theorem swapped_symm {v w : Val} (h : Swapped v w) : Swapped w v := by
  induction h with
  | here A B k k' v v' hk => exact .here A B k' k v' v fun e => hk e.symm
  | entry A B k v w _ ih => exact .entry A B k w v ih
  | element A B v w _ ih => exact .element A B w v ih

theorem sameData_trans {u v w : Val} (h : SameData u v) (h' : SameData v w) : SameData u w := by
  induction h' with
  | refl => exact h
  | step v' w _ hs ih => exact .step _ _ _ ih hs

theorem sameData_symm {v w : Val} (h : SameData v w) : SameData w v := by
  induction h with
  | refl => exact .refl _
  | step v w _ hs ih => exact sameData_trans (.step _ _ _ (.refl _) (swapped_symm hs)) ih

/-- The meaning of a document does not change when entries change places. -/
def Unmoved {α : Type} (R : Val → α → Prop) : Prop := ∀ v w x, Swapped v w → R v x → R w x

variable {d : Deps}

theorem unmoved_string (hd : TakenAsIs d) : Unmoved (IsString d) := by
  intro v w x h hx
  cases h with
  | here => exact absurd hx (hd.noString' _ _)
  | entry => exact absurd hx (hd.noString' _ _)
  | element => exact absurd hx (hd.noString _ _)

theorem unmoved_uuid (hd : TakenAsIs d) : Unmoved (fun w u => d.uuid w = .ok u) := by
  intro v w x h hx
  cases h with
  | here => exact absurd hx (hd.noUuid' _ _)
  | entry => exact absurd hx (hd.noUuid' _ _)
  | element => exact absurd hx (hd.noUuid _ _)

theorem each_replace {α β : Type} {R : α → β → Prop} {v w : α} (h : ∀ x, R v x → R w x) (A B : List α) (xs : List β) (he : Each R (A ++ v :: B) xs) :
    Each R (A ++ w :: B) xs := by
  induction A generalizing xs with
  | nil => cases he with | cons a b as bs h1 h2 => exact .cons _ _ _ _ (h _ h1) h2
  | cons a A ih => cases he with | cons a b as bs h1 h2 => exact .cons _ _ _ _ h1 (ih _ h2)

theorem unmoved_list (hd : TakenAsIs d) {α : Type} {R : Val → α → Prop} (hR : Unmoved R) : Unmoved (IsList d R) := by
  rintro v w xs h ⟨l, hl, he⟩
  cases h with
  | here => exact absurd hl (hd.noSeq _ _)
  | entry => exact absurd hl (hd.noSeq _ _)
  | element A B v w hs =>
    rw [hd.seq] at hl
    cases hl
    exact ⟨_, hd.seq _, each_replace (fun x => hR _ _ x hs) A B xs he⟩

theorem each_swap {α β : Type} {R : α → β → Prop} {v w : α} (A B : List α) (xs : List β) (he : Each R (A ++ v :: w :: B) xs) :
    ∃ xs₁ x y xs₂, xs = xs₁ ++ x :: y :: xs₂ ∧ R v x ∧ R w y ∧ Each R (A ++ w :: v :: B) (xs₁ ++ y :: x :: xs₂) := by
  induction A generalizing xs with
  | nil =>
    cases he with
    | cons a b as bs h1 h2 =>
      cases h2 with
      | cons a' b' as' bs' h1' h2' => exact ⟨[], b, b', bs', rfl, h1, h1', .cons _ _ _ _ h1' (.cons _ _ _ _ h1 h2')⟩
  | cons a A ih =>
    cases he with
    | cons a b as bs h1 h2 =>
      obtain ⟨xs₁, x, y, xs₂, rfl, hx, hy, h⟩ := ih _ h2
      exact ⟨b :: xs₁, x, y, xs₂, rfl, hx, hy, .cons _ _ _ _ h1 h⟩

theorem unmoved_map (hd : TakenAsIs d) : Unmoved (IsMap d) := by
  rintro v w m h ⟨l, kvs, hl, he, hm, hk⟩
  cases h with
  | here A B k k' v v' hne =>
    rw [hd.entries] at hl
    cases hl
    obtain ⟨xs₁, x, y, xs₂, rfl, hx, hy, h⟩ := each_swap A B kvs he
    refine ⟨_, _, hd.entries _, h, hm, fun a b => ?_⟩
    rw [hk]
    have h1 : x.1 = k := hd.string _ _ hx.1
    have h2 : y.1 = k' := hd.string _ _ hy.1
    simp only [List.reverse_append, List.reverse_cons, List.append_assoc, List.find?_append, List.find?_cons, List.find?_nil, List.cons_append,
      List.nil_append]
    by_cases ha : x.1 = a
    · have hb : y.1 ≠ a := by rw [h2]; intro e; exact hne (by rw [← h1, ha, e])
      simp [ha, hb]
    · simp [ha]
  | entry A B k v w hs =>
    rw [hd.entries] at hl
    cases hl
    refine ⟨_, kvs, hd.entries _, each_replace (fun x hx => ⟨hx.1, unmoved_string hd _ _ _ hs hx.2⟩) A B kvs he, hm, hk⟩
  | element => exact absurd hl (hd.noEntries _ _)

theorem lastEntry_cons {e : Val × Val} {l : List (Val × Val)} {k : Bytes} {v : Val} :
    LastEntry (e :: l) k v ↔ LastEntry l k v ∨ (∀ e ∈ l, e.1 ≠ .str k) ∧ e = (.str k, v) := by
  constructor
  · rintro ⟨A, B, h, hB⟩
    cases A with
    | nil => simp at h; rw [h.2]; exact .inr ⟨hB, h.1⟩
    | cons a A => simp at h; exact .inl ⟨A, B, h.2, hB⟩
  · rintro (⟨A, B, rfl, hB⟩ | ⟨h, rfl⟩)
    · exact ⟨e :: A, B, rfl, hB⟩
    · exact ⟨[], l, rfl, h⟩

theorem lastEntry_append {A B : List (Val × Val)} {k : Bytes} {v : Val} :
    LastEntry (A ++ B) k v ↔ LastEntry B k v ∨ (∀ e ∈ B, e.1 ≠ .str k) ∧ LastEntry A k v := by
  induction A with
  | nil => simp; intro _ h; obtain ⟨A, B, e, _⟩ := h; simp at e
  | cons a A ih =>
    rw [List.cons_append, lastEntry_cons, ih, lastEntry_cons]
    constructor
    · rintro ((h | ⟨h, h'⟩) | ⟨h, h'⟩)
      · exact .inl h
      · exact .inr ⟨h, .inl h'⟩
      · exact .inr ⟨fun e he => h e (by simp [he]), .inr ⟨fun e he => h e (by simp [he]), h'⟩⟩
    · rintro (h | ⟨h, h' | ⟨h', h''⟩⟩)
      · exact .inl (.inl h)
      · exact .inl (.inr ⟨h, h'⟩)
      · refine .inr ⟨fun e he => ?_, h''⟩
        rcases List.mem_append.mp he with he | he
        · exact h' e he
        · exact h e he

theorem field_swap {α : Type} {R : Val → α → Prop} {A B : List (Val × Val)} {k k' : Bytes} {v v' : Val} (hne : k ≠ k') (f : Bytes) (o : Option α)
    (h : Field (A ++ (.str k, v) :: (.str k', v') :: B) f R o) : Field (A ++ (.str k', v') :: (.str k, v) :: B) f R o := by
  cases o with
  | none =>
    intro e he
    refine h e ?_
    simp at he ⊢
    rcases he with h | h | h | h <;> simp [h]
  | some x =>
    obtain ⟨w, hw, hx⟩ := h
    refine ⟨w, ?_, hx⟩
    rw [lastEntry_append, lastEntry_cons, lastEntry_cons] at hw ⊢
    simp only [List.mem_cons, forall_eq_or_imp, Prod.mk.injEq, Val.str.injEq, ne_eq] at hw ⊢
    by_cases h1 : k = f
    · have h2 : ¬ k' = f := fun e => hne (h1.trans e.symm)
      simp only [h1, h2, false_and, and_false, or_false, not_true_eq_false, not_false_eq_true, true_and] at hw ⊢
      exact hw
    · simp only [h1, false_and, and_false, or_false, not_false_eq_true, true_and] at hw ⊢
      exact hw

theorem field_entry {α : Type} {R : Val → α → Prop} (hR : Unmoved R) {A B : List (Val × Val)} {k v w : Val} (hs : Swapped v w) (f : Bytes) (o : Option α)
    (h : Field (A ++ (k, v) :: B) f R o) : Field (A ++ (k, w) :: B) f R o := by
  cases o with
  | none =>
    intro e he
    rcases List.mem_append.mp he with he | he
    · exact h e (by simp [he])
    · rcases List.mem_cons.mp he with rfl | he
      · exact h (k, v) (by simp)
      · exact h e (by simp [he])
  | some x =>
    obtain ⟨u, hu, hx⟩ := h
    rw [lastEntry_append, lastEntry_cons] at hu
    simp only [List.mem_cons, forall_eq_or_imp, Prod.mk.injEq] at hu
    by_cases h1 : k = .str f ∧ v = u ∧ ∀ e ∈ B, e.1 ≠ .str f
    · refine ⟨w, ?_, hR _ _ _ hs (h1.2.1 ▸ hx)⟩
      rw [lastEntry_append, lastEntry_cons, h1.1]
      exact .inl (.inr ⟨h1.2.2, rfl⟩)
    · refine ⟨u, ?_, hx⟩
      rw [lastEntry_append, lastEntry_cons]
      rcases hu with (h | ⟨h, h'⟩) | ⟨h, h'⟩
      · exact .inl (.inl h)
      · exact absurd ⟨h'.1, h'.2, h⟩ h1
      · refine .inr ⟨fun e he => ?_, h'⟩
        rcases List.mem_cons.mp he with rfl | he
        · exact h.1
        · exact h.2 e he

/-- What an object keeps when entries in it change places: its fields and what holds of each entry. -/
theorem object_keeps {l : List (Val × Val)} {w : Val} (h : Swapped (.obj l) w) : ∃ l', w = .obj l' ∧
    (∀ {α : Type} {R : Val → α → Prop}, Unmoved R → ∀ f o, Field l f R o → Field l' f R o) ∧
    (∀ {E : Val → Val → Prop}, (∀ k v w, Swapped v w → E k v → E k w) → (∀ k w, (k, w) ∈ l → E k w) → ∀ k w, (k, w) ∈ l' → E k w) := by
  cases h with
  | here A B k k' v v' hne =>
    refine ⟨_, rfl, fun _ f o h => field_swap hne f o h, fun _ h a b hab => h a b ?_⟩
    simp at hab ⊢
    rcases hab with h | h | h | h <;> simp [h]
  | entry A B k v w hs =>
    refine ⟨_, rfl, fun hR f o h => field_entry hR hs f o h, fun hE h a b hab => ?_⟩
    rcases List.mem_append.mp hab with hab | hab
    · exact h a b (by simp [hab])
    · rcases List.mem_cons.mp hab with e | hab
      · cases e
        exact hE _ _ _ hs (h k v (by simp))
      · exact h a b (by simp [hab])

theorem unmoved_exists {α : Type} {R : Val → α → Prop} (hR : Unmoved R) {v w : Val} (hs : Swapped v w) (h : ∃ x, R v x) : ∃ x, R w x := by
  obtain ⟨x, hx⟩ := h
  exact ⟨x, hR _ _ _ hs hx⟩

theorem unmoved_message (hd : TakenAsIs d) : Unmoved (IsMessage d) := by
  rintro v w msg h ⟨l, rfl, he, hm, ht, vs, hv, hval⟩
  obtain ⟨l', rfl, hf, hE⟩ := object_keeps h
  refine ⟨l', rfl, hE ?_ he, hf (unmoved_string hd) _ _ hm, hf (unmoved_list hd (unmoved_string hd)) _ _ ht, vs, hf (unmoved_map hd) _ _ hv, hval⟩
  rintro k v w hs (⟨h, h'⟩ | ⟨h, h'⟩ | ⟨h, h'⟩)
  · exact .inl ⟨h, unmoved_exists (unmoved_string hd) hs h'⟩
  · exact .inr (.inl ⟨h, unmoved_exists (unmoved_map hd) hs h'⟩)
  · exact .inr (.inr ⟨h, unmoved_exists (unmoved_list hd (unmoved_string hd)) hs h'⟩)

theorem patternEntry_keeps (hd : TakenAsIs d) (k v w : Val) (hs : Swapped v w) (h : PatternEntry d k v) : PatternEntry d k w := by
  rcases h with ⟨h, h'⟩ | ⟨h, h'⟩ | ⟨h, h'⟩ | ⟨h, h'⟩ | ⟨h, h'⟩ | ⟨h, h'⟩
  · exact .inl ⟨h, unmoved_exists (unmoved_string hd) hs h'⟩
  · exact .inr (.inl ⟨h, unmoved_exists (unmoved_uuid hd) hs h'⟩)
  · exact .inr (.inr (.inl ⟨h, unmoved_exists (unmoved_string hd) hs h'⟩))
  · exact .inr (.inr (.inr (.inl ⟨h, unmoved_exists (unmoved_map hd) hs h'⟩)))
  · exact .inr (.inr (.inr (.inr (.inl ⟨h, unmoved_exists (unmoved_list hd (unmoved_string hd)) hs h'⟩))))
  · exact .inr (.inr (.inr (.inr (.inr ⟨h, unmoved_exists (unmoved_list hd (unmoved_message hd)) hs h'⟩))))

theorem unmoved_pattern (hd : TakenAsIs d) : Unmoved (IsPattern d) := by
  rintro v w p h ⟨l, rfl, he, ⟨s, hs, hc⟩, hu, hn, hv, ht, hm⟩
  obtain ⟨l', rfl, hf, hE⟩ := object_keeps h
  exact ⟨l', rfl, hE (patternEntry_keeps hd) he, ⟨s, hf (unmoved_string hd) _ _ hs, hc⟩, hf (unmoved_uuid hd) _ _ hu, hf (unmoved_string hd) _ _ hn,
    hf (unmoved_map hd) _ _ hv, hf (unmoved_list hd (unmoved_string hd)) _ _ ht, hf (unmoved_list hd (unmoved_message hd)) _ _ hm⟩

theorem unmoved_panic (hd : TakenAsIs d) : Unmoved (PatternPanics d) := by
  rintro v w p h ⟨l, s, rfl, he, hs, hc⟩
  obtain ⟨l', rfl, hf, hE⟩ := object_keeps h
  exact ⟨l', s, rfl, hE (patternEntry_keeps hd) he, hf (unmoved_string hd) _ _ hs, hc⟩

theorem unmoved_file (hd : TakenAsIs d) : Unmoved (IsFile d) := by
  rintro v w p h ⟨l, rfl, he, hp⟩
  obtain ⟨l', rfl, hf, hE⟩ := object_keeps h
  exact ⟨l', rfl, hE (fun k v w hs ⟨h1, h2⟩ => ⟨h1, unmoved_exists (unmoved_list hd (unmoved_pattern hd)) hs h2⟩) he,
    hf (unmoved_list hd (unmoved_pattern hd)) _ _ hp⟩

theorem unmoved_same {α : Type} {R : Val → α → Prop} (hR : Unmoved R) {v w : Val} (h : SameData v w) (x : α) : R v x ↔ R w x := by
  induction h with
  | refl => exact Iff.rfl
  | step v w _ hs ih => exact ih.trans ⟨hR _ _ _ hs, hR _ _ _ (swapped_symm hs)⟩

/-- C123: two documents with the same data, in whatever order the entries of the objects are given, describe the same test message, or none. -/
theorem C123_test_message (hd : TakenAsIs d) (v w : Val) (h : SameData v w) (msg : TestMessage) :
    deserTestMessage d v = .ok msg ↔ deserTestMessage d w = .ok msg := by
  rw [C62_test_message, C62_test_message]
  exact unmoved_same (unmoved_message hd) h msg

/-- C123: two documents with the same data describe the same pattern, or none; and if one of them makes the program panic, the other one does so too. -/
theorem C123_pattern (hd : TakenAsIs d) (v w : Val) (h : SameData v w) :
    (∀ p, deserPattern d v = .ok (.ok p) ↔ deserPattern d w = .ok (.ok p)) ∧ (∀ e, deserPattern d v = .error e ↔ deserPattern d w = .error e) := by
  constructor
  · intro p
    rw [C47_pattern, C47_pattern]
    exact unmoved_same (unmoved_pattern hd) h p
  · intro e
    rw [C47_panic, C47_panic]
    exact unmoved_same (unmoved_panic hd) h e

/-- C123: files with the same data are loaded as the same patterns, or neither of them can be loaded. -/
theorem C123_file (hd : TakenAsIs d) (path path' text text' : Bytes) (hx : HasExt path b!"json") (hx' : HasExt path' b!"json")
    (ht : FileText d path text) (ht' : FileText d path' text') (v w : Val) (hv : d.json text = .ok v) (hw : d.json text' = .ok w) (h : SameData v w)
    (file : PatternFile) : loadFile d path = .ok (.ok file) ↔ loadFile d path' = .ok (.ok file) := by
  rw [(C46_json d path text hx ht).1, (C46_json d path' text' hx' ht').1]
  simp only [hv, hw, Except.ok.injEq, exists_eq_left']
  exact unmoved_same (unmoved_file hd) h file

/-- C123: the same for YAML files. -/
theorem C123_yaml_file (hd : TakenAsIs d) (path path' ext ext' text text' : Bytes) (he : ext ∈ yamlExts) (he' : ext' ∈ yamlExts) (hx : HasExt path ext)
    (hx' : HasExt path' ext') (ht : FileText d path text) (ht' : FileText d path' text') (v w : Val) (hv : d.yaml text = .ok v)
    (hw : d.yaml text' = .ok w) (h : SameData v w) (file : PatternFile) :
    loadFile d path = .ok (.ok file) ↔ loadFile d path' = .ok (.ok file) := by
  rw [(C46_yaml d path ext text he hx ht).1, (C46_yaml d path' ext' text' he' hx' ht').1]
  simp only [hv, hw, Except.ok.injEq, exists_eq_left']
  exact unmoved_same (unmoved_file hd) h file

/-- C123: so a matcher is built from both of them, the same one, or from none. -/
theorem C123_matcher {T : Type} (I : MatcherImpl T) (hd : TakenAsIs d) (path path' text text' : Bytes) (hx : HasExt path b!"json")
    (hx' : HasExt path' b!"json") (ht : FileText d path text) (ht' : FileText d path' text') (v w : Val) (hv : d.json text = .ok v)
    (hw : d.json text' = .ok w) (h : SameData v w) (m : T) : fromFile d I path = .ok (.ok m) ↔ fromFile d I path' = .ok (.ok m) := by
  rw [C60_from_file, C60_from_file]
  simp only [C123_file hd path path' text text' hx hx' ht ht' v w hv hw h]

/-! Examples -/

example : TakenAsIs Samples.deps :=
  ⟨fun _ => rfl, fun _ => rfl, fun _ _ h => by cases h; rfl, nofun, nofun, nofun, nofun, nofun, nofun⟩

/-- Two entries of a pattern change places, and two entries of a test message in it. -/
example : SameData
    (.obj [(.str b!"uuid", .num 7), (.str b!"pattern", .str b!"x"),
      (.str b!"test_messages", .arr [.obj [(.str b!"message", .str b!"x"), (.str b!"tags", .arr [])]])])
    (.obj [(.str b!"pattern", .str b!"x"), (.str b!"uuid", .num 7),
      (.str b!"test_messages", .arr [.obj [(.str b!"tags", .arr []), (.str b!"message", .str b!"x")]])]) := by
  refine .step _ _ _ (.step _ _ _ (.refl _) (.here [] _ _ _ _ _ (by decide))) ?_
  exact .entry [(.str b!"pattern", .str b!"x"), (.str b!"uuid", .num 7)] [] _ _ _ (.element [] [] _ _ (.here [] [] _ _ _ _ (by decide)))

/-- Which error is reported for a document that is not accepted may depend on the order. -/
example : deserPattern Samples.deps (.obj [(.str b!"a", .null), (.str b!"b", .null)]) = .ok (.error (.custom b!"Unexpected field: a")) ∧
    deserPattern Samples.deps (.obj [(.str b!"b", .null), (.str b!"a", .null)]) = .ok (.error (.custom b!"Unexpected field: b")) := by
  constructor <;> decide +kernel

end Verif
