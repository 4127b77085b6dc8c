import Verif.Spec.PatternDbXml
/-! Reading a patterndb. -/
namespace Verif
open Spec Perl

/-! ### Hashes -/

theorem lookup_upd {β : Type} (k k' : Str) (f : β → β) (new : β) (l : List (Str × β)) :
    (upd k f new l).lookup k' = if k' = k then some (f ((l.lookup k).getD new)) else l.lookup k' := by
  induction l with
  | nil =>
    by_cases e : k' = k
    · subst e; simp [upd, List.lookup]
    · have : (k' == k) = false := by simpa using e
      simp [upd, List.lookup, e, this]
  | cons x l ih =>
    obtain ⟨q, v⟩ := x
    by_cases e : q = k
    · subst e
      rw [upd, if_pos rfl]
      by_cases g : k' = q
      · subst g; simp [List.lookup]
      · have : (k' == q) = false := by simpa using g
        simp [List.lookup, g, this]
    · rw [upd, if_neg e]
      by_cases g : k' = q
      · subst g
        have : (k' == k') = true := by simp
        rw [if_neg e]
        simp [List.lookup]
      · have h1 : (k' == q) = false := by simpa using g
        have h2 : (k == q) = false := by simpa using fun h => e h.symm
        simp only [List.lookup, h1, h2]
        exact ih

theorem keys_upd {β : Type} (k : Str) (f : β → β) (new : β) (l : List (Str × β)) (h : (l.map Prod.fst).Nodup) : ((upd k f new l).map Prod.fst).Nodup := by
  have hmem : ∀ l : List (Str × β), ∀ q, q ∈ (upd k f new l).map Prod.fst → q = k ∨ q ∈ l.map Prod.fst := by
    intro l
    induction l with
    | nil => intro q hq; simp [upd] at hq; exact .inl hq
    | cons x l ih =>
      intro q hq
      obtain ⟨y, v⟩ := x
      rw [upd] at hq
      split at hq
      · exact .inr hq
      · rcases List.mem_cons.mp hq with rfl | hq
        · exact .inr (List.mem_cons_self ..)
        · rcases ih q hq with g | g
          · exact .inl g
          · exact .inr (List.mem_cons_of_mem _ g)
  induction l with
  | nil => simp [upd]
  | cons x l ih =>
    obtain ⟨y, v⟩ := x
    rw [List.map_cons, List.nodup_cons] at h
    rw [upd]
    split
    · rw [List.map_cons, List.nodup_cons]
      exact h
    · rename_i e
      rw [List.map_cons, List.nodup_cons]
      refine ⟨fun g => ?_, ih h.2⟩
      rcases hmem l _ g with g | g
      · exact e g
      · exact h.1 g

theorem lookup_of_mem {β : Type} {l : List (Str × β)} (h : (l.map Prod.fst).Nodup) {k : Str} {v : β} : (k, v) ∈ l ↔ l.lookup k = some v := by
  induction l with
  | nil => simp [List.lookup]
  | cons x l ih =>
    obtain ⟨y, w⟩ := x
    rw [List.map_cons, List.nodup_cons] at h
    by_cases e : k = y
    · subst e
      simp only [List.lookup, BEq.rfl, List.mem_cons, Prod.mk.injEq, true_and, Option.some.injEq]
      constructor
      · rintro (g | g)
        · exact g.symm
        · exact absurd (List.mem_map_of_mem g) h.1
      · intro g; exact .inl g.symm
    · have : (k == y) = false := by simpa using e
      simp only [List.lookup, this, List.mem_cons, Prod.mk.injEq, e, false_and, false_or]
      exact ih h.2

/-- The entries after assignments. -/
theorem assigned_fold (l : List (Str × Str)) : Assigned l (l.foldl assign []) := by
  have key : ∀ (l e : List (Str × Str)), (e.map Prod.fst).Nodup → ((l.foldl assign e).map Prod.fst).Nodup ∧
      ∀ k v, (k, v) ∈ l.foldl assign e ↔ (∃ A B, l = A ++ (k, v) :: B ∧ ∀ x ∈ B, x.1 ≠ k) ∨ ((k, v) ∈ e ∧ ∀ x ∈ l, x.1 ≠ k) := by
    intro l
    induction l with
    | nil => intro e he; exact ⟨he, fun k v => by simp⟩
    | cons y l ih =>
      intro e he
      have he' : ((assign e y).map Prod.fst).Nodup := keys_upd _ _ _ _ he
      refine ⟨(ih _ he').1, fun k v => ?_⟩
      rw [List.foldl_cons, (ih _ he').2]
      have hm : (k, v) ∈ assign e y ↔ (k = y.1 ∧ v = y.2) ∨ (k ≠ y.1 ∧ (k, v) ∈ e) := by
        rw [lookup_of_mem he', lookup_of_mem he]
        unfold assign
        rw [lookup_upd]
        by_cases g : k = y.1
        · simp [g, eq_comm]
        · simp [g]
      rw [hm]
      constructor
      · rintro (⟨A, B, rfl, h⟩ | ⟨⟨rfl, rfl⟩ | ⟨h1, h2⟩, h⟩)
        · exact .inl ⟨y :: A, B, rfl, h⟩
        · exact .inl ⟨[], l, rfl, h⟩
        · refine .inr ⟨h2, fun x hx => ?_⟩
          rcases List.mem_cons.mp hx with rfl | hx
          · exact fun e => h1 e.symm
          · exact h x hx
      · rintro (⟨A, B, e1, h⟩ | ⟨h1, h2⟩)
        · cases A with
          | nil =>
            simp only [List.nil_append, List.cons.injEq] at e1
            obtain ⟨rfl, rfl⟩ := e1
            exact .inr ⟨.inl ⟨rfl, rfl⟩, h⟩
          | cons z A =>
            simp only [List.cons_append, List.cons.injEq] at e1
            exact .inl ⟨A, B, e1.2, h⟩
        · exact .inr ⟨.inr ⟨fun e => h2 y (List.mem_cons_self ..) e.symm, h1⟩, fun x hx => h2 x (List.mem_cons_of_mem _ hx)⟩
  obtain ⟨h1, h2⟩ := key l [] (by simp)
  refine ⟨h1, fun k v => ?_⟩
  rw [h2]
  simp

theorem assign_ne {l : List (Str × Str)} {y : Str × Str} : assign l y ≠ [] := by
  unfold assign
  cases l with
  | nil => simp [upd]
  | cons x l => obtain ⟨a, b⟩ := x; rw [upd]; split <;> simp

theorem assigned_fold_ne {l : List (Str × Str)} (h : l ≠ []) : l.foldl assign [] ≠ [] := by
  have key : ∀ (l e : List (Str × Str)), e ≠ [] → l.foldl assign e ≠ [] := by
    intro l
    induction l with
    | nil => intro e he; exact he
    | cons y l ih => intro e _; exact ih _ assign_ne
  cases l with
  | nil => exact absurd rfl h
  | cons y l => exact key l _ assign_ne

theorem assigned_opt (l : List (Str × Str)) : AssignedOpt l (if (l.foldl assign []).isEmpty then none else some (l.foldl assign [])) := by
  refine ⟨fun h => by subst h; rfl, fun h => ⟨_, ?_, assigned_fold l⟩⟩
  rw [if_neg]
  simpa using assigned_fold_ne h

/-! ### Changes to one rule -/

/-- From `σ` to `τ` only the entry of the rule `id` was changed, by `f`. -/
structure Changes (id : Str) (f : RuleData → RuleData) (σ τ : PdbData) : Prop where
  rulesets : τ.rulesets = σ.rulesets
  others : ∀ i, i ≠ id → τ.rules.lookup i = σ.rules.lookup i
  own : (τ.rules.lookup id).getD .new = f ((σ.rules.lookup id).getD .new)
  keys : (σ.rules.map Prod.fst).Nodup → (τ.rules.map Prod.fst).Nodup

theorem changes_refl (id : Str) (σ : PdbData) : Changes id (fun d => d) σ σ := ⟨rfl, fun _ _ => rfl, rfl, fun h => h⟩

theorem changes_upd (id : Str) (f : RuleData → RuleData) (σ : PdbData) : Changes id f σ (σ.updRule id f) := by
  refine ⟨rfl, fun i hi => ?_, ?_, fun h => keys_upd _ _ _ _ h⟩
  · simp only [PdbData.updRule, lookup_upd, if_neg hi]
  · simp only [PdbData.updRule, lookup_upd, if_true, Option.getD_some]

theorem Changes.then {id : Str} {f g : RuleData → RuleData} {σ τ υ : PdbData} (h : Changes id f σ τ) (h' : Changes id g τ υ) :
    Changes id (fun d => g (f d)) σ υ :=
  ⟨h'.rulesets.trans h.rulesets, fun i hi => (h'.others i hi).trans (h.others i hi), by rw [h'.own, h.own], fun hk => h'.keys (h.keys hk)⟩

theorem walkAll_append (we : Bool) (anc : Ancestors) (xs ys : List Xml) (σ : PdbData) :
    readXmls we anc (xs ++ ys) σ = (readXmls we anc xs σ).bind (readXmls we anc ys) := by
  induction xs generalizing σ with
  | nil => rfl
  | cons x xs ih =>
    simp only [List.cons_append, readXmls, bind]
    cases readXml we anc x σ with
    | none => rfl
    | some τ => exact ih τ

/-- Reading a list of elements of which each changes the rule. -/
theorem walkAll_map {α : Type} {we : Bool} {anc : Ancestors} {id : Str} (xml : α → Xml) (f : RuleData → α → RuleData)
    (h : ∀ a σ, ∃ τ, readXml we anc (xml a) σ = some τ ∧ Changes id (fun d => f d a) σ τ) :
    ∀ (l : List α) (σ : PdbData), ∃ τ, readXmls we anc (l.map xml) σ = some τ ∧ Changes id (fun d => l.foldl f d) σ τ := by
  intro l
  induction l with
  | nil => intro σ; exact ⟨σ, rfl, changes_refl id σ⟩
  | cons a l ih =>
    intro σ
    obtain ⟨τ, h1, h2⟩ := h a σ
    obtain ⟨υ, h3, h4⟩ := ih τ
    refine ⟨υ, ?_, h2.then h4⟩
    simp only [List.map_cons, readXmls, bind, h1, Option.bind_some, h3]

theorem walkAll_flatMap {α : Type} {we : Bool} {anc : Ancestors} {id : Str} (xml : α → List Xml) (f : RuleData → α → RuleData)
    (h : ∀ a σ, ∃ τ, readXmls we anc (xml a) σ = some τ ∧ Changes id (fun d => f d a) σ τ) :
    ∀ (l : List α) (σ : PdbData), ∃ τ, readXmls we anc (l.flatMap xml) σ = some τ ∧ Changes id (fun d => l.foldl f d) σ τ := by
  intro l
  induction l with
  | nil => intro σ; exact ⟨σ, rfl, changes_refl id σ⟩
  | cons a l ih =>
    intro σ
    obtain ⟨τ, h1, h2⟩ := h a σ
    obtain ⟨υ, h3, h4⟩ := ih τ
    refine ⟨υ, ?_, h2.then h4⟩
    simp only [List.flatMap_cons, walkAll_append, h1, Option.bind_some, h3]

theorem walk_leaf (we : Bool) (anc : Ancestors) (name : String) (atts : List (Str × Str)) (s : Str) (σ : PdbData) :
    readXml we anc (leafXml name atts s) σ = handle we anc name.toList atts [.text s] σ := rfl

theorem texts_leaf (s : Str) : Xml.textsOf [.text s] = s := by simp [Xml.textsOf, Xml.textOf]

/-! ### The parts of a rule -/

/-- the stored example -/
def storedExample (e : DbExample) : PdbExample :=
  ⟨e.program.getD [], e.message, if (e.values.foldl assign []).isEmpty then none else some (e.values.foldl assign [])⟩

/-- The change made by a part of a rule. -/
def partChange (we : Bool) (d : RuleData) : DbPart → RuleData
  | .patterns _ l => { d with patterns := d.patterns ++ l }
  | .examples _ l => { d with examples := d.examples ++ (if we then l.map storedExample else []) }
  | .tags _ l => { d with tags := d.tags ++ l }
  | .values _ l => { d with values := l.foldl assign d.values }
  | .actions _ => d
  | .description _ => d

/-- Elements that stand in an element of their own or directly in the rule. -/
theorem walk_wrapped {we : Bool} {a : List (Str × Str)} {anc : Ancestors} {id : Str} {g : RuleData → RuleData} (name : String) (xs : List Xml)
    (hname : ∀ (we : Bool) (anc : Ancestors) (cs : List Xml) (σ : PdbData), handle we anc name.toList [] cs σ = some σ)
    (h1 : ∀ σ, ∃ τ, readXmls we (("rule".toList, a) :: anc) xs σ = some τ ∧ Changes id g σ τ)
    (h2 : ∀ σ, ∃ τ, readXmls we ((name.toList, []) :: ("rule".toList, a) :: anc) xs σ = some τ ∧ Changes id g σ τ) (wrapped : Bool) (σ : PdbData) :
    ∃ τ, readXmls we (("rule".toList, a) :: anc) (wrapXml wrapped name xs) σ = some τ ∧ Changes id g σ τ := by
  cases wrapped with
  | false => exact h1 σ
  | true =>
    obtain ⟨τ, e, h⟩ := h2 σ
    refine ⟨τ, ?_, h⟩
    show (readXml we _ (nodeXml name [] xs) σ).bind _ = _
    have : readXml we (("rule".toList, a) :: anc) (nodeXml name [] xs) σ = some τ := by
      show (readXmls we _ xs σ).bind _ = _
      rw [e]
      exact hname _ _ _ _
    rw [this]
    rfl

theorem named_namedXml (name : String) (l : List (Str × Str)) :
    Xml.namedIn name.toList (namedXml name l) = namedXml name l := by
  induction l with
  | nil => rfl
  | cons v l ih =>
    show Xml.named name.toList (leafXml name _ _) ++ Xml.namedIn name.toList (namedXml name l) = _
    rw [ih]
    have : Xml.named name.toList (leafXml name [("name".toList, v.1)] v.2) = [leafXml name [("name".toList, v.1)] v.2] := by
      simp only [leafXml, Xml.named, if_true, Xml.namedIn, List.append_nil]
    rw [this]
    rfl

theorem foldl_namedXml (name : String) (l e : List (Str × Str)) :
    (namedXml name l).foldl (fun l v => assign l ((v.att "name".toList).getD [], v.textOf)) e = l.foldl assign e := by
  induction l generalizing e with
  | nil => rfl
  | cons v l ih =>
    show (namedXml name l).foldl _ (assign e (v.1, Xml.textsOf [.text v.2])) = _
    rw [texts_leaf]
    exact ih _

theorem lastChild_none {name : Str} {B : List Xml} (h : ∀ y ∈ B, y.isNamed name = false) : lastChild name B = none := by
  induction B with
  | nil => rfl
  | cons y B ih =>
    unfold lastChild
    rw [ih fun z hz => h z (List.mem_cons_of_mem _ hz)]
    simp [h y (List.mem_cons_self ..)]

theorem lastChild_append {name : Str} {A B : List Xml} {x : Xml} (hx : x.isNamed name = true) (hB : ∀ y ∈ B, y.isNamed name = false) :
    lastChild name (A ++ x :: B) = some (x, B) := by
  induction A with
  | nil =>
    unfold lastChild
    simp [lastChild_none hB, hx]
  | cons a A ih =>
    show lastChild name (a :: (A ++ x :: B)) = _
    unfold lastChild
    rw [ih]

theorem itemXml_values (i : DbItem) : (itemXml i).isNamed "test_values".toList = i.isValues := by cases i <;> rfl

theorem itemXml_message (i : DbItem) : (itemXml i).isNamed "test_message".toList = !i.isValues := by cases i <;> rfl

theorem example_values (e : DbExample) : testValues (e.items.map itemXml) = e.values.foldl assign [] := by
  have key : ∀ A B : List Xml, (∀ y ∈ B, y.isNamed "test_values".toList = false) → Xml.namedIn "test_value".toList B = [] →
      testValues (A ++ itemXml (.values e.values) :: B) = e.values.foldl assign [] := by
    intro A B hB hn
    unfold testValues
    rw [lastChild_append rfl hB]
    show (Xml.namedIn "test_value".toList (namedXml "test_value" e.values ++ B)).foldl _ [] = _
    have happ : ∀ xs ys : List Xml, Xml.namedIn "test_value".toList (xs ++ ys) = Xml.namedIn "test_value".toList xs ++ Xml.namedIn "test_value".toList ys := by
      intro xs ys
      induction xs with
      | nil => rfl
      | cons x xs ih =>
        show x.named _ ++ Xml.namedIn _ (xs ++ ys) = (x.named _ ++ Xml.namedIn _ xs) ++ _
        rw [ih, List.append_assoc]
    rw [happ, hn, List.append_nil, named_namedXml, foldl_namedXml]
  unfold DbExample.items
  by_cases h : e.values = [] ∧ e.earlier.any DbItem.isValues = false
  · rw [if_pos h, h.1]
    have : ∀ y ∈ (e.earlier ++ if e.valuesFirst then [] ++ [DbItem.message e.program e.message] else [DbItem.message e.program e.message]).map itemXml,
        y.isNamed "test_values".toList = false := by
      intro y hy
      obtain ⟨i, hi, rfl⟩ := List.mem_map.mp hy
      rw [itemXml_values]
      rcases List.mem_append.mp hi with hi | hi
      · have := h.2
        rw [List.any_eq_false] at this
        simpa using this i hi
      · have : i = .message e.program e.message := by split at hi <;> simpa using hi
        rw [this]; rfl
    unfold testValues
    rw [lastChild_none this]
    rfl
  · rw [if_neg h]
    cases e.valuesFirst with
    | true =>
      simp only [if_true, List.map_append, List.map_cons, List.map_nil, List.singleton_append]
      exact key _ _ (by intro y hy; rw [List.mem_singleton.mp hy]; rfl) rfl
    | false =>
      simp only [Bool.false_eq_true, if_false, List.map_append, List.map_cons, List.map_nil]
      have := key (e.earlier.map itemXml ++ [itemXml (.message e.program e.message)]) [] (by simp) rfl
      simpa using this

theorem example_message (e : DbExample) :
    ∃ rest, lastChild "test_message".toList (e.items.map itemXml) = some (leafXml "test_message" (programAtt e.program) e.message, rest) := by
  have key : ∀ (A B : List DbItem), (∀ i ∈ B, i.isValues = true) →
      ∃ rest, lastChild "test_message".toList ((A ++ DbItem.message e.program e.message :: B).map itemXml) =
        some (leafXml "test_message" (programAtt e.program) e.message, rest) := by
    intro A B hB
    rw [List.map_append, List.map_cons]
    refine ⟨_, lastChild_append rfl ?_⟩
    intro y hy
    obtain ⟨i, hi, rfl⟩ := List.mem_map.mp hy
    rw [itemXml_message, hB i hi]
    rfl
  unfold DbExample.items
  cases e.valuesFirst with
  | true =>
    simp only [if_true, ← List.append_assoc]
    exact key _ [] (by simp)
  | false =>
    simp only [Bool.false_eq_true, if_false]
    exact key _ _ (by intro i hi; split at hi <;> simp at hi; rw [hi]; rfl)

/-- Reading an example. -/
theorem walk_example {we : Bool} {anc : Ancestors} {a : List (Str × Str)} (hp : parentNamed "rule".toList anc = some a)
    (hh : ∀ cs σ, handle we anc "example".toList [] cs σ = exampleHandler we anc cs σ) (e : DbExample) (σ : PdbData) :
    ∃ τ, readXml we anc (exampleXml e) σ = some τ ∧
      Changes ((a.lookup "id".toList).getD []) (fun d => { d with examples := d.examples ++ (if we then [storedExample e] else []) }) σ τ := by
  have hin : ∀ (l : List DbItem) σ, readXmls we (("example".toList, []) :: anc) (l.map itemXml) σ = some σ := by
    intro l
    have h2 : ∀ (l : List (Str × Str)) anc' σ, readXmls we anc' (namedXml "test_value" l) σ = some σ := by
      intro l
      induction l with
      | nil => intro _ _; rfl
      | cons v l ih => intro anc' σ; show (some σ).bind _ = _; exact ih anc' σ
    induction l with
    | nil => intro _; rfl
    | cons i l ih =>
      intro σ
      have : readXml we (("example".toList, []) :: anc) (itemXml i) σ = some σ := by
        cases i with
        | message p s => rfl
        | values l =>
          show (readXmls we _ (namedXml "test_value" l) σ).bind _ = _
          rw [h2]
          rfl
      show (readXml we _ (itemXml i) σ).bind _ = _
      rw [this]
      exact ih σ
  have hw : readXml we anc (exampleXml e) σ = exampleHandler we anc (e.items.map itemXml) σ := by
    show (readXmls we _ (e.items.map itemXml) σ).bind _ = _
    rw [hin _ σ]
    exact hh _ _
  rw [hw]
  unfold exampleHandler
  rw [hp]
  obtain ⟨rest, hlast⟩ := example_message e
  cases we with
  | false =>
    refine ⟨_, rfl, ?_⟩
    have h := changes_upd ((a.lookup "id".toList).getD []) id σ
    have e : (id : RuleData → RuleData) = fun d => { d with examples := d.examples ++ (if false = true then [storedExample e] else []) } := by
      funext d
      simp
    show Changes _ _ σ (σ.updRule _ id)
    rw [← e]
    exact h
  | true =>
    simp only [hlast, example_values e, if_true]
    refine ⟨_, rfl, ?_⟩
    have hs : storedExample e = ⟨((leafXml "test_message" (programAtt e.program) e.message).att "program".toList).getD [],
        (leafXml "test_message" (programAtt e.program) e.message).textOf,
        if (e.values.foldl assign []).isEmpty = true then none else some (e.values.foldl assign [])⟩ := by
      unfold storedExample
      congr 1
      · cases e.program <;> rfl
      · show _ = Xml.textsOf [.text e.message]
        rw [texts_leaf]
    rw [hs]
    exact changes_upd _ _ σ

theorem foldl_append_one {α : Type} (l m : List α) : l.foldl (fun acc x => acc ++ [x]) m = m ++ l := by
  induction l generalizing m with
  | nil => simp
  | cons x l ih => rw [List.foldl_cons, ih]; simp

/-- The change of the examples by a list of them. -/
theorem foldl_examples (we : Bool) (l : List DbExample) (d : RuleData) :
    l.foldl (fun d e => { d with examples := d.examples ++ (if we then [storedExample e] else []) }) d =
      { d with examples := d.examples ++ (if we then l.map storedExample else []) } := by
  induction l generalizing d with
  | nil => simp
  | cons e l ih => rw [List.foldl_cons, ih]; cases we <;> simp

theorem foldl_patterns (l : List Str) (d : RuleData) :
    l.foldl (fun d s => { d with patterns := d.patterns ++ [s] }) d = { d with patterns := d.patterns ++ l } := by
  induction l generalizing d with
  | nil => simp
  | cons e l ih => rw [List.foldl_cons, ih]; simp

theorem foldl_tags (l : List Str) (d : RuleData) :
    l.foldl (fun d s => { d with tags := d.tags ++ [s] }) d = { d with tags := d.tags ++ l } := by
  induction l generalizing d with
  | nil => simp
  | cons e l ih => rw [List.foldl_cons, ih]; simp

theorem foldl_values (l : List (Str × Str)) (d : RuleData) :
    l.foldl (fun d v => { d with values := assign d.values v }) d = { d with values := l.foldl assign d.values } := by
  induction l generalizing d with
  | nil => rfl
  | cons e l ih => rw [List.foldl_cons, ih]; rfl

/-- The ancestors of the rules of a ruleset. -/
def ruleAnc (db : PatternDb) (s : DbRuleset) : Ancestors :=
  [("rules".toList, []), ("ruleset".toList, rulesetAtts s), ("patterndb".toList, db.atts)]

/-- The attributes of a rule. -/
def ruleAtts (r : DbRule) : List (Str × Str) := ("id".toList, r.id) :: r.atts

theorem ruleAtts_id (r : DbRule) : ((ruleAtts r).lookup "id".toList).getD [] = r.id := by
  simp [ruleAtts, List.lookup]

theorem walkAll_none {we : Bool} {anc : Ancestors} : ∀ {xs : List Xml}, (∀ x ∈ xs, ∀ σ, readXml we anc x σ = some σ) → ∀ σ, readXmls we anc xs σ = some σ := by
  intro xs
  induction xs with
  | nil => intro _ _; rfl
  | cons x xs ih =>
    intro h σ
    show (readXml we anc x σ).bind _ = _
    rw [h x (List.mem_cons_self ..)]
    exact ih (fun y hy => h y (List.mem_cons_of_mem _ hy)) σ

/-- A message in an action changes nothing. -/
theorem walk_message {we : Bool} {anc : Ancestors} (m : DbMessage) (σ : PdbData) : readXml we anc (messageXml m) σ = some σ := by
  have hv : ∀ anc σ, readXml we (("message".toList, m.atts) :: anc) (nodeXml "values" [] (namedXml "value" m.values)) σ = some σ := by
    intro anc σ
    have : readXmls we (("values".toList, []) :: ("message".toList, m.atts) :: anc) (namedXml "value" m.values) σ = some σ := by
      refine walkAll_none ?_ σ
      intro x hx σ
      obtain ⟨v, _, rfl⟩ := List.mem_map.mp hx
      rfl
    show (readXmls we _ _ σ).bind _ = _
    rw [this]
    rfl
  have ht : ∀ anc σ, readXml we (("message".toList, m.atts) :: anc) (nodeXml "tags" [] (m.tags.map (leafXml "tag" []))) σ = some σ := by
    intro anc σ
    have : readXmls we (("tags".toList, []) :: ("message".toList, m.atts) :: anc) (m.tags.map (leafXml "tag" [])) σ = some σ := by
      refine walkAll_none ?_ σ
      intro x hx σ
      obtain ⟨v, _, rfl⟩ := List.mem_map.mp hx
      rfl
    show (readXmls we _ _ σ).bind _ = _
    rw [this]
    rfl
  show (readXmls we _ _ σ).bind _ = _
  have : readXmls we (("message".toList, m.atts) :: anc) [nodeXml "values" [] (namedXml "value" m.values), nodeXml "tags" [] (m.tags.map (leafXml "tag" []))] σ =
      some σ := by
    refine walkAll_none ?_ σ
    intro x hx σ
    simp only [List.mem_cons, List.not_mem_nil, or_false] at hx
    rcases hx with rfl | rfl
    · exact hv anc σ
    · exact ht anc σ
  rw [this]
  rfl

theorem walk_action {we : Bool} {anc : Ancestors} {a : List (Str × Str)} (hp : parentNamed "rule".toList anc = some a) (x : DbAction) (σ : PdbData) :
    readXml we anc (actionXml x) σ = some σ := by
  cases x with
  | message atts m =>
    show (readXmls we _ [messageXml m] σ).bind _ = _
    rw [walkAll_none (by intro x hx σ; rw [List.mem_singleton.mp hx]; exact walk_message m σ)]
    show actionHandler anc [messageXml m] σ = _
    unfold actionHandler
    rw [hp]
    rfl
  | createContext atts ctx m =>
    show (readXmls we _ [nodeXml "create-context" ctx [messageXml m]] σ).bind _ = _
    rw [walkAll_none]
    · show actionHandler anc [nodeXml "create-context" ctx [messageXml m]] σ = _
      unfold actionHandler
      rw [hp]
      rfl
    · intro x hx σ
      rw [List.mem_singleton.mp hx]
      show (readXmls we _ [messageXml m] σ).bind _ = _
      rw [walkAll_none (by intro x hx σ; rw [List.mem_singleton.mp hx]; exact walk_message m σ)]
      rfl

/-- Reading a part of a rule. -/
theorem walk_part (we : Bool) (db : PatternDb) (s : DbRuleset) (r : DbRule) (p : DbPart) (σ : PdbData) :
    ∃ τ, readXmls we (("rule".toList, ruleAtts r) :: ruleAnc db s) (partXml p) σ = some τ ∧ Changes r.id (fun d => partChange we d p) σ τ := by
  have hid := ruleAtts_id r
  cases p with
  | patterns w l =>
    refine walk_wrapped "patterns" _ (fun _ _ _ _ => rfl) ?_ ?_ w σ
    · intro σ
      have h := walkAll_map (we := we) (anc := ("rule".toList, ruleAtts r) :: ruleAnc db s) (id := r.id) (leafXml "pattern" [])
        (fun d s => { d with patterns := d.patterns ++ [s] })
        (fun x σ => ⟨_, rfl, by rw [hid, texts_leaf]; exact changes_upd _ _ σ⟩) l σ
      simp only [foldl_patterns] at h
      exact h
    · intro σ
      have h := walkAll_map (we := we) (anc := ("patterns".toList, []) :: ("rule".toList, ruleAtts r) :: ruleAnc db s) (id := r.id) (leafXml "pattern" [])
        (fun d s => { d with patterns := d.patterns ++ [s] })
        (fun x σ => ⟨_, rfl, by rw [hid, texts_leaf]; exact changes_upd _ _ σ⟩) l σ
      simp only [foldl_patterns] at h
      exact h
  | tags w l =>
    refine walk_wrapped "tags" _ (fun _ _ _ _ => rfl) ?_ ?_ w σ
    · intro σ
      have h := walkAll_map (we := we) (anc := ("rule".toList, ruleAtts r) :: ruleAnc db s) (id := r.id) (leafXml "tag" [])
        (fun d s => { d with tags := d.tags ++ [s] })
        (fun x σ => ⟨_, rfl, by rw [hid, texts_leaf]; exact changes_upd _ _ σ⟩) l σ
      simp only [foldl_tags] at h
      exact h
    · intro σ
      have h := walkAll_map (we := we) (anc := ("tags".toList, []) :: ("rule".toList, ruleAtts r) :: ruleAnc db s) (id := r.id) (leafXml "tag" [])
        (fun d s => { d with tags := d.tags ++ [s] })
        (fun x σ => ⟨_, rfl, by rw [hid, texts_leaf]; exact changes_upd _ _ σ⟩) l σ
      simp only [foldl_tags] at h
      exact h
  | values w l =>
    refine walk_wrapped "values" _ (fun _ _ _ _ => rfl) ?_ ?_ w σ
    · intro σ
      have h := walkAll_map (we := we) (anc := ("rule".toList, ruleAtts r) :: ruleAnc db s) (id := r.id)
        (fun v : Str × Str => leafXml "value" [("name".toList, v.1)] v.2) (fun d v => { d with values := assign d.values v })
        (fun x σ => ⟨_, rfl, by rw [hid, texts_leaf]; exact changes_upd _ _ σ⟩) l σ
      simp only [foldl_values] at h
      exact h
    · intro σ
      have h := walkAll_map (we := we) (anc := ("values".toList, []) :: ("rule".toList, ruleAtts r) :: ruleAnc db s) (id := r.id)
        (fun v : Str × Str => leafXml "value" [("name".toList, v.1)] v.2) (fun d v => { d with values := assign d.values v })
        (fun x σ => ⟨_, rfl, by rw [hid, texts_leaf]; exact changes_upd _ _ σ⟩) l σ
      simp only [foldl_values] at h
      exact h
  | examples w l =>
    refine walk_wrapped "examples" _ (fun _ _ _ _ => rfl) ?_ ?_ w σ
    · intro σ
      have h := walkAll_map (we := we) (anc := ("rule".toList, ruleAtts r) :: ruleAnc db s) (id := r.id) exampleXml
        (fun d e => { d with examples := d.examples ++ (if we then [storedExample e] else []) })
        (fun x σ => by
          have := walk_example (we := we) (anc := ("rule".toList, ruleAtts r) :: ruleAnc db s) (a := ruleAtts r) rfl (fun _ _ => rfl) x σ
          rwa [hid] at this) l σ
      simp only [foldl_examples] at h
      exact h
    · intro σ
      have h := walkAll_map (we := we) (anc := ("examples".toList, []) :: ("rule".toList, ruleAtts r) :: ruleAnc db s) (id := r.id) exampleXml
        (fun d e => { d with examples := d.examples ++ (if we then [storedExample e] else []) })
        (fun x σ => by
          have := walk_example (we := we) (anc := ("examples".toList, []) :: ("rule".toList, ruleAtts r) :: ruleAnc db s) (a := ruleAtts r) rfl
            (fun _ _ => rfl) x σ
          rwa [hid] at this) l σ
      simp only [foldl_examples] at h
      exact h
  | actions l =>
    refine ⟨σ, ?_, changes_refl _ _⟩
    refine walkAll_none ?_ σ
    intro x hx σ
    rw [List.mem_singleton.mp hx]
    show (readXmls we _ _ σ).bind _ = _
    rw [walkAll_none]
    · rfl
    · intro y hy σ
      obtain ⟨z, _, rfl⟩ := List.mem_map.mp hy
      exact walk_action (a := ruleAtts r) rfl z σ
  | description t => exact ⟨σ, rfl, changes_refl _ _⟩

/-! ### Rules, rulesets and the whole file -/

/-- What a rule in a ruleset does to an entry. -/
def ruleChange (we : Bool) (d : RuleData) (x : Str × DbRule) : RuleData := { x.2.parts.foldl (partChange we) d with ruleset := x.1 }

/-- What a list of rules does to the entry `id`. -/
def rulesChange (we : Bool) (id : Str) (L : List (Str × DbRule)) (d : RuleData) : RuleData :=
  L.foldl (fun d x => if x.2.id = id then ruleChange we d x else d) d

theorem rulesetKey_eq (s : DbRuleset) : rulesetKey (rulesetAtts s) = s.key := by
  rw [rulesetAtts, DbRuleset.key]
  cases hn : s.name with
  | none => rfl
  | some n =>
    have h1 : rulesetKey ([("name".toList, n)] ++ [("id".toList, s.id)]) = if truthy n then n else s.id := rfl
    simp only [h1]
    by_cases h : n = [] ∨ n = ['0']
    · rw [if_pos h, if_neg]
      rcases h with h | h <;> rw [h] <;> decide
    · rw [if_neg h, if_pos]
      simp only [truthy]
      simpa [not_or] using h

/-- From `σ` to `τ` the rules `L` and the programs `P` were read. -/
structure Reads (we : Bool) (L : List (Str × DbRule)) (P : Str → List Str) (σ τ : PdbData) : Prop where
  data : ∀ id, (τ.rules.lookup id).getD .new = rulesChange we id L ((σ.rules.lookup id).getD .new)
  there : ∀ id, (τ.rules.lookup id).isSome = ((σ.rules.lookup id).isSome || L.any fun x => decide (x.2.id = id))
  keys : (σ.rules.map Prod.fst).Nodup → (τ.rules.map Prod.fst).Nodup
  programs : ∀ k, τ.programs k = σ.programs k ++ P k

theorem reads_refl (we : Bool) (σ : PdbData) : Reads we [] (fun _ => []) σ σ := ⟨fun _ => rfl, fun _ => by simp, fun h => h, fun _ => by simp⟩

theorem Reads.then {we : Bool} {L L' : List (Str × DbRule)} {P P' : Str → List Str} {σ τ υ : PdbData} (h : Reads we L P σ τ) (h' : Reads we L' P' τ υ) :
    Reads we (L ++ L') (fun k => P k ++ P' k) σ υ := by
  refine ⟨fun id => ?_, fun id => ?_, fun hk => h'.keys (h.keys hk), fun k => ?_⟩
  · rw [h'.data, h.data]; simp [rulesChange, List.foldl_append]
  · rw [h'.there, h.there]; simp [List.any_append, Bool.or_assoc]
  · rw [h'.programs, h.programs, List.append_assoc]

theorem walk_rule (we : Bool) (db : PatternDb) (s : DbRuleset) (r : DbRule) (σ : PdbData) :
    ∃ τ, readXml we (ruleAnc db s) (ruleXml r) σ = some τ ∧ Reads we [(s.key, r)] (fun _ => []) σ τ := by
  obtain ⟨τ, h1, h2⟩ := walkAll_flatMap (we := we) (anc := ("rule".toList, ruleAtts r) :: ruleAnc db s) partXml (partChange we)
    (fun p σ => walk_part we db s r p σ) r.parts σ
  refine ⟨τ.updRule r.id fun d => { d with ruleset := s.key }, ?_, ?_⟩
  · show (readXmls we (("rule".toList, ruleAtts r) :: ruleAnc db s) _ σ).bind _ = _
    rw [h1]
    show some (τ.updRule (((ruleAtts r).lookup "id".toList).getD []) fun d => { d with ruleset := rulesetKey (rulesetAtts s) }) = _
    rw [ruleAtts_id, rulesetKey_eq]
  · have h3 := h2.then (changes_upd r.id (fun d => { d with ruleset := s.key }) τ)
    refine ⟨fun id => ?_, fun id => ?_, h3.keys, fun k => ?_⟩
    · by_cases e : id = r.id
      · subst e
        rw [h3.own]
        simp [rulesChange, ruleChange]
      · have e' : ¬ r.id = id := fun h => e h.symm
        rw [h3.others id e]
        simp [rulesChange, e']
    · by_cases e : id = r.id
      · subst e
        simp [PdbData.updRule, lookup_upd]
      · have e' : ¬ r.id = id := fun h => e h.symm
        rw [h3.others id e]
        simp [e']
    · simp [PdbData.programs, h3.rulesets]

theorem walk_rules (we : Bool) (db : PatternDb) (s : DbRuleset) : ∀ (l : List DbRule) (σ : PdbData),
    ∃ τ, readXmls we (ruleAnc db s) (l.map ruleXml) σ = some τ ∧ Reads we (l.map fun r => (s.key, r)) (fun _ => []) σ τ := by
  intro l
  induction l with
  | nil => intro σ; exact ⟨σ, rfl, reads_refl we σ⟩
  | cons r l ih =>
    intro σ
    obtain ⟨τ, h1, h2⟩ := walk_rule we db s r σ
    obtain ⟨υ, h3, h4⟩ := ih τ
    refine ⟨υ, ?_, h2.then h4⟩
    simp only [List.map_cons, readXmls, bind, h1, Option.bind_some, h3]

/-- The ancestors of what is in a ruleset. -/
def rulesetAnc (db : PatternDb) (s : DbRuleset) : Ancestors :=
  [("ruleset".toList, rulesetAtts s), ("patterndb".toList, db.atts)]

theorem reads_program (we : Bool) (key p : Str) (σ : PdbData) :
    Reads we [] (fun k => if key = k then [p] else []) σ { σ with rulesets := upd key (fun l => l ++ [p]) [] σ.rulesets } := by
  refine ⟨fun _ => rfl, fun _ => by simp, fun h => h, fun k => ?_⟩
  simp only [PdbData.programs, lookup_upd]
  by_cases e : k = key
  · subst e; simp
  · have e' : ¬ key = k := fun h => e h.symm
    simp [e, e']

theorem walk_programs (we : Bool) (db : PatternDb) (s : DbRuleset) (anc : Ancestors) (ha : anc = rulesetAnc db s ∨ anc = ("patterns".toList, []) :: rulesetAnc db s) :
    ∀ (l : List Str) (σ : PdbData), ∃ τ, readXmls we anc (l.map (leafXml "pattern" [])) σ = some τ ∧
      Reads we [] (fun k => if s.key = k then l else []) σ τ := by
  intro l
  induction l with
  | nil => intro σ; exact ⟨σ, rfl, by simpa using reads_refl we σ⟩
  | cons p l ih =>
    intro σ
    have h1 : readXml we anc (leafXml "pattern" [] p) σ = some { σ with rulesets := upd s.key (fun l => l ++ [p]) [] σ.rulesets } := by
      rw [← rulesetKey_eq, walk_leaf]
      rcases ha with rfl | rfl
      · show some { σ with rulesets := upd _ (fun l => l ++ [Xml.textsOf [.text p]]) [] σ.rulesets } = _
        rw [texts_leaf]
      · show some { σ with rulesets := upd _ (fun l => l ++ [Xml.textsOf [.text p]]) [] σ.rulesets } = _
        rw [texts_leaf]
    obtain ⟨υ, h3, h4⟩ := ih { σ with rulesets := upd s.key (fun l => l ++ [p]) [] σ.rulesets }
    refine ⟨υ, ?_, ?_⟩
    · simp only [List.map_cons, readXmls, bind, h1, Option.bind_some, h3]
    · have := (reads_program we s.key p σ).then h4
      have e : (fun k => (if s.key = k then [p] else []) ++ (if s.key = k then l else [])) = fun k => if s.key = k then p :: l else [] := by
        funext k; split <;> rfl
      rw [e] at this
      exact this

theorem walk_ruleset (we : Bool) (db : PatternDb) (s : DbRuleset) (σ : PdbData) :
    ∃ τ, readXml we [("patterndb".toList, db.atts)] (rulesetXml s) σ = some τ ∧
      Reads we (s.rules.map fun r => (s.key, r)) (fun k => if s.key = k then s.programs else []) σ τ := by
  have h0 : readXmls we (rulesetAnc db s) (descriptionXml s.description) σ = some σ := by
    cases s.description <;> rfl
  have h1 : ∃ τ, readXmls we (rulesetAnc db s) (wrapXml s.wrapped "patterns" (s.programs.map (leafXml "pattern" []))) σ = some τ ∧
      Reads we [] (fun k => if s.key = k then s.programs else []) σ τ := by
    cases s.wrapped with
    | false => exact walk_programs we db s _ (.inl rfl) s.programs σ
    | true =>
      obtain ⟨τ, h1, h2⟩ := walk_programs we db s _ (.inr rfl) s.programs σ
      refine ⟨τ, ?_, h2⟩
      show ((readXmls we (("patterns".toList, []) :: rulesetAnc db s) _ σ).bind _).bind _ = _
      rw [h1]
      rfl
  obtain ⟨τ, h1, h2⟩ := h1
  obtain ⟨υ, h3, h4⟩ := walk_rules we db s s.rules τ
  have h5 : readXmls we (rulesetAnc db s) [nodeXml "rules" [] (s.rules.map ruleXml)] τ = some υ := by
    show ((readXmls we (ruleAnc db s) _ τ).bind _).bind _ = _
    rw [h3]
    rfl
  refine ⟨υ, ?_, by simpa using h2.then h4⟩
  show (readXmls we (rulesetAnc db s) _ σ).bind _ = _
  rw [walkAll_append, walkAll_append, h0]
  simp only [Option.bind_some, h1, h5]
  rfl

theorem walk_rulesets (we : Bool) (db : PatternDb) : ∀ (l : List DbRuleset) (σ : PdbData),
    ∃ τ, readXmls we [("patterndb".toList, db.atts)] (l.map rulesetXml) σ = some τ ∧
      Reads we (l.flatMap fun s => s.rules.map fun r => (s.key, r)) (fun k => (l.filter fun s => decide (s.key = k)).flatMap (·.programs)) σ τ := by
  intro l
  induction l with
  | nil => intro σ; exact ⟨σ, rfl, reads_refl we σ⟩
  | cons s l ih =>
    intro σ
    obtain ⟨τ, h1, h2⟩ := walk_ruleset we db s σ
    obtain ⟨υ, h3, h4⟩ := ih τ
    refine ⟨υ, ?_, ?_⟩
    · simp only [List.map_cons, readXmls, bind, h1, Option.bind_some, h3]
    · have := h2.then h4
      have e : (fun k => (if s.key = k then s.programs else []) ++ (l.filter fun s => decide (s.key = k)).flatMap (·.programs)) =
          fun k => ((s :: l).filter fun s => decide (s.key = k)).flatMap (·.programs) := by
        funext k
        rw [List.filter_cons]
        by_cases g : s.key = k <;> simp [g]
      rw [e] at this
      simpa using this

theorem walk_db (we : Bool) (db : PatternDb) : ∃ σ, readXml we [] (patternDbXml db) ⟨[], []⟩ = some σ ∧ Reads we db.allRules db.programsOf ⟨[], []⟩ σ := by
  obtain ⟨τ, h1, h2⟩ := walk_rulesets we db db.rulesets ⟨[], []⟩
  refine ⟨τ, ?_, h2⟩
  show (readXmls we [("patterndb".toList, db.atts)] _ _).bind _ = _
  rw [h1]
  rfl

/-! ### What was read -/

theorem parts_patterns (we : Bool) (r : DbRule) (d : RuleData) : (r.parts.foldl (partChange we) d).patterns = d.patterns ++ r.patterns := by
  obtain ⟨id, atts, parts⟩ := r
  simp only [DbRule.patterns]
  induction parts generalizing d with
  | nil => simp
  | cons p l ih => rw [List.foldl_cons, ih]; cases p <;> simp [partChange]

theorem parts_tags (we : Bool) (r : DbRule) (d : RuleData) : (r.parts.foldl (partChange we) d).tags = d.tags ++ r.tags := by
  obtain ⟨id, atts, parts⟩ := r
  simp only [DbRule.tags]
  induction parts generalizing d with
  | nil => simp
  | cons p l ih => rw [List.foldl_cons, ih]; cases p <;> simp [partChange]

theorem parts_values (we : Bool) (r : DbRule) (d : RuleData) : (r.parts.foldl (partChange we) d).values = r.values.foldl assign d.values := by
  obtain ⟨id, atts, parts⟩ := r
  simp only [DbRule.values]
  induction parts generalizing d with
  | nil => simp
  | cons p l ih => rw [List.foldl_cons, ih]; cases p <;> simp [partChange]

theorem parts_examples (we : Bool) (r : DbRule) (d : RuleData) : (r.parts.foldl (partChange we) d).examples = d.examples ++ if we then r.examples.map storedExample else [] := by
  obtain ⟨id, atts, parts⟩ := r
  simp only [DbRule.examples]
  induction parts generalizing d with
  | nil => simp
  | cons p l ih => rw [List.foldl_cons, ih]; cases p <;> cases we <;> simp [partChange]

/-- the rules with the id among `L` -/
def withId (L : List (Str × DbRule)) (id : Str) : List DbRule := (L.filter fun x => decide (x.2.id = id)).map Prod.snd

theorem withId_cons (x : Str × DbRule) (L : List (Str × DbRule)) (id : Str) :
    withId (x :: L) id = if x.2.id = id then x.2 :: withId L id else withId L id := by
  by_cases e : x.2.id = id <;> simp [withId, e]

theorem rules_data (we : Bool) (id : Str) (L : List (Str × DbRule)) (d : RuleData) :
    (rulesChange we id L d).patterns = d.patterns ++ (withId L id).flatMap (·.patterns) ∧
    (rulesChange we id L d).tags = d.tags ++ (withId L id).flatMap (·.tags) ∧
    (rulesChange we id L d).values = ((withId L id).flatMap (·.values)).foldl assign d.values ∧
    (rulesChange we id L d).examples = d.examples ++ if we then ((withId L id).flatMap (·.examples)).map storedExample else [] := by
  induction L generalizing d with
  | nil => simp [rulesChange, withId]
  | cons x L ih =>
    obtain ⟨h1, h2, h3, h4⟩ := ih (if x.2.id = id then ruleChange we d x else d)
    have e : rulesChange we id (x :: L) d = rulesChange we id L (if x.2.id = id then ruleChange we d x else d) := rfl
    rw [e, h1, h2, h3, h4, withId_cons]
    by_cases g : x.2.id = id
    · simp only [if_pos g, ruleChange, parts_patterns, parts_tags, parts_values, parts_examples, List.flatMap_cons, List.map_append, List.foldl_append,
        List.append_assoc, true_and]
      cases we <;> simp
    · simp only [if_neg g, and_self]

theorem rules_ruleset (we : Bool) (id : Str) (L : List (Str × DbRule)) (d : RuleData) (h : ∃ x ∈ L, x.2.id = id) :
    ∃ A x B, L = A ++ x :: B ∧ x.1 = (rulesChange we id L d).ruleset ∧ x.2.id = id ∧ ∀ y ∈ B, y.2.id ≠ id := by
  induction L generalizing d with
  | nil => obtain ⟨x, hx, _⟩ := h; cases hx
  | cons x L ih =>
    by_cases g : ∃ y ∈ L, y.2.id = id
    · obtain ⟨A, y, B, h1, h2, h3, h4⟩ := ih (if x.2.id = id then ruleChange we d x else d) g
      exact ⟨x :: A, y, B, by rw [h1]; rfl, h2, h3, h4⟩
    · obtain ⟨y, hy, e⟩ := h
      have hx : x.2.id = id := by
        rcases List.mem_cons.mp hy with rfl | hy
        · exact e
        · exact absurd ⟨y, hy, e⟩ g
      refine ⟨[], x, L, rfl, ?_, hx, fun z hz e => g ⟨z, hz, e⟩⟩
      have key : ∀ (M : List (Str × DbRule)) (d : RuleData), (∀ y ∈ M, y.2.id ≠ id) → rulesChange we id M d = d := by
        intro M
        induction M with
        | nil => intro _ _; rfl
        | cons z M ihM =>
          intro d hM
          have e : rulesChange we id (z :: M) d = rulesChange we id M (if z.2.id = id then ruleChange we d z else d) := rfl
          rw [e, if_neg (hM z (List.mem_cons_self ..))]
          exact ihM d fun y hy => hM y (List.mem_cons_of_mem _ hy)
      have e : rulesChange we id (x :: L) d = rulesChange we id L (if x.2.id = id then ruleChange we d x else d) := rfl
      rw [e, key L _ (fun z hz e => g ⟨z, hz, e⟩), if_pos hx]
      rfl

theorem each_stored (l : List DbExample) : Each StoredExample l (l.map storedExample) := by
  induction l with
  | nil => exact .nil
  | cons e l ih => exact .cons _ _ _ _ ⟨rfl, rfl, assigned_opt e.values⟩ ih

theorem lookup_isSome {β : Type} {l : List (Str × β)} {k : Str} : (l.lookup k).isSome = true ↔ ∃ v, (k, v) ∈ l := by
  induction l with
  | nil => simp [List.lookup]
  | cons x l ih =>
    obtain ⟨y, w⟩ := x
    by_cases e : k = y
    · subst e; simp [List.lookup]
    · have : (k == y) = false := by simpa using e
      simp only [List.lookup, this, ih]
      simp [e]

/-- The rules that were read are those of the patterndb. -/
theorem read_as {we : Bool} {db : PatternDb} {σ : PdbData} (h : Reads we db.allRules db.programsOf ⟨[], []⟩ σ) : ReadAs db we σ.toRules := by
  have hk : (σ.rules.map Prod.fst).Nodup := h.keys (by simp)
  have hm : ∀ r ∈ σ.toRules, ∃ d, r = ⟨r.id, d.ruleset, d.patterns, d.examples, if d.values.isEmpty then none else some d.values,
      if d.tags.isEmpty then none else some d.tags⟩ ∧ d = rulesChange we r.id db.allRules .new ∧ ∃ x ∈ db.allRules, x.2.id = r.id := by
    intro r hr
    obtain ⟨⟨id, d⟩, h1, rfl⟩ := List.mem_map.mp hr
    refine ⟨d, rfl, ?_, ?_⟩
    · have := h.data id
      rw [(lookup_of_mem hk).mp h1] at this
      simpa [List.lookup] using this
    · have := h.there id
      rw [(lookup_of_mem hk).mp h1] at this
      simpa [List.lookup] using this
  refine ⟨?_, ?_, ?_, ?_, ?_, ?_, ?_⟩
  · have : σ.toRules.map (·.id) = σ.rules.map Prod.fst := by simp [PdbData.toRules]
    rw [this]; exact hk
  · intro x hx
    have : (σ.rules.lookup x.2.id).isSome = true := by
      rw [h.there, Bool.or_eq_true, List.any_eq_true]
      exact .inr ⟨x, hx, by simp⟩
    obtain ⟨v, hv⟩ := lookup_isSome.mp this
    exact ⟨_, List.mem_map_of_mem hv, rfl⟩
  · intro r hr
    obtain ⟨d, e, hd, _⟩ := hm r hr
    rw [e]
    show d.patterns = _
    rw [hd, (rules_data we r.id db.allRules .new).1]
    rfl
  · intro r hr
    obtain ⟨d, e, hd, _⟩ := hm r hr
    have e4 : r.examples = if we then ((db.rulesWith r.id).flatMap (·.examples)).map storedExample else [] := by
      rw [e]
      show d.examples = _
      rw [hd, (rules_data we r.id db.allRules .new).2.2.2]
      rfl
    rw [e4]
    cases we with
    | false => rfl
    | true => exact each_stored _
  · intro r hr
    obtain ⟨d, e, hd, _⟩ := hm r hr
    have e4 : d.tags = (db.rulesWith r.id).flatMap (·.tags) := by
      rw [hd, (rules_data we r.id db.allRules .new).2.1]
      rfl
    rw [e]
    show (if d.tags.isEmpty then none else some d.tags) = _
    rw [e4]
    by_cases g : (db.rulesWith r.id).flatMap (·.tags) = []
    · rw [if_pos g, g]; rfl
    · rw [if_neg g, if_neg]
      rw [List.isEmpty_iff]
      exact g
  · intro r hr
    obtain ⟨d, e, hd, _⟩ := hm r hr
    have e4 : d.values = ((db.rulesWith r.id).flatMap (·.values)).foldl assign [] := by
      rw [hd, (rules_data we r.id db.allRules .new).2.2.1]
      rfl
    have e5 : r.values = if d.values.isEmpty then none else some d.values := by rw [e]
    rw [e5, e4]
    exact assigned_opt _
  · intro r hr
    obtain ⟨d, e, hd, hx⟩ := hm r hr
    have e5 : r.ruleset = (rulesChange we r.id db.allRules .new).ruleset := by rw [← hd, e]
    rw [e5]
    exact rules_ruleset we r.id db.allRules .new hx

end Verif
