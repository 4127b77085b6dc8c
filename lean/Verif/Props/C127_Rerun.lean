import Verif.Spec.Rerun
import Verif.Props.C107_PatternDbAnswer
import Verif.Props.C115_Labels
import Verif.Props.C20_Order
import Verif.Props.C100_SuffixOrder
/-! C127: converting a patterndb again. -/
namespace Verif
open Spec Perl

namespace Rerun

/-! ### Lists -/

theorem each_perm {α β : Type} {R : α → β → Prop} {a a' : List α} (hp : a.Perm a') : ∀ b, Each R a b → ∃ b', b'.Perm b ∧ Each R a' b' := by
  induction hp with
  | nil => intro b h; exact ⟨b, .refl _, h⟩
  | cons x _ ih =>
    intro b h
    cases h with
    | cons _ y _ ys h1 h2 =>
      obtain ⟨b', p, e⟩ := ih _ h2
      exact ⟨y :: b', p.cons y, .cons _ _ _ _ h1 e⟩
  | swap x y l =>
    intro b h
    cases h with
    | cons _ u _ us h1 h2 =>
      cases h2 with
      | cons _ v _ vs h3 h4 => exact ⟨v :: u :: vs, List.Perm.swap u v vs, .cons _ _ _ _ h3 (.cons _ _ _ _ h1 h4)⟩
  | trans _ _ ih1 ih2 =>
    intro b h
    obtain ⟨b1, p1, e1⟩ := ih1 b h
    obtain ⟨b2, p2, e2⟩ := ih2 b1 e1
    exact ⟨b2, p2.trans p1, e2⟩

theorem each_both {α β γ : Type} {R : α → β → Prop} {R' : α → γ → Prop} {T : β → γ → Prop} (h : ∀ a b c, R a b → R' a c → T b c) {as : List α} {bs : List β}
    (h1 : Each R as bs) : ∀ {cs : List γ}, Each R' as cs → Each T bs cs := by
  induction h1 with
  | nil => intro cs h2; cases h2; exact .nil
  | cons a b as bs hr _ ih => intro cs h2; cases h2 with
    | cons _ c _ cs hr' h2 => exact .cons _ _ _ _ (h a b c hr hr') (ih h2)

theorem each_imp {α β : Type} {R T : α → β → Prop} (h : ∀ a b, R a b → T a b) {as : List α} {bs : List β} (h1 : Each R as bs) : Each T as bs := by
  induction h1 with
  | nil => exact .nil
  | cons a b as bs hr _ ih => exact .cons _ _ _ _ (h a b hr) ih

theorem each_map_both {α β α' β' : Type} {R : α → β → Prop} {T : α' → β' → Prop} {f : α → α'} {g : β → β'} (h : ∀ a b, R a b → T (f a) (g b)) {as : List α}
    {bs : List β} (h1 : Each R as bs) : Each T (as.map f) (bs.map g) := by
  induction h1 with
  | nil => exact .nil
  | cons a b as bs hr _ ih => exact .cons _ _ _ _ (h a b hr) ih

theorem each_reverse {α β : Type} {R : α → β → Prop} {as : List α} {bs : List β} (h1 : Each R as bs) : Each R as.reverse bs.reverse := by
  induction h1 with
  | nil => exact .nil
  | cons a b as bs hr _ ih =>
    rw [List.reverse_cons, List.reverse_cons]
    exact each_append ih (.cons _ _ _ _ hr .nil)

/-- Partners of different things are the values of a function. -/
theorem each_function {α : Type} {R : α → α → Prop} {as bs : List α} (h1 : Each R as bs) (hn : as.Nodup) :
    ∃ g : α → α, bs = as.map g ∧ (∀ a ∈ as, R a (g a)) ∧ ∀ a, a ∉ as → g a = a := by
  induction h1 with
  | nil => exact ⟨id, rfl, fun _ h => (List.not_mem_nil h).elim, fun _ _ => rfl⟩
  | cons a b as bs hr _ ih =>
    rw [List.nodup_cons] at hn
    obtain ⟨g, e, h2, h3⟩ := ih hn.2
    classical
    refine ⟨fun x => if x = a then b else g x, ?_, ?_, ?_⟩
    · rw [List.map_cons, if_pos rfl, e]
      congr 1
      refine List.map_congr_left fun x hx => ?_
      rw [if_neg]
      rintro rfl
      exact hn.1 hx
    · intro x hx
      simp only []
      rcases List.mem_cons.mp hx with rfl | hx'
      · rw [if_pos rfl]; exact hr
      · rw [if_neg (fun e : x = a => hn.1 (e ▸ hx'))]
        exact h2 x hx'
    · intro x hx
      rw [List.mem_cons, not_or] at hx
      simp only []
      rw [if_neg hx.1]
      exact h3 x hx.2

/-! ### The patterns of the file -/

/-- What is expected of the patterns, without the numbers. -/
def bare (read : Str → Str → Option (List Elem)) (items : List (PdbRule × Str × Nat × Str)) : List (PdbRule × Nat × List Elem) :=
  items.filterMap fun x => (read x.2.1 x.2.2.2).map fun es => (x.1, x.2.2.1, es)

/-- An expected pattern, without its number. -/
def FromBare (env : Env) (y : PdbRule × Nat × List Elem) (e : Expected) : Prop :=
  e.rule = y.1 ∧ e.elems = y.2.2 ∧ (y.2.1 = 0 ∧ e.uuid = y.1.id ∨ y.2.1 ≠ 0 ∧ ∃ n, e.uuid = env.fresh n)

theorem bare_expected (env : Env) (read : Str → Str → Option (List Elem)) (items : List (PdbRule × Str × Nat × Str)) :
    ∀ g, Each (FromBare env) (bare read items) (expectedFrom env read items g) := by
  induction items with
  | nil => intro g; exact .nil
  | cons x items ih =>
    intro g
    unfold bare expectedFrom
    rw [List.zipIdx_cons, List.filterMap_cons, List.filterMap_cons]
    simp only []
    cases read x.2.1 x.2.2.2 with
    | none => exact ih (g + 1)
    | some es =>
      refine .cons _ _ _ _ ⟨rfl, rfl, ?_⟩ (ih (g + 1))
      by_cases h0 : x.2.2.1 = 0
      · exact .inl ⟨h0, by simp [h0]⟩
      · exact .inr ⟨h0, g - 1, by simp [h0]⟩

theorem each_zipIdx {α β γ : Type} {R : α → β → Prop} {S : β × Nat → γ → Prop} {as : List α} {bs : List β} (h1 : Each R as bs) :
    ∀ (n : Nat) {cs : List γ}, Each S (bs.zipIdx n) cs → Each (fun a c => ∃ b m, R a b ∧ S (b, m) c) as cs := by
  induction h1 with
  | nil => intro n cs h2; cases h2; exact .nil
  | cons a b as bs hr _ ih =>
    intro n cs h2
    rw [List.zipIdx_cons] at h2
    cases h2 with
    | cons _ c _ cs hs h2 => exact .cons _ _ _ _ ⟨b, n, hr, hs⟩ (ih _ h2)

theorem sources_perm {env : Env} {rules rules' : List PdbRule} (h : rules.Perm rules') : (sources env rules).Perm (sources env rules') := h.flatMap_right _

theorem sameEntries_unique {m m' : BMap} {vs : List (Str × Str)} (h : SameEntries m vs) (h' : SameEntries m' vs) : m' = m := by
  refine orderedMap_ext h'.1 h.1 fun k => Option.ext fun x => ?_
  rw [← mem_iff_get h'.1, ← mem_iff_get h.1, h'.2, h.2]

theorem same_labels {env env' : Env} (hw : env'.withProgram = env.withProgram) {uuidOf : Str → Nat} {y : PdbRule × Nat × List Elem} {p p' : Pattern}
    (h : ∃ b m, FromBare env y b ∧ IsExpected env uuidOf (b, m) p) (h' : ∃ b m, FromBare env' y b ∧ IsExpected env' uuidOf (b, m) p') :
    SameButLabels (Made uuidOf env.fresh) (Made uuidOf env'.fresh) p p' := by
  obtain ⟨b, m, ⟨f1, f2, f3⟩, e1, e2, e3, e4, e5, ms, e6, e7⟩ := h
  obtain ⟨b', m', ⟨f1', f2', f3'⟩, e1', e2', e3', e4', e5', ms', e6', e7'⟩ := h'
  simp only [] at e1 e2 e3 e4 e5 e7 e1' e2' e3' e4' e5' e7'
  have hr : b'.rule = b.rule := f1'.trans f1.symm
  rw [hr] at e3' e4' e5' e7'
  refine ⟨by rw [e2, e2', f2, f2'], by rw [e4, e4'], ?_, ?_, ?_, ⟨_, m, m', e3, e3'⟩⟩
  · cases hv : plainValues b.rule with
    | nil =>
      rw [hv] at e5 e5'
      rw [e5, e5']
    | cons v vs =>
      rw [hv] at e5 e5'
      obtain ⟨a, ha, h1⟩ := e5
      obtain ⟨a', ha', h1'⟩ := e5'
      rw [ha, ha', sameEntries_unique h1 h1']
  · have key : ∀ {es : List PdbExample} {ms ms' : List TestMessage},
        Each (fun (e : PdbExample) (m : TestMessage) => m.message = encode ((if env.withProgram then e.program ++ ": ".toList else []) ++ e.message) ∧
          m.tags = none ∧ ∃ vs, e.values = some vs ∧ SameEntries m.values vs) es ms →
        Each (fun (e : PdbExample) (m : TestMessage) => m.message = encode ((if env.withProgram then e.program ++ ": ".toList else []) ++ e.message) ∧
          m.tags = none ∧ ∃ vs, e.values = some vs ∧ SameEntries m.values vs) es ms' → ms' = ms := by
      intro es ms ms' h1
      induction h1 generalizing ms' with
      | nil => intro h2; cases h2; rfl
      | cons e x es xs hx _ ih =>
        intro h2
        cases h2 with
        | cons _ x' _ xs' hx' h2 =>
          rw [ih h2]
          congr 1
          obtain ⟨a1, a2, vs, a3, a4⟩ := hx
          obtain ⟨b1, b2, ws, b3, b4⟩ := hx'
          rw [a3] at b3
          injection b3 with b3
          subst b3
          have := sameEntries_unique a4 b4
          cases x; cases x'
          simp only [] at a1 a2 b1 b2 this
          rw [a1, a2, b1, b2, this]
    rw [hw] at e7'
    rw [e6, e6', key e7 e7']
  · rcases f3 with ⟨g1, g2⟩ | ⟨g1, n, g2⟩
    · rcases f3' with ⟨_, g2'⟩ | ⟨g1', _⟩
      · exact .inl (by rw [e1, e1', g2, g2'])
      · exact absurd g1 g1'
    · rcases f3' with ⟨g1', _⟩ | ⟨_, n', g2'⟩
      · exact absurd g1' g1
      · exact .inr ⟨⟨n, by rw [e1, g2]⟩, ⟨n', by rw [e1', g2']⟩⟩

end Rerun

open Rerun

/-- C127 for rules: if the same rules are written twice, in any order, with entries of hashes in any order and with other new uuids, both documents can be loaded, and
the files hold the same patterns in some order, but for the numbers in the names and the new uuids. -/
theorem C127_rules_partial (env env' : Env) (hw : env'.withProgram = env.withProgram) (hp : env'.programs = env.programs) (d : Deps) (uuidOf : Str → Nat)
    (read : Str → Str → Option (List Elem)) (rules rules' : List PdbRule) (hr : rules'.Perm rules) (hi : ScriptInput env d uuidOf read rules)
    (hi' : ScriptInput env' d uuidOf read rules') (hv : HaveValues env read rules) :
    ∃ file file', deserFile d (document env rules) = .ok (.ok file) ∧ deserFile d (document env' rules') = .ok (.ok file') ∧
      ∃ qs, qs.Perm file'.patterns ∧ Each (SameButLabels (Made uuidOf env.fresh) (Made uuidOf env'.fresh)) file.patterns qs := by
  have hsrc : (sources env' rules').Perm (sources env rules) := by
    have : sources env' rules' = sources env rules' := by unfold sources; rw [hp]
    rw [this]
    exact sources_perm hr
  have hv' : HaveValues env' read rules' := fun x hx => hv x (hsrc.mem_iff.mp hx)
  obtain ⟨file, h1, h2⟩ := C92_file_partial uuidOf read rules hi hv
  obtain ⟨file', h1', h2'⟩ := C92_file_partial uuidOf read rules' hi' hv'
  have k := each_zipIdx (bare_expected env read (sources env rules) 0) 0 h2
  have k' := each_zipIdx (bare_expected env' read (sources env' rules') 0) 0 h2'
  have hb : (bare read (sources env' rules')).Perm (bare read (sources env rules)) := hsrc.filterMap _
  obtain ⟨qs, p, k''⟩ := each_perm hb _ k'
  refine ⟨file, file', h1, h1', qs, p, each_both ?_ k k''⟩
  intro y a b ha hb
  exact same_labels hw ha hb

/-- C127: two runs of the script on the same patterndb, with the same options, print documents that can be loaded (under the conditions of C104), and the files hold the
same patterns in some order, but for the numbers in the names and the new uuids.  Missing: that the order is the same (`C127_refuted`). -/
theorem C127_runs_partial (opts : Options) (fresh fresh' : Nat → Str) (order order' : List (Val × Val) → List (Val × Val))
    (shuffle shuffle' : List PdbRule → List PdbRule) (hs : ∀ l, (shuffle l).Perm l) (hs' : ∀ l, (shuffle' l).Perm l) (db : PatternDb) (d : Deps) (uuidOf : Str → Nat)
    (read : Str → Str → Option (List Elem)) (hi : DbInput db (dbEnv db opts fresh order) d uuidOf read) (hi' : DbInput db (dbEnv db opts fresh' order') d uuidOf read)
    (ha : opts.actions = false) (hp : opts.patterns = true) (hd : ¬ (opts.examples = true ∧ Stops db)) (hv : opts.examples = true → ExamplesHaveValues db read) :
    ∃ doc doc' file file', script opts fresh order shuffle (patternDbXml db) = .prints doc ∧ script opts fresh' order' shuffle' (patternDbXml db) = .prints doc' ∧
      deserFile d doc = .ok (.ok file) ∧ deserFile d doc' = .ok (.ok file') ∧
      ∃ qs, qs.Perm file'.patterns ∧ Each (SameButLabels (Made uuidOf fresh) (Made uuidOf fresh')) file.patterns qs := by
  obtain ⟨σ, h1, h2, h3⟩ := C103_read opts.examples db
  have hpg : σ.programs = db.programsOf := funext h3
  have key : ∀ (f : Nat → Str) (o : List (Val × Val) → List (Val × Val)) (s : List PdbRule → List PdbRule), (∀ l, (s l).Perm l) →
      ReadAs db opts.examples (s σ.toRules) ∧ script opts f o s (patternDbXml db) = .prints (document (dbEnv db opts f o) (s σ.toRules)) := by
    intro f o s hs
    have hra := readAs_perm (hs σ.toRules) h2
    refine ⟨hra, ?_⟩
    obtain ⟨rules, _, e⟩ := ((C104_script opts f o s hs db).2.2 ha hp).2 hd
    unfold script at e ⊢
    rw [h1] at e ⊢
    simp only [] at e ⊢
    rw [if_neg (by simp [ha]), if_pos hp] at e ⊢
    split at e
    · cases e
    · rename_i hc
      rw [if_neg hc, hpg]
      rfl
  obtain ⟨r1, e1⟩ := key fresh order shuffle hs
  obtain ⟨r2, e2⟩ := key fresh' order' shuffle' hs'
  obtain ⟨file, file', g1, g2, qs, g3, g4⟩ := C127_rules_partial (dbEnv db opts fresh order) (dbEnv db opts fresh' order') rfl rfl d uuidOf read
    (shuffle σ.toRules) (shuffle' σ.toRules) ((hs' _).trans (hs _).symm) (scriptInput hi r1) (scriptInput hi' r2) ((haveValues_iff r1).mpr hv)
  exact ⟨_, _, file, file', e1, e2, g1, g2, qs, g3, g4⟩

/-! ### The answers -/

namespace Rerun

theorem loaded_same {made made' : Nat → Prop} {p p' : Pattern} (h : SameButLabels made made' p p') : SameButLabels made made' (loaded p) (loaded p') :=
  ⟨h.pattern, h.tags, h.values, by simp only [loaded]; rw [h.testMessages], h.uuid, h.name⟩

/-- `D` is symmetric and depends on the tokens only. -/
structure OnTokens (D : Pattern → Pattern → Prop) : Prop where
  symm : ∀ {p q}, D p q → D q p
  tokens : ∀ {p q p' q' : Pattern}, p'.pattern = p.pattern → q'.pattern = q.pattern → D p' q' → D p q

theorem trie_onTokens : OnTokens OrderMatters :=
  ⟨orderMatters_symm, fun e e' h => by simpa only [OrderMatters, e, e'] using h⟩

theorem suffix_onTokens : OnTokens SuffixOrderMatters :=
  ⟨suffixOrderMatters_symm, fun e e' h => by simpa only [SuffixOrderMatters, e, e'] using h⟩

variable {D : Pattern → Pattern → Prop}

theorem anyOrder_two (hD : OnTokens D) {ps : List Pattern} (h : AnyOrder D ps) {p q : Pattern} (hp : p ∈ ps) (hq : q ∈ ps) (hne : p ≠ q) : ¬ D p q := by
  unfold AnyOrder at h
  induction h with
  | nil => cases hp
  | cons h1 _ ih =>
    rcases List.mem_cons.mp hp with rfl | hp'
    · rcases List.mem_cons.mp hq with rfl | hq'
      · exact absurd rfl hne
      · exact (h1 q hq').2
    · rcases List.mem_cons.mp hq with rfl | hq'
      · exact fun hm => (h1 p hp').2 (hD.symm hm)
      · exact ih hp' hq'

theorem anyOrder_perm (hD : OnTokens D) {ps qs : List Pattern} (hp : ps.Perm qs) (h : AnyOrder D ps) : AnyOrder D qs :=
  (hp.pairwise_iff fun h => ⟨h.1.symm, fun hc => h.2 (hD.symm hc)⟩).mp h

theorem anyOrder_tokens (hD : OnTokens D) {ps qs : List Pattern} (h1 : Each (fun p q : Pattern => q.pattern = p.pattern) ps qs) (h : AnyOrder D ps) : AnyOrder D qs := by
  unfold AnyOrder at h ⊢
  induction h1 with
  | nil => exact .nil
  | cons p q ps qs hpq hE ih =>
    rw [List.pairwise_cons] at h ⊢
    refine ⟨fun x hx => ?_, ih h.2⟩
    obtain ⟨y, hy, e⟩ := each_right hE x hx
    have := h.1 y hy
    exact ⟨by rw [hpq, e]; exact this.1, fun hc => this.2 (hD.tokens hpq e hc)⟩

theorem anyOrder_loaded (hD : OnTokens D) {ps : List Pattern} (h : AnyOrder D ps) : AnyOrder D (ps.reverse.map loaded) := by
  refine anyOrder_tokens hD (ps := ps.reverse) ?_ (anyOrder_perm hD (List.reverse_perm _).symm h)
  generalize ps.reverse = l
  induction l with
  | nil => exact .nil
  | cons a l ih => exact .cons _ _ _ _ rfl ih

theorem anyOrder_sameOrder (hD : OnTokens D) {ps qs : List Pattern} (hp : ps.Perm qs) (h : AnyOrder D ps) : SameOrder D ps qs := by
  refine ⟨hp, fun p q hm => ?_⟩
  have hf := hp.filter fun s => decide (s = p ∨ s = q)
  have hall : ∃ a, ∀ s ∈ ps.filter (fun s => decide (s = p ∨ s = q)), s = a := by
    by_cases hpm : p ∈ ps
    · by_cases hqm : q ∈ ps
      · by_cases e : p = q
        · subst e
          exact ⟨p, fun s hs => by simpa using (List.mem_filter.mp hs).2⟩
        · exact absurd hm (anyOrder_two hD h hpm hqm e)
      · refine ⟨p, fun s hs => ?_⟩
        have hs := List.mem_filter.mp hs
        rcases of_decide_eq_true hs.2 with e | e
        · exact e
        · subst e; exact absurd hs.1 hqm
    · refine ⟨q, fun s hs => ?_⟩
      have hs := List.mem_filter.mp hs
      rcases of_decide_eq_true hs.2 with e | e
      · subst e; exact absurd hs.1 hpm
      · exact e
  obtain ⟨a, ha⟩ := hall
  have e1 := List.eq_replicate_of_mem ha
  have e2 := List.eq_replicate_of_mem (fun s hs => ha s (hf.mem_iff.mpr hs))
  rw [e1, e2, hf.length_eq]

theorem relabel_builds (sip : Bytes → UInt64) (ps : List Pattern) (h : Proper sip ps) (g : Pattern → Pattern) (hg : Relabels id g)
    (hk : KeepsApart (relabelParser id) ps) (hcol : NoCollision sip (ps.map g)) (t : SuffixTree) (ht : SuffixTree.build sip ps = .ok t) :
    ∃ t', SuffixTree.build sip (ps.map g) = .ok t' := by
  have hr := relabel_replaces hg
  have h' := proper_replace hr.toRewrites h hcol
  refine (C96_build_panics_iff sip (ps.map g) h'.utf8 h'.nonempty h'.split).2 ?_
  intro A p B e h1
  obtain ⟨A0, B0, e1, rfl, h4⟩ := List.map_eq_append_iff.mp e
  obtain ⟨p0, B1, rfl, rfl, rfl⟩ := List.map_eq_cons_iff.mp h4
  have hA : (Table.of A0).AddPanics p0 := by
    rw [table_replace hr.toRewrites A0 (fun a b ha hb => hk a b (by
      obtain ⟨q, h1, h2⟩ := ha; exact ⟨q, by rw [e1]; simp [h1], h2⟩) (by obtain ⟨q, h1, h2⟩ := hb; exact ⟨q, by rw [e1]; simp [h1], h2⟩))] at h1
    exact (addPanics_replace hr.toRewrites _ p0).mp h1
  have := (C96_build_panics_iff sip ps h.utf8 h.nonempty h.split).1 ⟨A0, p0, B1, e1, hA⟩
  rw [ht] at this
  cases this

theorem relabel_id (a : Parser) : relabelParser id a = a := by cases a <;> rfl

/-- Patterns that are the same but for the labels are relabelled ones. -/
theorem relabelled {sip : Bytes → UInt64} {made made' : Nat → Prop} {ps qs : List Pattern} (hcol : NoCollision sip ps) (hn : ps.Nodup)
    (he : Each (SameButLabels made made') ps qs) :
    ∃ g, qs = ps.map g ∧ (∀ p ∈ ps, SameButLabels made made' p (g p)) ∧ Relabels id g ∧ NoCollision sip (ps.map g) := by
  obtain ⟨g, e, hg1, hg2⟩ := each_function he hn
  have hg : ∀ p, (g p).pattern = p.pattern := by
    intro p
    by_cases hp : p ∈ ps
    · exact (hg1 p hp).pattern
    · rw [hg2 p hp]
  refine ⟨g, e, hg1, ?_, ?_⟩
  · intro p
    rw [hg p]
    symm
    refine (List.map_congr_left (g := id) ?_).trans (List.map_id _)
    intro x _
    cases x with
    | literal l => rfl
    | parser a => simp [replaceToken, relabel_id]
  · intro a b ha hb e
    refine hcol a b ?_ ?_ e
    · obtain ⟨q, hq, h1⟩ := ha
      obtain ⟨p, hp, rfl⟩ := List.mem_map.mp hq
      exact ⟨p, hp, by rw [← hg p]; exact h1⟩
    · obtain ⟨q, hq, h1⟩ := hb
      obtain ⟨p, hp, rfl⟩ := List.mem_map.mp hq
      exact ⟨p, hp, by rw [← hg p]; exact h1⟩

theorem keepsApart_id (ps : List Pattern) : KeepsApart (relabelParser id) ps := fun a b _ _ e => by rwa [relabel_id, relabel_id] at e

theorem sameAnswers_of {M : List Token → Bytes → List (Parser × Bytes) → Prop} {T : Pattern → Pattern → Prop} {g : Pattern → Pattern} {ps : List Pattern} {text : Bytes}
    (hT : ∀ p ∈ ps, T p (g p)) {x y : Except Panic (Option MatchResult)} (key : SameRun M (relabelParser id) g ps text x y) : SameAnswers T x y := by
  cases x with
  | error e =>
    cases y with
    | error e' => exact key
    | ok r' => exact key.elim
  | ok r =>
    cases y with
    | error e' => exact key.elim
    | ok r' =>
      cases r with
      | none => cases r' with
        | none => trivial
        | some m' => exact key.elim
      | some m => cases r' with
        | none => exact key.elim
        | some m' =>
          obtain ⟨p, hp, caps, _, g1, g2⟩ := key
          have e : (caps.map fun c => (relabelParser id c.1, c.2)) = caps := by
            refine (List.map_congr_left (g := id) ?_).trans (List.map_id _)
            intro c _
            simp [relabel_id]
          rw [e] at g2
          refine ⟨?_, p, g p, hT p hp, g1.1, g2.1⟩
          have h4 : IsResult { pattern := { g p with pattern := [] }, values := m.values } (g p) caps := ⟨rfl, g1.2⟩
          rw [isResult_unique g2 h4]

end Rerun

/-- C127, the answers: two tries of patterns that are the same but for their labels, given in any order, answer alike, if the order of these patterns does not
matter. -/
theorem C127_order (sip : Bytes → UInt64) (made made' : Nat → Prop) (ps ps' qs : List Pattern) (hps : Proper sip ps) (ha : AnyOrder OrderMatters ps)
    (he : Each (SameButLabels made made') ps qs) (hq : qs.Perm ps') (t t' : SuffixTree) (hb : SuffixTree.build sip ps = .ok t)
    (hb' : SuffixTree.build sip ps' = .ok t') (text : Bytes) (hx : Utf8 text) :
    SameAnswers (SameButLabels made made') (t.parse text) (t'.parse text) := by
  obtain ⟨g, rfl, hg1, hgid, hcol⟩ := relabelled hps.hashes (List.Pairwise.imp (fun h e => h.1 (by rw [e])) ha) he
  obtain ⟨t1, h1⟩ := relabel_builds sip ps hps g hgid (keepsApart_id ps) hcol t hb
  have hao := anyOrder_tokens trie_onTokens (each_imp (fun _ _ h => h.pattern) he) ha
  have h2 : t1.parse text = t'.parse text :=
    C20_same_order_partial sip (ps.map g) ps' (proper_replace (relabel_replaces hgid).toRewrites hps hcol) (anyOrder_sameOrder trie_onTokens hq hao) t1 t' h1 hb' text hx
  have key := C115_trie sip ps hps id g hgid (keepsApart_id ps) hcol text hx
  rw [hb, h1] at key
  change SameRun Matches (relabelParser id) g ps text (t.parse text) (t1.parse text) at key
  rw [h2] at key
  exact sameAnswers_of hg1 key

/-- C127, the answers of two suffix arrays. -/
theorem C127_order_suffix (sip : Bytes → UInt64) (made made' : Nat → Prop) (ps ps' qs : List Pattern) (hu : ∀ p ∈ ps, Utf8Lits p) (hc : NoCollision sip ps)
    (ha : AnyOrder SuffixOrderMatters ps) (he : Each (SameButLabels made made') ps qs) (hq : qs.Perm ps') (text : Bytes) (hx : Utf8 text) :
    SameAnswers (SameButLabels made made') (SuffixTable.build sip ps >>= fun t => t.parse text) (SuffixTable.build sip ps' >>= fun t => t.parse text) := by
  obtain ⟨g, rfl, hg1, hgid, hcol⟩ := relabelled hc (List.Pairwise.imp (fun h e => h.1 (by rw [e])) ha) he
  have hao := anyOrder_tokens suffix_onTokens (each_imp (fun _ _ h => h.pattern) he) ha
  have hu' : ∀ p ∈ ps.map g, Utf8Lits p := by
    intro q hq
    obtain ⟨p, hp, rfl⟩ := List.mem_map.mp hq
    intro l hl
    exact hu p hp l (by rw [← (hg1 p hp).pattern]; exact hl)
  have h2 := C100_same_order sip (ps.map g) ps' hu' hcol (anyOrder_sameOrder suffix_onTokens hq hao) text hx
  have key := C115_suffix sip ps hu hc id g hgid (keepsApart_id ps) hcol text hx
  rw [h2] at key
  exact sameAnswers_of hg1 key

/-- C127: the two files of two runs, for a matcher. -/
theorem Rerun.two_files (opts : Options) (fresh fresh' : Nat → Str) (order order' : List (Val × Val) → List (Val × Val))
    (shuffle shuffle' : List PdbRule → List PdbRule) (hs : ∀ l, (shuffle l).Perm l) (hs' : ∀ l, (shuffle' l).Perm l) (db : PatternDb) (d : Deps) (uuidOf : Str → Nat)
    (read : Str → Str → Option (List Elem)) (hi : DbInput db (dbEnv db opts fresh order) d uuidOf read) (hi' : DbInput db (dbEnv db opts fresh' order') d uuidOf read)
    (ha : opts.actions = false) (hp : opts.patterns = true) (hd : ¬ (opts.examples = true ∧ Stops db)) (hv : opts.examples = true → ExamplesHaveValues db read)
    (sip : Bytes → UInt64) (hcol : NoDbCollision sip db read) (doc doc' : Val) (hdoc : script opts fresh order shuffle (patternDbXml db) = .prints doc)
    (hdoc' : script opts fresh' order' shuffle' (patternDbXml db) = .prints doc') (file file' : PatternFile) (hf : deserFile d doc = .ok (.ok file))
    (hf' : deserFile d doc' = .ok (.ok file')) :
    Proper sip (file.patterns.reverse.map loaded) ∧ ∃ qs, qs.Perm (file'.patterns.reverse.map loaded) ∧
      Each (SameButLabels (Made uuidOf fresh) (Made uuidOf fresh')) (file.patterns.reverse.map loaded) qs := by
  obtain ⟨doc1, doc1', file1, file1', e1, e1', e2, e2', qs, hq, hE⟩ := C127_runs_partial opts fresh fresh' order order' shuffle shuffle' hs hs' db d uuidOf read hi hi' ha hp hd hv
  rw [hdoc] at e1; injection e1 with e1; subst e1
  rw [hdoc'] at e1'; injection e1' with e1'; subst e1'
  rw [hf] at e2; simp only [Except.ok.injEq] at e2; subst e2
  rw [hf'] at e2'; simp only [Except.ok.injEq] at e2'; subst e2'
  obtain ⟨rules, doc2, file2, h1, h2, h3, h4⟩ := C104_file opts fresh order shuffle hs db d uuidOf read hi ha hp hd hv
  rw [hdoc] at h2; injection h2 with h2; subst h2
  rw [hf] at h3; simp only [Except.ok.injEq] at h3; subst h3
  have hsi := scriptInput hi h1
  have key : ∀ p ∈ file.patterns, CompiledUtf8 p ∧ ∃ key id i es, Offers db read key id i es ∧ p.pattern = meant es := by
    intro p hpm
    obtain ⟨e, he, _, hpat, _⟩ := each_mem h4 hpm
    have he := List.fst_mem_of_mem_zipIdx he
    obtain ⟨x, hxm, hrule, hread, _, _⟩ := mem_expected he
    obtain ⟨g1, g2, g3⟩ := mem_sources hxm
    refine ⟨?_, _, _, _, _, offers_of h1 g1 g2 g3 hread, hpat⟩
    have hrd := hsi.reading x hxm
    rw [hread] at hrd
    obtain ⟨s, _, _, hcomp⟩ := reading_some hrd
    exact ⟨_, ⟨_, rfl⟩, by rw [hpat]; exact hcomp⟩
  have hcol' : NoCollision sip file.patterns := by
    rintro a b ⟨p, hp1, hp2⟩ ⟨q, hq1, hq2⟩ e
    obtain ⟨_, k1, id1, i1, es1, o1, m1⟩ := key p hp1
    obtain ⟨_, k2, id2, i2, es2, o2, m2⟩ := key q hq1
    exact hcol a b ⟨_, _, _, _, o1, by rw [← m1]; exact hp2⟩ ⟨_, _, _, _, o2, by rw [← m2]; exact hq2⟩ e
  refine ⟨⟨loaded_mem (P := Utf8Lits) (fun _ => Iff.rfl) fun p hp => (compiledUtf8_lits (key p hp).1).1,
     loaded_mem (P := NonemptyLits) (fun _ => Iff.rfl) fun p hp => (compiledUtf8_lits (key p hp).1).2.1,
     loaded_mem (P := SplitLiterals) (fun _ => Iff.rfl) fun p hp => (compiledUtf8_lits (key p hp).1).2.2, loaded_noCollision hcol'⟩,
    qs.reverse.map loaded, ((List.reverse_perm _).trans (hq.trans (List.reverse_perm _).symm)).map _, each_map_both (fun _ _ h => loaded_same h) (each_reverse hE)⟩

/-- C127: if the order of the patterns does not matter, the tries loaded from the documents of two runs of the script give the same answers (or panics), but for the
numbers in the names and the new uuids. -/
theorem C127_answers_partial (opts : Options) (fresh fresh' : Nat → Str) (order order' : List (Val × Val) → List (Val × Val))
    (shuffle shuffle' : List PdbRule → List PdbRule) (hs : ∀ l, (shuffle l).Perm l) (hs' : ∀ l, (shuffle' l).Perm l) (db : PatternDb) (d : Deps) (uuidOf : Str → Nat)
    (read : Str → Str → Option (List Elem)) (hi : DbInput db (dbEnv db opts fresh order) d uuidOf read) (hi' : DbInput db (dbEnv db opts fresh' order') d uuidOf read)
    (ha : opts.actions = false) (hp : opts.patterns = true) (hd : ¬ (opts.examples = true ∧ Stops db)) (hv : opts.examples = true → ExamplesHaveValues db read)
    (sip : Bytes → UInt64) (hcol : NoDbCollision sip db read) (doc doc' : Val) (hdoc : script opts fresh order shuffle (patternDbXml db) = .prints doc)
    (hdoc' : script opts fresh' order' shuffle' (patternDbXml db) = .prints doc') (file file' : PatternFile) (hf : deserFile d doc = .ok (.ok file))
    (hf' : deserFile d doc' = .ok (.ok file')) (hany : AnyOrder OrderMatters file.patterns) (t t' : SuffixTree)
    (ht : built (trieMatcher sip) file.patterns.reverse = .ok t) (ht' : built (trieMatcher sip) file'.patterns.reverse = .ok t') (text : Bytes) (hx : Utf8 text) :
    SameAnswers (SameButLabels (Made uuidOf fresh) (Made uuidOf fresh')) (t.parse text) (t'.parse text) := by
  obtain ⟨hps, qs, hq, hE⟩ := two_files opts fresh fresh' order order' shuffle shuffle' hs hs' db d uuidOf read hi hi' ha hp hd hv sip hcol doc doc' hdoc hdoc' file file' hf hf'
  exact C127_order sip _ _ _ _ qs hps (anyOrder_loaded trie_onTokens hany) hE hq t t' ht ht' text hx

/-- C127: the same for suffix arrays, where the order matters for fewer patterns. -/
theorem C127_answers_suffix_partial (opts : Options) (fresh fresh' : Nat → Str) (order order' : List (Val × Val) → List (Val × Val))
    (shuffle shuffle' : List PdbRule → List PdbRule) (hs : ∀ l, (shuffle l).Perm l) (hs' : ∀ l, (shuffle' l).Perm l) (db : PatternDb) (d : Deps) (uuidOf : Str → Nat)
    (read : Str → Str → Option (List Elem)) (hi : DbInput db (dbEnv db opts fresh order) d uuidOf read) (hi' : DbInput db (dbEnv db opts fresh' order') d uuidOf read)
    (ha : opts.actions = false) (hp : opts.patterns = true) (hd : ¬ (opts.examples = true ∧ Stops db)) (hv : opts.examples = true → ExamplesHaveValues db read)
    (sip : Bytes → UInt64) (hcol : NoDbCollision sip db read) (doc doc' : Val) (hdoc : script opts fresh order shuffle (patternDbXml db) = .prints doc)
    (hdoc' : script opts fresh' order' shuffle' (patternDbXml db) = .prints doc') (file file' : PatternFile) (hf : deserFile d doc = .ok (.ok file))
    (hf' : deserFile d doc' = .ok (.ok file')) (hany : AnyOrder SuffixOrderMatters file.patterns) (text : Bytes) (hx : Utf8 text) :
    SameAnswers (SameButLabels (Made uuidOf fresh) (Made uuidOf fresh')) (built (suffixArrayMatcher sip) file.patterns.reverse >>= fun t => t.parse text)
      (built (suffixArrayMatcher sip) file'.patterns.reverse >>= fun t => t.parse text) := by
  obtain ⟨hps, qs, hq, hE⟩ := two_files opts fresh fresh' order order' shuffle shuffle' hs hs' db d uuidOf read hi hi' ha hp hd hv sip hcol doc doc' hdoc hdoc' file file' hf hf'
  exact C127_order_suffix sip _ _ _ _ qs hps.utf8 hps.hashes (anyOrder_loaded suffix_onTokens hany) hE hq text hx

/-! ### The order matters -/

namespace Rerun

/-- Two rules, each with one pattern that begins with a parser. -/
def twoDb : PatternDb :=
  ⟨[], [⟨some "s".toList, [], none, true, ["p".toList], [⟨"r1".toList, [], [.patterns true ["@NUMBER:x@".toList]]⟩, ⟨"r2".toList, [], [.patterns true ["@NUMBER:y@".toList]]⟩]⟩]⟩

/-- What the patterns stand for. -/
def twoRead (_ src : Str) : Option (List Elem) :=
  if src = "@NUMBER:x@".toList then some [.int [] (some b!"x")] else if src = "@NUMBER:y@".toList then some [.int [] (some b!"y")] else none

/-- Patterns only, without the names of the programs. -/
def twoOpts : Options := ⟨false, true, false, false⟩

theorem two_rules {x : Str × DbRule} (h : x ∈ twoDb.allRules) : x.2.patterns = ["@NUMBER:x@".toList] ∨ x.2.patterns = ["@NUMBER:y@".toList] := by
  simp only [twoDb, PatternDb.allRules, List.flatMap_cons, List.flatMap_nil, List.append_nil, List.map_cons, List.map_nil, List.mem_cons, List.not_mem_nil, or_false] at h
  rcases h with rfl | rfl
  · exact .inl rfl
  · exact .inr rfl

theorem two_input (order : List (Val × Val) → List (Val × Val)) (ho : ∀ l, (order l).Perm l) :
    DbInput twoDb (dbEnv twoDb twoOpts (pdbEnv true).fresh order) pdbDeps pdbUuid twoRead where
  order := ho
  faithful := ⟨fun _ => rfl, fun _ => rfl, fun _ => rfl⟩
  fresh := fun _ => rfl
  ids := fun _ _ => rfl
  reading := by
    intro x hx src hsrc y hy _ prog _
    have key : ∀ n : Str, n ≠ [] → (n = "x".toList ∨ n = "y".toList) → PdbReading [] (pdbSource [.parser "NUMBER".toList [n]]) (some [.int [] (some (encode n))]) := by
      intro n _ hn
      have hname : PdbName [n] (encode n) := by rcases hn with rfl | rfl <;> exact sample_name rfl (by decide) []
      have hnum : PdbPieceMeans (.parser "NUMBER".toList [n]) [.int [] (some (encode n))] := .parser _ _ _ (.number _ _ hname) (by rcases hn with rfl | rfl <;> decide)
      refine PdbReading.converted [.parser "NUMBER".toList [n]] [.int [] (some (encode n))] _ ⟨[[.int [] (some (encode n))]], .cons _ _ _ _ hnum .nil, rfl⟩ (by simp) (by simp) ?_
        ⟨[[.int [] (some (encode n))]], .cons _ _ _ _ hnum .nil, rfl⟩ ?_
      · simp [CleanLiterals]
      · simp [CleanLiterals]
    rcases two_rules hx with h | h <;> rw [h, List.mem_singleton] at hsrc <;> subst hsrc
    · exact key "x".toList (by decide) (.inl rfl)
    · exact key "y".toList (by decide) (.inr rfl)

theorem two_collision : NoDbCollision Samples.sip twoDb twoRead := by
  have key : ∀ a, (∃ key id i es, Offers twoDb twoRead key id i es ∧ (meant es).head? = some (.parser a)) →
      a = Samples.int b!"x" ∨ a = Samples.int b!"y" := by
    rintro a ⟨_, _, _, es, ⟨_, _, src, _, _, h⟩, he⟩
    unfold twoRead at h
    split at h
    · injection h with h; subst h; simp [meant] at he; exact .inl he.symm
    · split at h
      · injection h with h; subst h; simp [meant] at he; exact .inr he.symm
      · cases h
  intro a b ha hb
  rcases key a ha with rfl | rfl <;> rcases key b hb with rfl | rfl <;> first | exact (fun _ => rfl) | exact (by decide +kernel)

/-- The uuid of the answer to `5` if the rules are met in this order. -/
def twoAnswer (shuffle : List PdbRule → List PdbRule) : Option Nat :=
  match script twoOpts (pdbEnv true).fresh id shuffle (patternDbXml twoDb) with
  | .prints doc => (match deserFile pdbDeps doc with
    | .ok (.ok file) => (match SuffixTree.build Samples.sip (file.patterns.reverse.map loaded) with
      | .ok t => (match t.parse b!"5" with
        | .ok (some r) => some r.pattern.uuid
        | _ => none)
      | .error _ => none)
    | _ => none)
  | _ => none

end Rerun

/-- C127 (refuted): without the condition on the order the answers of two runs differ: the script meets the rules in the order of a Perl hash, and of the patterns that
begin with a parser the first one that matches answers. -/
theorem C127_refuted : ¬ ∀ (opts : Options) (fresh fresh' : Nat → Str) (order order' : List (Val × Val) → List (Val × Val))
    (shuffle shuffle' : List PdbRule → List PdbRule) (db : PatternDb) (d : Deps) (uuidOf : Str → Nat) (read : Str → Str → Option (List Elem)) (sip : Bytes → UInt64),
    (∀ l, (shuffle l).Perm l) → (∀ l, (shuffle' l).Perm l) → DbInput db (dbEnv db opts fresh order) d uuidOf read → DbInput db (dbEnv db opts fresh' order') d uuidOf read →
    opts.actions = false → opts.patterns = true → ¬ (opts.examples = true ∧ Stops db) → (opts.examples = true → ExamplesHaveValues db read) → NoDbCollision sip db read →
    ∀ doc doc', script opts fresh order shuffle (patternDbXml db) = .prints doc → script opts fresh' order' shuffle' (patternDbXml db) = .prints doc' →
    ∀ file file', deserFile d doc = .ok (.ok file) → deserFile d doc' = .ok (.ok file') →
    ∀ t t', built (trieMatcher sip) file.patterns.reverse = .ok t → built (trieMatcher sip) file'.patterns.reverse = .ok t' →
    ∀ text, Utf8 text → SameAnswers (SameButLabels (Made uuidOf fresh) (Made uuidOf fresh')) (t.parse text) (t'.parse text) := by
  intro H
  have h1 : twoAnswer id = some (pdbUuid "r2".toList) := by decide +kernel
  have h2 : twoAnswer List.reverse = some (pdbUuid "r1".toList) := by decide +kernel
  have key : ∀ {s u}, twoAnswer s = some u → ∃ doc file t r, script twoOpts (pdbEnv true).fresh id s (patternDbXml twoDb) = .prints doc ∧
      deserFile pdbDeps doc = .ok (.ok file) ∧ built (trieMatcher Samples.sip) file.patterns.reverse = .ok t ∧ t.parse b!"5" = .ok (some r) ∧ r.pattern.uuid = u := by
    intro s u h
    unfold twoAnswer at h
    split at h
    · rename_i doc e1
      split at h
      · rename_i file e2
        split at h
        · rename_i t e3
          split at h
          · rename_i r e4
            injection h with h
            exact ⟨doc, file, t, r, e1, e2, e3, e4, h⟩
          · cases h
        · cases h
      · cases h
    · cases h
  obtain ⟨doc, file, t, r, a1, a2, a3, a4, a5⟩ := key h1
  obtain ⟨doc', file', t', r', b1, b2, b3, b4, b5⟩ := key h2
  have := H twoOpts _ _ id id id List.reverse twoDb pdbDeps pdbUuid twoRead Samples.sip (fun _ => .refl _) (fun l => List.reverse_perm l)
    (two_input id fun _ => .refl _) (two_input id fun _ => .refl _) rfl rfl (by simp [twoOpts]) (by simp [twoOpts]) two_collision doc doc' a1 b1 file file' a2 b2 t t' a3 b3
    b!"5" (ascii_utf8 (by decide))
  rw [a4, b4] at this
  obtain ⟨_, p, p', hT, e1, e2⟩ := this
  rw [e1] at a5
  rw [e2] at b5
  simp only [] at a5 b5
  rcases hT.uuid with e | ⟨⟨n, e⟩, _⟩
  · rw [a5, b5] at e
    exact absurd (pdbUuid_inj _ _ e) (by decide)
  · rw [a5] at e
    have := pdbUuid_inj _ _ e
    simp [pdbEnv] at this

/-! ### A sample -/

/-- Another run: the rules come in another order, and so do the entries of hashes, and the new uuids are others. -/
theorem sample_again : DbInput sampleDb (dbEnv sampleDb sampleOpts (fun n => 'g' :: List.replicate n 'y') id) pdbDeps pdbUuid pdbRead :=
  ⟨fun _ => .refl _, ⟨fun _ => rfl, fun _ => rfl, fun _ => rfl⟩, fun _ => rfl, fun _ _ => rfl, sample_input.reading⟩

example : ∃ doc doc' file file', script sampleOpts (pdbEnv true).fresh List.reverse List.reverse (patternDbXml sampleDb) = .prints doc ∧
    script sampleOpts (fun n => 'g' :: List.replicate n 'y') id id (patternDbXml sampleDb) = .prints doc' ∧
    deserFile pdbDeps doc = .ok (.ok file) ∧ deserFile pdbDeps doc' = .ok (.ok file') ∧
    ∃ qs, qs.Perm file'.patterns ∧
      Each (SameButLabels (Made pdbUuid (pdbEnv true).fresh) (Made pdbUuid fun n => 'g' :: List.replicate n 'y')) file.patterns qs :=
  C127_runs_partial sampleOpts _ _ _ _ _ _ (fun l => List.reverse_perm l) (fun _ => .refl _) sampleDb pdbDeps pdbUuid pdbRead sample_input sample_again rfl rfl
    (fun h => sample_goes_on h.2) fun _ => sample_values

/-- The patterns of the sample can come in any order. -/
example (file : PatternFile) (h : deserFile pdbDeps printedDoc = .ok (.ok file)) : AnyOrder OrderMatters file.patterns := by
  have key : (match deserFile pdbDeps printedDoc with
    | .ok (.ok f) => decide (f.patterns.map (·.pattern) = [[.literal b!"sshd: login ", .parser (Samples.int b!"n")], [.literal b!"sshd: exit"]])
    | _ => false) = true := by decide +kernel
  rw [h] at key
  have key := of_decide_eq_true key
  match hps : file.patterns with
  | [] => rw [hps] at key; cases key
  | [_] => rw [hps] at key; simp at key
  | _ :: _ :: _ :: _ => rw [hps] at key; simp at key
  | [p, q] =>
    rw [hps] at key
    simp only [List.map_cons, List.map_nil, List.cons.injEq, and_true] at key
    obtain ⟨k1, k2⟩ := key
    refine List.pairwise_pair.mpr ⟨by rw [k1, k2]; decide, ?_⟩
    simp only [OrderMatters, k1, k2]
    decide

end Verif
