import Verif.Proofs.PdbXml
import Verif.Spec.PatternDbAnswer
import Verif.Props.C92_C93_ConvertedFile
/-! C103 and C104: what the script /repo/utils/pdb2adb reads from an XML file, and what it prints for it. -/
namespace Verif
open Spec Perl

/-- C103: the script reads every patterndb without an error.  What it knows afterwards: one rule for each id, with the patterns, examples, tags and values of the
rules with this id, and for each ruleset its programs.  Descriptions and actions do not matter, nor does the way in which patterns, examples, tags and values
are grouped. -/
theorem C103_read (withExamples : Bool) (db : PatternDb) :
    ∃ σ, readXml withExamples [] (patternDbXml db) ⟨[], []⟩ = some σ ∧ ReadAs db withExamples σ.toRules ∧ ∀ key, σ.programs key = db.programsOf key := by
  obtain ⟨σ, h1, h2⟩ := walk_db withExamples db
  exact ⟨σ, h1, read_as h2, fun key => by rw [h2.programs]; rfl⟩

/-- C103: if the ids of the rules are different, each rule is read as it is in the file. -/
theorem C103_distinct (withExamples : Bool) (db : PatternDb) (hd : (db.allRules.map fun x => x.2.id).Nodup) :
    ∃ σ, readXml withExamples [] (patternDbXml db) ⟨[], []⟩ = some σ ∧ ∀ key r, (key, r) ∈ db.allRules →
      ∃ p ∈ σ.toRules, p.id = r.id ∧ p.ruleset = key ∧ p.patterns = r.patterns ∧ p.tags = (if r.tags = [] then none else some r.tags) ∧
        AssignedOpt r.values p.values ∧ if withExamples then Each StoredExample r.examples p.examples else p.examples = [] := by
  obtain ⟨σ, h1, h2, _⟩ := C103_read withExamples db
  refine ⟨σ, h1, fun key r hr => ?_⟩
  obtain ⟨p, hp, e⟩ := h2.complete _ hr
  have huniq : ∀ (L : List (Str × DbRule)), (L.map fun x => x.2.id).Nodup → (key, r) ∈ L → L.filter (fun x => decide (x.2.id = r.id)) = [(key, r)] := by
    intro L
    induction L with
    | nil => intro _ h; cases h
    | cons x L ih =>
      intro hn hm
      rw [List.map_cons, List.nodup_cons] at hn
      rcases List.mem_cons.mp hm with rfl | hm
      · rw [List.filter_cons, if_pos (by simp)]
        congr 1
        rw [List.filter_eq_nil_iff]
        intro y hy g
        have g := of_decide_eq_true g
        exact hn.1 (List.mem_map.mpr ⟨y, hy, g⟩)
      · rw [List.filter_cons, if_neg]
        · exact ih hn.2 hm
        · intro g
          have g := of_decide_eq_true g
          exact hn.1 (List.mem_map.mpr ⟨_, hm, g.symm⟩)
  have hw : db.rulesWith p.id = [r] := by
    rw [e]
    show (db.allRules.filter fun x => decide (x.2.id = r.id)).map Prod.snd = [r]
    rw [huniq _ hd hr]
    rfl
  have h3 := h2.patterns p hp
  have h4 := h2.examples p hp
  have h5 := h2.tags p hp
  have h6 := h2.values p hp
  obtain ⟨A, x, B, g1, g2, g3, _⟩ := h2.ruleset p hp
  have hx : x = (key, r) := by
    have hmx : x ∈ db.allRules.filter fun x => decide (x.2.id = r.id) :=
      List.mem_filter.mpr ⟨g1 ▸ List.mem_append_right A (List.mem_cons_self ..), by simp [g3, e]⟩
    rw [huniq _ hd hr] at hmx
    exact List.mem_singleton.mp hmx
  rw [hw] at h3 h4 h5 h6
  simp only [List.flatMap_cons, List.flatMap_nil, List.append_nil] at h3 h4 h5 h6
  exact ⟨p, hp, e, by rw [← g2, hx], h3, h5, h6, h4⟩

/-! ### The whole script -/

theorem each_nil_right {α β : Type} {R : α → β → Prop} {as : List α} : Each R as [] → as = [] := by
  intro h
  cases h
  rfl

theorem readAs_perm {db : PatternDb} {we : Bool} {l l' : List PdbRule} (hp : l'.Perm l) (h : ReadAs db we l) : ReadAs db we l' where
  ids := (hp.map _).nodup_iff.mpr h.ids
  complete := fun x hx => let ⟨r, hr, e⟩ := h.complete x hx; ⟨r, hp.mem_iff.mpr hr, e⟩
  patterns := fun r hr => h.patterns r (hp.mem_iff.mp hr)
  examples := fun r hr => h.examples r (hp.mem_iff.mp hr)
  tags := fun r hr => h.tags r (hp.mem_iff.mp hr)
  values := fun r hr => h.values r (hp.mem_iff.mp hr)
  ruleset := fun r hr => h.ruleset r (hp.mem_iff.mp hr)

/-- Two places of the last rule with an id are the same. -/
theorem last_rule_unique {L A A' B B' : List (Str × DbRule)} {x x' : Str × DbRule} (h : L = A ++ x :: B) (h' : L = A' ++ x' :: B') (e : x.2.id = x'.2.id)
    (hB : ∀ y ∈ B, y.2.id ≠ x.2.id) (hB' : ∀ y ∈ B', y.2.id ≠ x'.2.id) : x = x' := by
  induction A generalizing L A' with
  | nil =>
    cases A' with
    | nil => rw [h] at h'; simp only [List.nil_append, List.cons.injEq] at h'; exact h'.1
    | cons a A' =>
      rw [h] at h'
      simp only [List.nil_append, List.cons_append, List.cons.injEq] at h'
      exact absurd e.symm (hB x' (by rw [h'.2]; simp))
  | cons a A ih =>
    cases A' with
    | nil =>
      rw [h] at h'
      simp only [List.nil_append, List.cons_append, List.cons.injEq] at h'
      exact absurd e (hB' x (by rw [← h'.2]; simp))
    | cons a' A' =>
      rw [h] at h'
      simp only [List.cons_append, List.cons.injEq] at h'
      exact ih rfl h'.2

/-- The condition under which the script stops. -/
theorem stops_iff {db : PatternDb} {rules : List PdbRule} {programs : Str → List Str} (h : ReadAs db true rules) (hp : ∀ key, programs key = db.programsOf key) :
    rules.any (fun r => !(programs r.ruleset).isEmpty && !r.examples.isEmpty && r.patterns.isEmpty) = true ↔ Stops db := by
  rw [List.any_eq_true]
  constructor
  · rintro ⟨r, hr, hc⟩
    simp only [Bool.and_eq_true, Bool.not_eq_true', List.isEmpty_eq_false_iff, List.isEmpty_iff] at hc
    obtain ⟨⟨h1, h2⟩, h3⟩ := hc
    obtain ⟨A, x, B, e1, e2, e3, e4⟩ := h.ruleset r hr
    have hex := h.examples r hr
    rw [if_pos rfl] at hex
    refine ⟨A, x, B, e1, by rw [e3]; exact e4, ?_, ?_, ?_⟩
    · rw [e2, ← hp]; exact h1
    · rw [e3]
      intro e
      rw [e] at hex
      cases hm : r.examples with
      | nil => exact h2 hm
      | cons a l => rw [hm] at hex; cases hex
    · rw [e3, ← h.patterns r hr]; exact h3
  · rintro ⟨A, x, B, e1, e2, h1, h2, h3⟩
    obtain ⟨r, hr, e⟩ := h.complete x (by rw [e1]; simp)
    obtain ⟨A', x', B', e1', g1, g2, g3⟩ := h.ruleset r hr
    have hx : x = x' := last_rule_unique e1 e1' (by rw [g2, e]) e2 (by rw [g2]; exact g3)
    have hex := h.examples r hr
    rw [if_pos rfl, e] at hex
    refine ⟨r, hr, ?_⟩
    simp only [Bool.and_eq_true, Bool.not_eq_true', List.isEmpty_eq_false_iff, List.isEmpty_iff]
    refine ⟨⟨?_, ?_⟩, ?_⟩
    · rw [hp, ← g1, ← hx]; exact h1
    · intro e0
      rw [e0] at hex
      exact h2 (each_nil_right hex)
    · rw [h.patterns r hr, e]; exact h3

/-- C104: what the script does for a patterndb.  With the option `actions` it stops with an exit code; without the option `patterns` it prints nothing; it stops
with an error if some rule has examples but no patterns (and examples are wanted); in all other cases it prints the document of the rules that it has read, in the
order in which it meets them. -/
theorem C104_script (opts : Options) (fresh : Nat → Str) (order : List (Val × Val) → List (Val × Val)) (shuffle : List PdbRule → List PdbRule)
    (hs : ∀ l, (shuffle l).Perm l) (db : PatternDb) :
    (opts.actions = true → script opts fresh order shuffle (patternDbXml db) = .exit2) ∧
    (opts.actions = false → opts.patterns = false → script opts fresh order shuffle (patternDbXml db) = .nothing) ∧
    (opts.actions = false → opts.patterns = true →
      (opts.examples = true ∧ Stops db → script opts fresh order shuffle (patternDbXml db) = .dies) ∧
      (¬ (opts.examples = true ∧ Stops db) → ∃ rules, ReadAs db opts.examples rules ∧
        script opts fresh order shuffle (patternDbXml db) = .prints (document (dbEnv db opts fresh order) rules))) := by
  obtain ⟨σ, h1, h2, h3⟩ := C103_read opts.examples db
  have hp : σ.programs = db.programsOf := funext h3
  unfold script
  rw [h1]
  simp only []
  refine ⟨fun ha => by rw [if_pos ha], fun ha hb => ?_, fun ha hb => ⟨fun hd => ?_, fun hd => ?_⟩⟩
  · rw [if_neg (by simp [ha]), if_neg (by simp [hb])]
  · rw [if_neg (by simp [ha]), if_pos hb, if_pos]
    rw [hd.1] at h2
    exact (stops_iff h2 h3).mpr hd.2
  · refine ⟨shuffle σ.toRules, readAs_perm (hs _) h2, ?_⟩
    rw [if_neg (by simp [ha]), if_pos hb, if_neg, hp]
    · rfl
    · intro hc
      cases he : opts.examples with
      | true => rw [he] at h2; exact hd ⟨he, (stops_iff h2 h3).mp hc⟩
      | false =>
        rw [he] at h2
        rw [List.any_eq_true] at hc
        obtain ⟨r, hr, hc⟩ := hc
        have := h2.examples r hr
        rw [if_neg (by simp)] at this
        rw [this] at hc
        simp at hc

theorem mem_sources {env : Env} {rules : List PdbRule} {x : PdbRule × Str × Nat × Str} (h : x ∈ sources env rules) :
    x.1 ∈ rules ∧ (env.programs x.1.ruleset).head? = some x.2.1 ∧ x.1.patterns[x.2.2.1]? = some x.2.2.2 := by
  obtain ⟨r, hr, hx⟩ := List.mem_flatMap.mp h
  cases hp : (env.programs r.ruleset).head? with
  | none => rw [hp] at hx; cases hx
  | some prog =>
    rw [hp] at hx
    obtain ⟨y, hy, rfl⟩ := List.mem_map.mp hx
    rw [List.mem_zipIdx_iff_getElem?] at hy
    exact ⟨hr, hp, hy⟩

/-- The elements of a pattern, read from a rule of the patterndb. -/
theorem offers_of {db : PatternDb} {we : Bool} {rules : List PdbRule} (h : ReadAs db we rules) {read : Str → Str → Option (List Elem)} {r : PdbRule} (hr : r ∈ rules)
    {prog src : Str} {i : Nat} {es : List Elem} (h1 : (db.programsOf r.ruleset).head? = some prog) (h2 : r.patterns[i]? = some src) (h3 : read prog src = some es) :
    Offers db read r.ruleset r.id i es :=
  ⟨h.ruleset r hr, prog, src, h1, by rw [← h.patterns r hr]; exact h2, h3⟩

/-- Conversely: an offered pattern is one of those that the main program goes through. -/
theorem source_of_offers {db : PatternDb} {we : Bool} {rules : List PdbRule} {opts : Options} {fresh : Nat → Str} {order : List (Val × Val) → List (Val × Val)}
    (h1 : ReadAs db we rules) {read : Str → Str → Option (List Elem)} {key id : Str} {i : Nat} {es : List Elem} (ho : Offers db read key id i es) :
    ∃ r ∈ rules, r.id = id ∧ r.ruleset = key ∧ ∃ prog src, (r, prog, i, src) ∈ sources (dbEnv db opts fresh order) rules ∧ read prog src = some es := by
  obtain ⟨⟨A, x, B, e1, e2, e3, e4⟩, prog, src, g1, g2, g3⟩ := ho
  obtain ⟨r, hr, hid⟩ := h1.complete x (by rw [e1]; simp)
  obtain ⟨A', x', B', e1', e2', e3', e4'⟩ := h1.ruleset r hr
  have hxx : x = x' := last_rule_unique e1 e1' (by rw [e3', hid]) (by rw [e3]; exact e4) (by rw [e3']; exact e4')
  have hkey : r.ruleset = key := by rw [← e2', ← hxx, e2]
  refine ⟨r, hr, by rw [hid, e3], hkey, prog, src, List.mem_flatMap.mpr ⟨r, hr, ?_⟩, g3⟩
  have : ((dbEnv db opts fresh order).programs r.ruleset).head? = some prog := by rw [hkey]; exact g1
  rw [this]
  refine List.mem_map.mpr ⟨(src, i), ?_, rfl⟩
  rw [List.mem_zipIdx_iff_getElem?, h1.patterns r hr, hid, e3]
  exact g2

/-- The values of the examples, in the patterndb and as they were read. -/
theorem haveValues_iff {db : PatternDb} {rules : List PdbRule} {opts : Options} {fresh : Nat → Str} {order : List (Val × Val) → List (Val × Val)}
    (h1 : ReadAs db opts.examples rules) {read : Str → Str → Option (List Elem)} :
    HaveValues (dbEnv db opts fresh order) read rules ↔ (opts.examples = true → ExamplesHaveValues db read) := by
  constructor
  · intro h hex key id i es ho e he hn
    obtain ⟨r, hr, hid, _, prog, src, hsrc, hread⟩ := source_of_offers (opts := opts) (fresh := fresh) (order := order) h1 ho
    have := h1.examples r hr
    rw [if_pos hex, hid] at this
    obtain ⟨s, hs, _, _, h5⟩ := each_left this e he
    exact h _ hsrc (by rw [hread]; simp) s hs (h5.1 hn)
  · intro h y hy hread e he hn
    have := h1.examples _ (sources_rule hy)
    split at this
    · rename_i hex
      obtain ⟨a, ha, _, _, h5⟩ := each_right this e he
      obtain ⟨g1, g2, g3⟩ := mem_sources hy
      cases hre : read y.2.1 y.2.2.2 with
      | none => exact hread hre
      | some es =>
        obtain ⟨en, e1, _⟩ := h5.2 (h hex _ _ _ _ (offers_of h1 g1 g2 g3 hre) a ha)
        rw [e1] at hn
        cases hn
    · rw [this] at he; cases he

/-- What the script reads from a patterndb is an input as C92 describes it. -/
theorem scriptInput {db : PatternDb} {opts : Options} {fresh : Nat → Str} {order : List (Val × Val) → List (Val × Val)} {d : Deps} {uuidOf : Str → Nat}
    {read : Str → Str → Option (List Elem)} (hi : DbInput db (dbEnv db opts fresh order) d uuidOf read) {rules : List PdbRule}
    (h1 : ReadAs db opts.examples rules) : ScriptInput (dbEnv db opts fresh order) d uuidOf read rules := by
  have hmem : ∀ r ∈ rules, ∃ x ∈ db.allRules, x.2.id = r.id ∧ x.1 = r.ruleset := by
    intro r hr
    obtain ⟨A, x, B, e1, e2, e3, _⟩ := h1.ruleset r hr
    exact ⟨x, by rw [e1]; simp, e3, e2⟩
  have hwith : ∀ id r, r ∈ db.rulesWith id → ∃ x ∈ db.allRules, x.2 = r ∧ r.id = id := by
    intro id r hr
    obtain ⟨x, hx, rfl⟩ := List.mem_map.mp hr
    rw [List.mem_filter] at hx
    exact ⟨x, hx.1, rfl, of_decide_eq_true hx.2⟩
  refine ⟨hi.order, hi.faithful, hi.fresh, ?_, ?_, ?_⟩
  · intro r hr
    obtain ⟨x, hx, e, _⟩ := hmem r hr
    rw [← e]; exact hi.ids x hx
  · intro r hr
    constructor
    · intro vs hvs
      have := h1.values r hr
      by_cases g : (db.rulesWith r.id).flatMap (·.values) = []
      · rw [this.1 g] at hvs; cases hvs
      · obtain ⟨en, e1, e2⟩ := this.2 g
        rw [hvs] at e1
        injection e1 with e1
        subst e1
        exact e2.1
    · intro e he vs hvs
      have := h1.examples r hr
      split at this
      · obtain ⟨a, _, _, _, h5⟩ := each_right this e he
        by_cases g : a.values = []
        · rw [h5.1 g] at hvs; cases hvs
        · obtain ⟨en, e1, e2⟩ := h5.2 g
          rw [hvs] at e1
          injection e1 with e1
          subst e1
          exact e2.1
      · rw [this] at he; cases he
  · intro x hx
    obtain ⟨r, hr, hx⟩ := List.mem_flatMap.mp hx
    obtain ⟨y, hy, e1, e2⟩ := hmem r hr
    cases hprog : ((dbEnv db opts fresh order).programs r.ruleset).head? with
    | none => rw [hprog] at hx; cases hx
    | some prog =>
      rw [hprog] at hx
      simp only [List.mem_map] at hx
      obtain ⟨z, hz, rfl⟩ := hx
      have hz := List.fst_mem_of_mem_zipIdx hz
      rw [h1.patterns r hr] at hz
      obtain ⟨q, hq, hz⟩ := List.mem_flatMap.mp hz
      obtain ⟨w, hw, rfl, e3⟩ := hwith _ _ hq
      exact hi.reading w hw z.1 hz y hy (by rw [e1, e3]) prog (by rw [e2]; exact hprog)

/-- C104: the printed document can be loaded and holds exactly the expected patterns of the rules, if the ids are uuids, every pattern has a reading, and every
example of a rule with an offered pattern has values. -/
theorem C104_file (opts : Options) (fresh : Nat → Str) (order : List (Val × Val) → List (Val × Val)) (shuffle : List PdbRule → List PdbRule)
    (hs : ∀ l, (shuffle l).Perm l) (db : PatternDb) (d : Deps) (uuidOf : Str → Nat) (read : Str → Str → Option (List Elem))
    (hi : DbInput db (dbEnv db opts fresh order) d uuidOf read) (ha : opts.actions = false) (hp : opts.patterns = true)
    (hd : ¬ (opts.examples = true ∧ Stops db)) (hv : opts.examples = true → ExamplesHaveValues db read) :
    ∃ rules doc file, ReadAs db opts.examples rules ∧ script opts fresh order shuffle (patternDbXml db) = .prints doc ∧ deserFile d doc = .ok (.ok file) ∧
      Each (IsExpected (dbEnv db opts fresh order) uuidOf)
        (expectedFrom (dbEnv db opts fresh order) read (sources (dbEnv db opts fresh order) rules) 0).zipIdx file.patterns := by
  obtain ⟨rules, h1, h2⟩ := ((C104_script opts fresh order shuffle hs db).2.2 ha hp).2 hd
  obtain ⟨file, h3, h4⟩ := C92_file_partial uuidOf read rules (scriptInput hi h1) ((haveValues_iff h1).mpr hv)
  exact ⟨rules, _, file, h1, h2, h3, h4⟩

/-- C104, exactly: for libraries that do not take `null` for an object, the printed document can be loaded if and only if examples are left out or every example of
rules with an offered pattern has values. -/
theorem C104_exactly (opts : Options) (fresh : Nat → Str) (order : List (Val × Val) → List (Val × Val)) (shuffle : List PdbRule → List PdbRule)
    (hs : ∀ l, (shuffle l).Perm l) (db : PatternDb) (d : Deps) (uuidOf : Str → Nat) (read : Str → Str → Option (List Elem))
    (hi : DbInput db (dbEnv db opts fresh order) d uuidOf read) (hn : ∀ l, d.entries .null ≠ .ok l) (doc : Val)
    (hdoc : script opts fresh order shuffle (patternDbXml db) = .prints doc) :
    (∃ file, deserFile d doc = .ok (.ok file)) ↔ (opts.examples = true → ExamplesHaveValues db read) := by
  obtain ⟨h1, h2, h3⟩ := C104_script opts fresh order shuffle hs db
  cases ha : opts.actions with
  | true => rw [h1 ha] at hdoc; cases hdoc
  | false =>
    cases hp : opts.patterns with
    | false => rw [h2 ha hp] at hdoc; cases hdoc
    | true =>
      obtain ⟨g1, g2⟩ := h3 ha hp
      by_cases hd : opts.examples = true ∧ Stops db
      · rw [g1 hd] at hdoc; cases hdoc
      · obtain ⟨rules, e1, e2⟩ := g2 hd
        rw [hdoc] at e2
        injection e2 with e2
        rw [e2, C92_exactly uuidOf read rules (scriptInput hi e1) hn]
        exact haveValues_iff e1

/-! ### A sample -/

/-- A patterndb with two rulesets, one of which has no program; two of its rules have the same id. -/
def sampleDb : PatternDb where
  atts := [("version".toList, "4".toList)]
  rulesets := [
    ⟨some "ssh".toList, "1".toList, some "about ssh".toList, true, ["sshd".toList], [
      ⟨"r1".toList, [("class".toList, "system".toList)], [
        .description "d".toList,
        .patterns true ["login @NUMBER:n@".toList, "by @PCRE:x:y@ here".toList],
        .examples true [⟨"login 12".toList, some "sshd".toList, [("n".toList, "12".toList)], [.values [("n".toList, "9".toList)], .message none "old".toList], true⟩],
        .values false [("a".toList, "1".toList), ("c".toList, "d".toList), ("a".toList, "$(b)".toList)],
        .tags true ["t".toList],
        .actions [.createContext [] [] ⟨[], [("k".toList, "v".toList)], ["u".toList]⟩]]⟩,
      ⟨"r1".toList, [], [.patterns false ["exit".toList]]⟩]⟩,
    ⟨some "0".toList, "none".toList, none, false, [], [⟨"r2".toList, [], [.examples false [⟨"m".toList, none, [("x".toList, "y".toList)], [], false⟩]]⟩]⟩]

/-- What is read from it: the two rules with the same id are one; the value of `a` is the last one; the tags and values in the action do not count; the ruleset
with the name `0` is known by its id. -/
example : (readXml true [] (patternDbXml sampleDb) ⟨[], []⟩).map PdbData.toRules =
    some [pdbRule pdbPatterns (some [("n".toList, "12".toList)]), ⟨"r2".toList, "none".toList, [], [⟨[], "m".toList, some [("x".toList, "y".toList)]⟩], none, none⟩] := by
  rfl

/-- The rule without patterns has no program: the script does not stop. -/
theorem sample_goes_on : ¬ Stops sampleDb := by
  rintro ⟨A, x, B, e, hB, h1, h2, h3⟩
  have hx : x ∈ sampleDb.allRules := by rw [e]; simp
  have : x.1 = "ssh".toList ∧ x.2.id = "r1".toList ∨ x.1 = "none".toList := by
    simp only [sampleDb, PatternDb.allRules, List.flatMap_cons, List.flatMap_nil, List.append_nil, List.map_cons, List.map_nil, List.cons_append, List.nil_append,
      List.mem_cons, List.not_mem_nil, or_false] at hx
    rcases hx with rfl | rfl | rfl
    · exact .inl ⟨rfl, rfl⟩
    · exact .inl ⟨rfl, rfl⟩
    · exact .inr rfl
  rcases this with ⟨_, e2⟩ | e1
  · rw [e2] at h3
    exact absurd h3 (by decide)
  · rw [e1] at h1
    exact h1 rfl

/-- With a program in its ruleset, a rule with examples and without patterns stops the script. -/
example : Stops ⟨[], [⟨some "s".toList, [], none, true, ["p".toList], [⟨"r".toList, [], [.examples true [⟨"m".toList, none, [], [], false⟩]]⟩]⟩]⟩ :=
  ⟨[], _, [], rfl, by simp, by decide, by simp [PatternDb.rulesWith, PatternDb.allRules, DbRule.examples], rfl⟩

/-- All options that make the script print, with programs. -/
def sampleOpts : Options := ⟨false, true, true, true⟩

theorem sample_values : ExamplesHaveValues sampleDb pdbRead := by
  intro key id i es _ e he
  obtain ⟨r, hr, he⟩ := List.mem_flatMap.mp he
  obtain ⟨x, hx, rfl⟩ := List.mem_map.mp hr
  have hx := (List.mem_filter.mp hx).1
  have : x.2.examples = [⟨"login 12".toList, some "sshd".toList, [("n".toList, "12".toList)], [.values [("n".toList, "9".toList)], .message none "old".toList], true⟩] ∨ x.2.examples = [] ∨
      x.2.examples = [⟨"m".toList, none, [("x".toList, "y".toList)], [], false⟩] := by
    simp only [sampleDb, PatternDb.allRules, List.flatMap_cons, List.flatMap_nil, List.append_nil, List.map_cons, List.map_nil, List.cons_append, List.nil_append,
      List.mem_cons, List.not_mem_nil, or_false] at hx
    rcases hx with rfl | rfl | rfl
    · exact .inl rfl
    · exact .inr (.inl rfl)
    · exact .inr (.inr rfl)
  rcases this with h | h | h <;> rw [h] at he
  · rw [List.mem_singleton.mp he]; simp
  · cases he
  · rw [List.mem_singleton.mp he]; simp

theorem sample_input : DbInput sampleDb (dbEnv sampleDb sampleOpts (pdbEnv true).fresh List.reverse) pdbDeps pdbUuid pdbRead where
  order := fun l => List.reverse_perm l
  faithful := ⟨fun _ => rfl, fun _ => rfl, fun _ => rfl⟩
  fresh := fun _ => rfl
  ids := fun _ _ => rfl
  reading := by
    intro x hx src hsrc y hy _ prog hprog
    have hx' : ∀ s ∈ x.2.patterns, s ∈ pdbPatterns := by
      simp only [sampleDb, PatternDb.allRules, List.flatMap_cons, List.flatMap_nil, List.append_nil, List.map_cons, List.map_nil, List.cons_append, List.nil_append,
        List.mem_cons, List.not_mem_nil, or_false] at hx
      rcases hx with rfl | rfl | rfl <;> decide
    have hy' : sampleDb.programsOf y.1 = ["sshd".toList] ∨ sampleDb.programsOf y.1 = [] := by
      simp only [sampleDb, PatternDb.allRules, List.flatMap_cons, List.flatMap_nil, List.append_nil, List.map_cons, List.map_nil, List.cons_append, List.nil_append,
        List.mem_cons, List.not_mem_nil, or_false] at hy
      rcases hy with rfl | rfl | rfl
      · exact .inl rfl
      · exact .inl rfl
      · exact .inr rfl
    rcases hy' with h | h
    · rw [h] at hprog
      injection hprog with hprog
      subst hprog
      have := (pdb_input [src] (by intro s hs; rw [List.mem_singleton.mp hs]; exact hx' src hsrc) none (by simp)).reading
        (pdbRule [src] none, "sshd".toList, 0, src) (List.mem_singleton.mpr rfl)
      exact this
    · rw [h] at hprog; cases hprog

example : ∃ rules doc file, ReadAs sampleDb true rules ∧
    script sampleOpts (pdbEnv true).fresh List.reverse List.reverse (patternDbXml sampleDb) = .prints doc ∧ deserFile pdbDeps doc = .ok (.ok file) ∧
      Each (IsExpected (dbEnv sampleDb sampleOpts (pdbEnv true).fresh List.reverse) pdbUuid) (expectedFrom (dbEnv sampleDb sampleOpts (pdbEnv true).fresh List.reverse)
        pdbRead (sources (dbEnv sampleDb sampleOpts (pdbEnv true).fresh List.reverse) rules) 0).zipIdx file.patterns :=
  C104_file sampleOpts _ _ _ (fun l => List.reverse_perm l) sampleDb pdbDeps pdbUuid pdbRead sample_input rfl rfl (fun h => sample_goes_on h.2) fun _ => sample_values

/-- With an example without values next to a pattern that is converted, the document is printed but cannot be loaded. -/
def bareDb : PatternDb :=
  ⟨[], [⟨some "ssh".toList, [], none, true, ["sshd".toList], [⟨"r1".toList, [], [.patterns true ["exit".toList], .examples true [⟨"exit".toList, none, [], [], false⟩]]⟩]⟩]⟩

theorem bare_input : DbInput bareDb (dbEnv bareDb sampleOpts (pdbEnv true).fresh List.reverse) pdbDeps pdbUuid pdbRead where
  order := fun l => List.reverse_perm l
  faithful := ⟨fun _ => rfl, fun _ => rfl, fun _ => rfl⟩
  fresh := fun _ => rfl
  ids := fun _ _ => rfl
  reading := by
    intro x hx src hsrc y hy _ prog hprog
    rw [List.mem_singleton.mp hx] at hsrc
    rw [List.mem_singleton.mp hy] at hprog
    rw [List.mem_singleton.mp hsrc]
    have e : prog = "sshd".toList := (Option.some.inj hprog).symm
    subst e
    exact (pdb_input ["exit".toList] (by decide) none (by simp)).reading (pdbRule ["exit".toList] none, "sshd".toList, 0, "exit".toList) (List.mem_singleton.mpr rfl)

example : ∃ doc, script sampleOpts (pdbEnv true).fresh List.reverse List.reverse (patternDbXml bareDb) = .prints doc ∧
    ¬ ∃ file, deserFile pdbDeps doc = .ok (.ok file) := by
  obtain ⟨rules, _, h⟩ := ((C104_script sampleOpts (pdbEnv true).fresh List.reverse List.reverse (fun l => List.reverse_perm l) bareDb).2.2 rfl rfl).2 (by
    rintro ⟨_, A, x, B, e, _, _, _, h⟩
    have hx : x ∈ bareDb.allRules := by rw [e]; simp
    rw [List.mem_singleton.mp hx] at h
    exact absurd h (by decide))
  refine ⟨_, h, fun hf => ?_⟩
  have := (C104_exactly sampleOpts _ _ _ (fun l => List.reverse_perm l) bareDb pdbDeps pdbUuid pdbRead bare_input (by intro l h; cases h) _ h).mp hf rfl
  refine this "ssh".toList "r1".toList 0 _ ⟨⟨[], _, [], rfl, rfl, rfl, by simp⟩, "sshd".toList, "exit".toList, rfl, rfl, rfl⟩
    ⟨"exit".toList, none, [], [], false⟩ (by simp [bareDb, PatternDb.rulesWith, PatternDb.allRules, DbRule.examples]) rfl

end Verif
