import Verif.Props.C103_PatternDbXml
import Verif.Props.C77_C78_FileToAnswer
/-! C107: from a patterndb to the answers of a matcher. -/
namespace Verif
open Spec Perl

theorem mem_expected {env : Env} {read : Str → Str → Option (List Elem)} {items : List (PdbRule × Str × Nat × Str)} {g : Nat} {e : Expected}
    (h : e ∈ expectedFrom env read items g) :
    ∃ x ∈ items, e.rule = x.1 ∧ read x.2.1 x.2.2.2 = some e.elems ∧ (x.2.2.1 = 0 → e.uuid = x.1.id) ∧ (x.2.2.1 ≠ 0 → ∃ n, e.uuid = env.fresh n) := by
  unfold expectedFrom at h
  obtain ⟨x, hx, h⟩ := List.mem_filterMap.mp h
  cases hr : read x.1.2.1 x.1.2.2.2 with
  | none => rw [hr] at h; cases h
  | some es =>
    rw [hr] at h
    simp only [Option.map_some, Option.some.injEq] at h
    subst h
    refine ⟨x.1, List.fst_mem_of_mem_zipIdx hx, rfl, hr, fun h0 => by simp [h0], fun h0 => ⟨x.2 - 1, by simp [h0]⟩⟩

/-- C107: the file of the printed document can be read, and every answer of a trie that was loaded from it comes from a pattern of the patterndb: the message is
what this pattern stands for, the values are what its parsers take, the tags are those of the rules with its id, and the uuid is their id if it is their first
pattern and a new one otherwise. -/
theorem C107_answer (opts : Options) (fresh : Nat → Str) (order : List (Val × Val) → List (Val × Val)) (shuffle : List PdbRule → List PdbRule)
    (hs : ∀ l, (shuffle l).Perm l) (db : PatternDb) (d : Deps) (uuidOf : Str → Nat) (read : Str → Str → Option (List Elem))
    (hi : DbInput db (dbEnv db opts fresh order) d uuidOf read) (ha : opts.actions = false) (hp : opts.patterns = true)
    (hd : ¬ (opts.examples = true ∧ Stops db)) (hv : opts.examples = true → ExamplesHaveValues db read) (sip : Bytes → UInt64) (hcol : NoDbCollision sip db read)
    (doc : Val) (hdoc : script opts fresh order shuffle (patternDbXml db) = .prints doc)
    (path ext content : Bytes) (hext : ext ∈ b!"json" :: yamlExts) (hx : HasExt path ext) (hc : FileText d path content)
    (hj : d.json content = .ok doc) (hy : d.yaml content = .ok doc) :
    (∃ file, loadFile d path = .ok (.ok file)) ∧
    ∀ t, fromFile d (trieMatcher sip) path = .ok (.ok t) ∨ fromFileIgnoreErrors d (trieMatcher sip) path = .ok (.ok t) →
      ∀ msg, Utf8 msg → ∀ r, t.parse msg = .ok (some r) →
        ∃ key id i es caps, Offers db read key id i es ∧ Matches (meant es) msg caps ∧ HasCaptures r.values caps ∧
          r.pattern.tags = (if (db.rulesWith id).flatMap (·.tags) = [] then none else some (((db.rulesWith id).flatMap (·.tags)).map encode)) ∧
          (i = 0 → r.pattern.uuid = uuidOf id) ∧ (i ≠ 0 → ∃ n, r.pattern.uuid = uuidOf (fresh n)) := by
  obtain ⟨rules, doc', file, h1, h2, h3, h4⟩ := C104_file opts fresh order shuffle hs db d uuidOf read hi ha hp hd hv
  rw [hdoc] at h2
  injection h2 with h2
  subst h2
  have hl : loadFile d path = .ok (.ok file) := by
    rcases List.mem_cons.mp hext with rfl | he
    · exact ((C46_json d path content hx hc).1 file).mpr ⟨doc, hj, (C63_file d doc file).mp h3⟩
    · exact ((C46_yaml d path ext content he hx hc).1 file).mpr ⟨doc, hy, (C63_file d doc file).mp h3⟩
  -- every pattern of the file comes from an offered one
  have key : ∀ p ∈ file.patterns, ∃ key id i es, Offers db read key id i es ∧ p.pattern = meant es ∧ Utf8Lits p ∧
      p.tags = (if (db.rulesWith id).flatMap (·.tags) = [] then none else some (((db.rulesWith id).flatMap (·.tags)).map encode)) ∧
      (i = 0 → p.uuid = uuidOf id) ∧ (i ≠ 0 → ∃ n, p.uuid = uuidOf (fresh n)) := by
    intro p hpm
    obtain ⟨e, he, hu, hpat, _, ht, _⟩ := each_mem h4 hpm
    have he := List.fst_mem_of_mem_zipIdx he
    obtain ⟨x, hxm, hrule, hread, hz, hnz⟩ := mem_expected he
    obtain ⟨g1, g2, g3⟩ := mem_sources hxm
    have hof := offers_of h1 g1 g2 g3 hread
    have hrd : PdbReading (frontOf (dbEnv db opts fresh order) x.2.1) x.2.2.2 (some e.1.elems) := by
      have hsrc := List.mem_of_getElem? g3
      rw [h1.patterns _ g1] at hsrc
      obtain ⟨q, hq, hsrc⟩ := List.mem_flatMap.mp hsrc
      obtain ⟨w, hw, rfl⟩ := List.mem_map.mp hq
      rw [List.mem_filter] at hw
      obtain ⟨A, y, B, e1, e2, e3, _⟩ := h1.ruleset _ g1
      have := hi.reading w hw.1 x.2.2.2 hsrc y (by rw [e1]; simp) (by rw [e3]; exact (of_decide_eq_true hw.2).symm) x.2.1 (by rw [e2]; exact g2)
      rw [hread] at this
      exact this
    refine ⟨_, _, _, _, hof, hpat, ?_, ?_, ?_, ?_⟩
    · obtain ⟨s, _, _, hcomp⟩ := reading_some hrd
      intro l hlm
      rw [hpat] at hlm
      exact (compiled_utf8 ⟨_, rfl⟩ hcomp).1 l hlm
    · rw [ht, hrule, h1.tags _ g1]
      split <;> rfl
    · intro h0; rw [hu, hz h0]
    · intro h0; obtain ⟨n, hn⟩ := hnz h0; exact ⟨n, by rw [hu, hn]; rfl⟩
  refine ⟨⟨file, hl⟩, fun t ht msg hm r hr => ?_⟩
  have ht : fromFileIgnoreErrors d (trieMatcher sip) path = .ok (.ok t) := by
    rcases ht with h | h
    · exact C61_agrees d _ _ _ h
    · exact h
  obtain ⟨file', hl', hb⟩ := C61_all_patterns d _ _ _ ht
  rw [hl] at hl'
  simp only [Except.ok.injEq] at hl'
  subst hl'
  have hcol' : NoCollision sip file.patterns := by
    rintro a b ⟨p, hp1, hp2⟩ ⟨q, hq1, hq2⟩ e
    obtain ⟨k1, id1, i1, es1, o1, m1, _⟩ := key p hp1
    obtain ⟨k2, id2, i2, es2, o2, m2, _⟩ := key q hq1
    exact hcol a b ⟨_, _, _, _, o1, by rw [← m1]; exact hp2⟩ ⟨_, _, _, _, o2, by rw [← m2]; exact hq2⟩ e
  obtain ⟨p, hpm, caps, hmat, hres⟩ := C11_trie_sound sip (file.patterns.reverse.map loaded)
    (loaded_mem (P := Utf8Lits) (fun _ => Iff.rfl) fun p hp => by obtain ⟨_, _, _, _, _, _, h, _⟩ := key p hp; exact h) (loaded_noCollision hcol') t hb msg hm r hr
  simp only [List.mem_map, List.mem_reverse] at hpm
  obtain ⟨q, hq, rfl⟩ := hpm
  obtain ⟨k, id, i, es, o, m, _, htags, hz, hnz⟩ := key q hq
  refine ⟨k, id, i, es, caps, o, by rw [← m]; exact hmat, hres.2, ?_, ?_, ?_⟩
  · rw [hres.1]; exact htags
  · intro h0; rw [hres.1]; exact hz h0
  · intro h0; rw [hres.1]; exact hnz h0

/-- C107: no pattern that the patterndb offers is left out of the file; it is there with the id of its rules if it is their first pattern. -/
theorem C107_complete (opts : Options) (fresh : Nat → Str) (order : List (Val × Val) → List (Val × Val)) (shuffle : List PdbRule → List PdbRule)
    (hs : ∀ l, (shuffle l).Perm l) (db : PatternDb) (d : Deps) (uuidOf : Str → Nat) (read : Str → Str → Option (List Elem))
    (hi : DbInput db (dbEnv db opts fresh order) d uuidOf read) (ha : opts.actions = false) (hp : opts.patterns = true)
    (hd : ¬ (opts.examples = true ∧ Stops db)) (hv : opts.examples = true → ExamplesHaveValues db read) (doc : Val) (hdoc : script opts fresh order shuffle (patternDbXml db) = .prints doc)
    (file : PatternFile) (hf : deserFile d doc = .ok (.ok file)) (key id : Str) (i : Nat) (es : List Elem) (ho : Offers db read key id i es) :
    ∃ p ∈ file.patterns, p.pattern = meant es ∧ (i = 0 → p.uuid = uuidOf id) := by
  obtain ⟨rules, doc', file', h1, h2, h3, h4⟩ := C104_file opts fresh order shuffle hs db d uuidOf read hi ha hp hd hv
  rw [hdoc] at h2
  injection h2 with h2
  subst h2
  rw [hf] at h3
  simp only [Except.ok.injEq] at h3
  subst h3
  obtain ⟨r, hr, hid, hkey, prog, src, hsrc, g3⟩ := source_of_offers (opts := opts) (fresh := fresh) (order := order) h1 ho
  have hexp : ∃ e ∈ expectedFrom (dbEnv db opts fresh order) read (sources (dbEnv db opts fresh order) rules) 0, e.elems = es ∧ (i = 0 → e.uuid = id) := by
    obtain ⟨n, hn⟩ := List.getElem?_of_mem hsrc
    refine ⟨⟨r, if i = 0 then r.id else fresh (n - 1), es⟩, List.mem_filterMap.mpr ⟨((r, prog, i, src), n), ?_, ?_⟩, rfl, ?_⟩
    · rw [List.mem_zipIdx_iff_getElem?]; exact hn
    · simp [g3, dbEnv]
    · intro h0; simp [h0, hid]
  obtain ⟨e, he, rfl, hu⟩ := hexp
  obtain ⟨n, hn⟩ := List.getElem?_of_mem he
  obtain ⟨p, hpm, h5, h6, _⟩ := each_left h4 (e, n) (by rw [List.mem_zipIdx_iff_getElem?]; exact hn)
  exact ⟨p, hpm, h6, fun h0 => by rw [h5, hu h0]⟩

/-! ### A sample -/

/-- The document printed for the sample. -/
def printedDoc : Val :=
  match script sampleOpts (pdbEnv true).fresh List.reverse List.reverse (patternDbXml sampleDb) with
  | .prints v => v
  | _ => .null

/-- Libraries that read it from the file. -/
def printedDeps : Deps := { pdbDeps with json := fun _ => .ok printedDoc, yaml := fun _ => .ok printedDoc, openFile := fun _ => .ok b!"{}" }

theorem printed_script : script sampleOpts (pdbEnv true).fresh List.reverse List.reverse (patternDbXml sampleDb) = .prints printedDoc := by
  obtain ⟨rules, _, h⟩ := ((C104_script sampleOpts (pdbEnv true).fresh List.reverse List.reverse (fun l => List.reverse_perm l) sampleDb).2.2 rfl rfl).2
    fun h => sample_goes_on h.2
  unfold printedDoc
  rw [h]

theorem printed_input : DbInput sampleDb (dbEnv sampleDb sampleOpts (pdbEnv true).fresh List.reverse) printedDeps pdbUuid pdbRead :=
  ⟨sample_input.order, ⟨fun _ => rfl, fun _ => rfl, fun _ => rfl⟩, fun _ => rfl, fun _ _ => rfl, sample_input.reading⟩

/-- All patterns start with the name of the program. -/
theorem printed_collision (sip : Bytes → UInt64) : NoDbCollision sip sampleDb pdbRead := by
  rintro a b ⟨_, _, _, es, ⟨_, _, src, _, _, h⟩, he⟩
  unfold pdbRead at h
  split at h
  · injection h with h; subst h; simp [meant] at he
  · split at h
    · injection h with h; subst h; simp [meant] at he
    · cases h

example (t : SuffixTree) (ht : fromFileIgnoreErrors printedDeps (trieMatcher Samples.sip) b!"p.json" = .ok (.ok t)) (r : MatchResult)
    (hr : t.parse b!"sshd: login 12" = .ok (some r)) :
    ∃ key id i es caps, Offers sampleDb pdbRead key id i es ∧ Matches (meant es) b!"sshd: login 12" caps ∧ HasCaptures r.values caps ∧
      r.pattern.tags = (if (sampleDb.rulesWith id).flatMap (·.tags) = [] then none else some (((sampleDb.rulesWith id).flatMap (·.tags)).map encode)) ∧
      (i = 0 → r.pattern.uuid = pdbUuid id) ∧ (i ≠ 0 → ∃ n, r.pattern.uuid = pdbUuid ((pdbEnv true).fresh n)) :=
  (C107_answer sampleOpts _ _ _ (fun l => List.reverse_perm l) sampleDb printedDeps pdbUuid pdbRead printed_input rfl rfl (fun h => sample_goes_on h.2) (fun _ => sample_values) Samples.sip
    (printed_collision _) printedDoc printed_script b!"p.json" b!"json" b!"{}" (by simp) (by rw [← pathExtension_iff]; decide)
    ⟨b!"{}", rfl, fun _ => rfl, fun h => absurd (ascii_utf8 (by decide)) h⟩ rfl rfl).2 t (.inr ht) _ (ascii_utf8 (by decide)) r hr

/-- The trie of the patterns of the document answers this message, and the pattern has the id of the rule. -/
example : (match deserFile printedDeps printedDoc with
    | .ok (.ok file) => (match SuffixTree.build Samples.sip (file.patterns.reverse.map loaded) with
      | .ok t => (match t.parse b!"sshd: login 12", t.parse b!"sshd: exit" with
        | .ok (some r), .ok (some r') => decide (r.values = [(b!"n", b!"12")] ∧ r.pattern.uuid = pdbUuid "r1".toList ∧ r'.pattern.uuid = pdbUuid "fx".toList)
        | _, _ => false)
      | .error _ => false)
    | _ => false) = true := by decide +kernel

/-- The patterndb offers `exit` as the third pattern of its first rules. -/
example : Offers sampleDb pdbRead "ssh".toList "r1".toList 2 [.literal b!"sshd: exit"] :=
  ⟨⟨sampleDb.allRules.take 1, sampleDb.allRules[1], sampleDb.allRules.drop 2, by rfl, by rfl, by rfl, by simp [sampleDb, PatternDb.allRules]⟩,
    "sshd".toList, "exit".toList, by decide, by rfl, by decide⟩

end Verif
