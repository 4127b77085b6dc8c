import Verif.Props.C151_SuffixPairs
/-! C152: a pattern source for the suffix array can be tested two patterns at a time. -/
namespace Verif
open Spec Fewer SuffixPairs

namespace SuffixLoads

/-- The place of the last of all patterns is fixed by pairs. -/
theorem last_slots {A : List Pattern} {p : Pattern} {a : Parser} {rest : List Token} (hA : p ∉ A) (e : p.pattern = .parser a :: rest) (Mt : Pattern → Prop)
    (give : ∀ q ∈ A, ∃ C D, (Table.of [q, p]).parserLed = C ++ p :: D ∧ ∀ c ∈ C, ¬ Mt c) :
    ∃ C D, (Table.of (A ++ [p])).parserLed = C ++ p :: D ∧ ∀ c ∈ C, ¬ Mt c := by
  have hph : p.pattern.head? = some (.parser a) := by rw [e]; rfl
  have start : ∀ {q : Pattern} {b : Parser}, q.pattern.head? = some (.parser b) → ∃ rest, q.pattern = .parser b :: rest := by
    intro q b h
    cases hp : q.pattern with
    | nil => rw [hp] at h; simp at h
    | cons t u => rw [hp] at h; simp at h; exact ⟨u, by rw [h]⟩
  have wA : ∀ q ∈ A, q.pattern.head? = some (.parser a) → ¬ (p.pattern = [.parser a] ∧ q.pattern ≠ [.parser a]) := by
    intro q hq hqh hc
    obtain ⟨C, D, h1, -⟩ := give q hq
    obtain ⟨rest1, e1⟩ := start hqh
    have e0 : Table.of [q, p] = ((⟨[], []⟩ : Table).add q).add p := rfl
    rw [e0, Three.add_par _ e1, Three.add_par _ e] at h1
    simp only [addParserLed, if_pos hqh, if_pos hc] at h1
    have : p ∈ [q] := by rw [h1]; simp
    simp at this
    exact hA (this ▸ hq)
  have hled : ledBy (Table.of (A ++ [p])).parserLed a = some p := by
    rw [table_snoc, Three.add_par _ e]
    simp only [ledBy_add a a p hph, if_true]
    cases hL : ledBy (Table.of A).parserLed a with
    | none => rfl
    | some q =>
      simp only []
      rw [if_neg (wA q (table_parserLed A q (List.mem_of_find?_eq_some hL)) (ledBy_head hL))]
  obtain ⟨C, D, hL⟩ := List.append_of_mem (List.mem_of_find?_eq_some hled)
  have hown : OwnHeads (Table.of (A ++ [p])).parserLed := ownHeads_fold _ ⟨[], []⟩ ⟨by simp, .nil⟩
  refine ⟨C, D, hL, fun g hg hmg => ?_⟩
  have hgL : g ∈ (Table.of (A ++ [p])).parserLed := by rw [hL]; simp [hg]
  obtain ⟨b, hb⟩ := hown.1 g hgL
  have hpg : g.pattern.head? ≠ p.pattern.head? := by
    have hpw := hown.2
    rw [hL] at hpw
    exact (List.pairwise_append.mp hpw).2.2 g hg p (by simp)
  have hgA : g ∈ A := by
    have := table_parserLed _ g hgL
    rcases List.mem_append.mp this with k | k
    · exact k
    · simp only [List.mem_singleton] at k
      rw [k] at hpg
      exact absurd rfl hpg
  obtain ⟨restg, eg⟩ := start hb
  obtain ⟨C', D', h1, h2⟩ := give g hgA
  have e0 : Table.of [g, p] = ((⟨[], []⟩ : Table).add g).add p := rfl
  have hga : ¬ g.pattern.head? = some (.parser a) := by rw [← hph]; exact hpg
  rw [e0, Three.add_par _ eg, Three.add_par _ e] at h1
  simp only [addParserLed, if_neg hga] at h1
  cases C' with
  | nil =>
    simp at h1
    rw [h1.1] at hpg
    exact hpg rfl
  | cons c C' =>
    simp at h1
    exact h2 c (by simp) (h1.1 ▸ hmg)

/-- The last pattern is the answer if it is the answer beside each one of the others. -/
theorem last_found {sip : Bytes → UInt64} {A : List Pattern} {p : Pattern} (hu : ∀ q ∈ A ++ [p], Utf8Lits q) (hcol : NoCollision sip (A ++ [p]))
    (hid : (A ++ [p]).Pairwise fun p q => p.uuid ≠ q.uuid) {x : Bytes} (hx : Utf8 x)
    (h : ∀ qs, qs.Sublist (A ++ [p]) → qs.length ≤ 2 → p ∈ qs → Found sip qs p x) : Found sip (A ++ [p]) p x := by
  have hp : p ∈ A ++ [p] := by simp
  cases e : p.pattern with
  | nil =>
    refine C151_three sip _ hu hcol hid p hp x hx fun qs h1 h2 h3 => ?_
    obtain ⟨r, k1, k2⟩ := h [p] (List.singleton_sublist.mpr hp) (by simp) (by simp)
    have hu' : ∀ q ∈ [p], Utf8Lits q := fun q hq => hu q (by simp at hq; simp [hq])
    obtain ⟨_, r, k3, k4⟩ := (found_iff hu' (noCollision_sub hcol fun q hq => by simp at hq; simp [hq]) hx).mp ⟨r, k1, k2⟩
    have hno : ∀ l, ¬ Leads [p] l := by
      rintro l ⟨q, hq, g⟩
      simp at hq
      rw [hq, e] at g
      simp at g
    have e0 : (Table.of [p]).parserLed = [] := by simp [Table.of, Table.add, e]
    have := (k3.1 hno).2 (by rw [e0]; simp)
    simp at this
  | cons t rest =>
    cases t with
    | literal l => exact pairs_found hu hcol hid hp e hx h
    | parser a =>
      have use := fun qs h1 h2 h3 =>
        par_use (fun q g => hu q (List.Sublist.subset h1 g)) (noCollision_sub hcol fun _ g => List.Sublist.subset h1 g) (hid.sublist h1) h3 e hx (h qs h1 h2 h3)
      obtain ⟨_, hpt, hm, _⟩ := use [p] (List.singleton_sublist.mpr hp) (by simp) (by simp)
      have hA : p ∉ A := fun k => (List.pairwise_append.mp hid).2.2 p k p (by simp) rfl
      exact par_found hu hcol hx (no_leads hu hcol hid hp e hx h) hpt hm (last_slots hA e (Decides x) fun q hq =>
        (use [q, p] ((List.singleton_sublist.mpr hq).append (List.Sublist.refl [p])) (by simp) (by simp)).2.2.2)

/-- Answers with the same uuid from parts of one list are the same. -/
theorem same_answer {sip : Bytes → UInt64} {ps qs : List Pattern} (hu : ∀ q ∈ ps, Utf8Lits q) (hcol : NoCollision sip ps)
    (hd : ps.Pairwise fun p q => p.uuid ≠ q.uuid) (hq : ∀ q ∈ qs, q ∈ ps)
    {text : Bytes} (hx : Utf8 text) {r r' : MatchResult} (hr : (SuffixTable.build sip ps >>= fun t => t.parse text) = .ok (some r))
    (hr' : (SuffixTable.build sip qs >>= fun t => t.parse text) = .ok (some r')) (he : r.pattern.uuid = r'.pattern.uuid) : r = r' := by
  cases hb : SuffixTable.build sip ps with
  | error e => rw [hb] at hr; simp [bind, Except.bind] at hr
  | ok t =>
    cases hb' : SuffixTable.build sip qs with
    | error e => rw [hb'] at hr'; simp [bind, Except.bind] at hr'
    | ok t' =>
      rw [hb] at hr
      rw [hb'] at hr'
      have hall : ∀ p ∈ ps ++ qs, p ∈ ps := fun p hp => (List.mem_append.mp hp).elim id (hq p)
      have hcol' := noCollision_sub hcol hq
      have hv := C138_suffix_array sip sip ps qs (fun p hp => hu p (hall p hp)) hcol hcol'
        (fun p hp q hq h => by rw [Triples.apart_eq hd (hall p hp) (hall q hq) h]) t t' hb hb' text hx r r' hr hr' he
      obtain ⟨p, hp, caps, _, h2⟩ := C28_loose_partial sip ps hu hcol t hb text hx r hr
      obtain ⟨p', hp', caps', _, h2'⟩ := C28_loose_partial sip qs (fun q k => hu q (hq q k)) hcol' t' hb' text hx r' hr'
      have e := Triples.apart_eq hd hp (hq p' hp') (by rw [h2.1, h2'.1] at he; exact he)
      subst e
      have hp2 : r.pattern = r'.pattern := by rw [h2.1, h2'.1]
      cases r
      cases r'
      simp_all

/-- From answers to test messages. -/
theorem message_passes {sip : Bytes → UInt64} {n : Nat} {ps : List Pattern} (hu : ∀ q ∈ ps, Utf8Lits q) (hcol : NoCollision sip ps)
    (hd : ps.Pairwise fun p q => p.uuid ≠ q.uuid) {p : Pattern} (hp : p ∈ ps) {msg : TestMessage} (hx : Utf8 msg.message) (hn : 1 ≤ n)
    (found : (∀ qs, qs.Sublist (ps.map loaded) → qs.length ≤ n → loaded p ∈ qs → Found sip qs (loaded p) msg.message) →
      Found sip (ps.map loaded) (loaded p) msg.message)
    (h : ∀ qs : List Pattern, qs.Sublist ps → qs.length ≤ n → p ∈ qs →
      ∃ m, built (suffixArrayMatcher sip) qs = .ok m ∧ PassesIn (suffixArrayMatcher sip) m p.uuid msg) :
    ∃ m, built (suffixArrayMatcher sip) ps = .ok m ∧ PassesIn (suffixArrayMatcher sip) m p.uuid msg := by
  have run : ∀ qs : List Pattern, qs.Sublist ps → qs.length ≤ n → p ∈ qs →
      ∃ res, (SuffixTable.build sip (qs.map loaded) >>= fun t => t.parse msg.message) = .ok (some res) ∧ res.pattern.uuid = p.uuid ∧ Passes p.uuid msg (some res) := by
    intro qs h1 h2 h3
    obtain ⟨m, k1, b, k2, k3⟩ := h qs h1 h2 h3
    obtain ⟨r, rfl, hr, _⟩ := id k3
    have k1' : SuffixTable.build sip (qs.map loaded) = .ok m := k1
    exact ⟨r, by rw [k1']; exact k2, hr, k3⟩
  obtain ⟨res, hrun, hres⟩ := found (by
    intro qs h1 h2 h3
    obtain ⟨qs, k1, rfl⟩ := List.sublist_map_iff.mp h1
    obtain ⟨p', k2, k3⟩ := List.mem_map.mp h3
    have k4 : p' = p := Triples.apart_eq hd (k1.subset k2) hp (by simpa [loaded] using congrArg Pattern.uuid k3)
    subst k4
    obtain ⟨res, g1, g2, _⟩ := run qs k1 (by simpa using h2) k2
    exact ⟨res, g1, g2⟩)
  obtain ⟨res', g1, g2, g3⟩ := run [p] (List.singleton_sublist.mpr hp) (by simpa using hn) (by simp)
  have := same_answer (utf8_loaded hu) (noCollision_loaded hcol) (loaded_apart hd) (qs := [p].map loaded)
    (by intro q hq; simp at hq; exact List.mem_map.mpr ⟨p, hp, hq.symm⟩) hx hrun g1 (by rw [g2]; exact hres)
  subst this
  cases hb : SuffixTable.build sip (ps.map loaded) with
  | error e => rw [hb] at hrun; simp [bind, Except.bind] at hrun
  | ok t =>
    rw [hb] at hrun
    exact ⟨t, hb, some res, hrun, g3⟩

end SuffixLoads
open SuffixLoads

/-- C152: if a test message of a pattern passes in the suffix array of every part of the list that consists of this pattern and at most two others, then it
passes in the suffix array of the whole list. -/
theorem C152_message (sip : Bytes → UInt64) (ps : List Pattern) (hu : ∀ q ∈ ps, Utf8Lits q) (hcol : NoCollision sip ps)
    (hd : ps.Pairwise fun p q => p.uuid ≠ q.uuid) (p : Pattern) (hp : p ∈ ps) (msg : TestMessage) (hx : Utf8 msg.message)
    (h : ∀ qs : List Pattern, qs.Sublist ps → qs.length ≤ 3 → p ∈ qs →
      ∃ m, built (suffixArrayMatcher sip) qs = .ok m ∧ PassesIn (suffixArrayMatcher sip) m p.uuid msg) :
    ∃ m, built (suffixArrayMatcher sip) ps = .ok m ∧ PassesIn (suffixArrayMatcher sip) m p.uuid msg :=
  message_passes hu hcol hd hp hx (by omega)
    (C151_three sip _ (utf8_loaded hu) (noCollision_loaded hcol) (loaded_apart hd) (loaded p) (List.mem_map.mpr ⟨p, hp, rfl⟩) msg.message hx) h

/-- C152: a source loads into a suffix array if every part of it with at most two patterns loads. -/
theorem C152_load (sip : Bytes → UInt64) (ps : List Pattern) (hu : ∀ q ∈ ps, Utf8Lits q) (hcol : NoCollision sip ps)
    (hd : ps.Pairwise fun p q => p.uuid ≠ q.uuid) (hmsg : ∀ p ∈ ps, ∀ msg ∈ testsOf p, Utf8 msg.message)
    (h : ∀ qs : List Pattern, qs.Sublist ps → qs.length ≤ 2 → ∃ m, fromSource (suffixArrayMatcher sip) (qs.map .ok) = .ok (.ok m, [])) :
    ∃ m, fromSource (suffixArrayMatcher sip) (ps.map .ok) = .ok (.ok m, []) := by
  obtain ⟨t, hb⟩ := sfile_built sip ps
  refine ⟨t, (C40_from_source_ok _ _ _ _).mpr ⟨rfl, ps, rfl, hb, fun pre p post e => ?_⟩⟩
  have hs : (pre ++ [p]).Sublist ps := e ▸ upTo
  obtain ⟨t1, hb1⟩ := sfile_built sip (pre ++ [p])
  refine ⟨t1, hb1, fun msg hin => ?_⟩
  have hpm : p ∈ ps := hs.subset (by simp)
  have hpre : p ∉ pre := fun k => (List.pairwise_append.mp (hd.sublist hs)).2.2 p k p (by simp) rfl
  have hu1 : ∀ q ∈ pre ++ [p], Utf8Lits q := fun q g => hu q (hs.subset g)
  have hcol1 : NoCollision sip (pre ++ [p]) := noCollision_sub hcol fun _ g => hs.subset g
  obtain ⟨m, k1, k2⟩ := message_passes (n := 2) hu1 hcol1 (hd.sublist hs) (p := p) (by simp) (hmsg p hpm msg hin) (by omega) (by
    intro hf
    rw [List.map_append] at hf ⊢
    refine last_found ?_ ?_ ?_ (hmsg p hpm msg hin) hf
    · have := utf8_loaded hu1; rwa [List.map_append] at this
    · have := noCollision_loaded hcol1; rwa [List.map_append] at this
    · have := loaded_apart (hd.sublist hs); rwa [List.map_append] at this) (by
    intro qs h1 h2 h3
    obtain ⟨X, Y, rfl, hX, hY⟩ := List.sublist_append_iff.mp h1
    have hY' : Y = [p] := by
      cases hY with
      | cons _ k =>
        cases k
        exact absurd (hX.subset (by simpa using h3)) hpre
      | cons_cons _ k => cases k; rfl
    subst hY'
    obtain ⟨m, hm⟩ := h (X ++ [p]) (h1.trans hs) h2
    rw [C40_from_source_ok] at hm
    obtain ⟨_, ps', e', _, hv⟩ := hm
    have e' : X ++ [p] = ps' := by
      have := congrArg delivered e'
      rwa [delivered_map_ok, delivered_map_ok] at this
    obtain ⟨m1, g1, g2⟩ := hv X p [] e'.symm
    exact ⟨m1, g1, g2 msg hin⟩)
  have : m = t1 := by
    rw [k1] at hb1
    simpa using hb1
  rw [← this]
  exact k2

/-- C152: if all patterns with test messages begin with literals, a source loads into a suffix array exactly when every part of it with at most two patterns
loads. -/
theorem C152_load_iff (sip : Bytes → UInt64) (ps : List Pattern) (hu : ∀ q ∈ ps, Utf8Lits q) (hcol : NoCollision sip ps)
    (hd : ps.Pairwise fun p q => p.uuid ≠ q.uuid) (hlit : ∀ p ∈ ps, testsOf p ≠ [] → ∃ l, p.pattern.head? = some (.literal l))
    (hmsg : ∀ p ∈ ps, ∀ msg ∈ testsOf p, Utf8 msg.message) :
    (∃ m, fromSource (suffixArrayMatcher sip) (ps.map .ok) = .ok (.ok m, [])) ↔
    ∀ qs : List Pattern, qs.Sublist ps → qs.length ≤ 2 → ∃ m, fromSource (suffixArrayMatcher sip) (qs.map .ok) = .ok (.ok m, []) :=
  ⟨fun ⟨m, h⟩ qs hq _ => C143_suffix_array sip ps qs hu hcol hd hlit hmsg m [] h hq, C152_load sip ps hu hcol hd hmsg⟩

/-- C152, the same for a pattern file. -/
theorem C152_file (sip : Bytes → UInt64) (F : List Pattern) (hu : ∀ q ∈ F, Utf8Lits q) (hcol : NoCollision sip F)
    (hd : F.Pairwise fun p q => p.uuid ≠ q.uuid) (hmsg : ∀ p ∈ F, ∀ msg ∈ testsOf p, Utf8 msg.message)
    (h : ∀ G : List Pattern, G.Sublist F → G.length ≤ 2 → ∃ m, fromSource (suffixArrayMatcher sip) (fileItems G) = .ok (.ok m, [])) :
    ∃ m, fromSource (suffixArrayMatcher sip) (fileItems F) = .ok (.ok m, []) := by
  rw [C45_file_order]
  refine C152_load sip F.reverse (fun q hq => hu q (List.mem_reverse.mp hq)) (noCollision_sub hcol fun q => List.mem_reverse.mp) ?_
    (fun p hp => hmsg p (List.mem_reverse.mp hp)) ?_
  · rw [List.pairwise_reverse]
    exact hd.imp fun k => Ne.symm k
  · intro qs hq hl
    obtain ⟨m, hm⟩ := h qs.reverse (by simpa using hq.reverse) (by simpa using hl)
    rw [C45_file_order, List.reverse_reverse] at hm
    exact ⟨m, hm⟩

namespace SuffixLoads

def one : Pattern := tested (Samples.pat 1 [.literal b!"a", .parser (Samples.int b!"x")]) b!"a7" b!"7"
def two : Pattern := tested (Samples.pat 2 [.literal b!"b", .parser (Samples.int b!"x")]) b!"b7" b!"7"
def three : Pattern := tested (Samples.pat 3 [.literal b!"ab", .parser (Samples.int b!"x")]) b!"ab5" b!"5"
def same : Pattern := tested (Samples.pat 4 [.parser (Samples.int b!"x"), .literal b!"a"]) b!"7a" b!"7"
def sources : List Pattern := [one, two, three]

theorem sources_utf8 : ∀ q ∈ sources, Utf8Lits q := by
  intro p hp l hl
  simp [sources, one, two, three, tested] at hp
  rcases hp with rfl | rfl | rfl <;> simp [Samples.pat] at hl <;> subst hl <;> exact ascii_utf8 (by decide)

theorem sources_hashes : NoCollision Samples.sip sources := by
  rintro a b ⟨p, hp, e⟩ _ _
  simp [sources, one, two, three, tested] at hp
  rcases hp with rfl | rfl | rfl <;> simp [Samples.pat] at e

theorem sources_messages : ∀ p ∈ sources, ∀ msg ∈ testsOf p, Utf8 msg.message := by
  intro p hp msg hm
  simp [sources, one, two, three, tested] at hp
  rcases hp with rfl | rfl | rfl <;> simp [Samples.pat, testsOf, Pattern.withUuid] at hm <;> (subst hm; exact ascii_utf8 (by decide))

end SuffixLoads

/-- C152: one pattern at a time is not enough. -/
theorem C152_singles_do_not_count : ∃ ps : List Pattern, (∀ q ∈ ps, Utf8Lits q) ∧ NoCollision Samples.sip ps ∧ (ps.Pairwise fun p q => p.uuid ≠ q.uuid) ∧
    (∀ p ∈ ps, ∀ msg ∈ testsOf p, Utf8 msg.message) ∧
    (∀ qs : List Pattern, qs.Sublist ps → qs.length ≤ 1 → ∃ m, fromSource (suffixArrayMatcher Samples.sip) (qs.map .ok) = .ok (.ok m, [])) ∧
    ¬∃ m, fromSource (suffixArrayMatcher Samples.sip) (ps.map .ok) = .ok (.ok m, []) := by
  refine ⟨[one, same], ?_, ?_, by decide +kernel, ?_, ?_, ?_⟩
  · intro p hp l hl
    simp [one, same, tested] at hp
    rcases hp with rfl | rfl <;> simp [Samples.pat] at hl <;> subst hl <;> exact ascii_utf8 (by decide)
  · have key : ∀ a, (∃ p ∈ [one, same], p.pattern.head? = some (.parser a)) → a = Samples.int b!"x" := by
      rintro a ⟨p, hp, e⟩
      simp [one, same, tested] at hp
      rcases hp with rfl | rfl <;> simp [Samples.pat] at e
      exact e.symm
    intro a b ha hb _
    rw [key a ha, key b hb]
  · intro p hp msg hm
    simp [one, same, tested] at hp
    rcases hp with rfl | rfl <;> simp [Samples.pat, testsOf, Pattern.withUuid] at hm <;> (subst hm; exact ascii_utf8 (by decide))
  · have key : ∀ qs ∈ Three.subs [one, same], qs.length ≤ 1 → loads (fromSource (suffixArrayMatcher Samples.sip) (qs.map .ok)) = true := by decide +kernel
    exact fun qs hq hl => loads_iff.mp (key qs (Three.mem_subs hq) hl)
  · rw [← loads_iff]
    decide +kernel

example : ∃ m, fromSource (suffixArrayMatcher Samples.sip) (sources.map .ok) = .ok (.ok m, []) := by
  have key : ∀ qs ∈ Three.subs sources, qs.length ≤ 2 → loads (fromSource (suffixArrayMatcher Samples.sip) (qs.map .ok)) = true := by decide +kernel
  refine (C152_load_iff Samples.sip sources sources_utf8 sources_hashes (by decide +kernel) ?_ sources_messages).mpr
    fun qs hq hl => loads_iff.mp (key qs (Three.mem_subs hq) hl)
  intro p hp _
  simp only [sources, List.mem_cons, List.not_mem_nil, or_false] at hp
  rcases hp with rfl | rfl | rfl <;> exact ⟨_, rfl⟩

example : ∃ m, fromSource (suffixArrayMatcher Samples.sip) (fileItems sources) = .ok (.ok m, []) := by
  have key : ∀ qs ∈ Three.subs sources, qs.length ≤ 2 → loads (fromSource (suffixArrayMatcher Samples.sip) (fileItems qs)) = true := by decide +kernel
  exact C152_file Samples.sip sources sources_utf8 sources_hashes (by decide +kernel) sources_messages fun qs hq hl => loads_iff.mp (key qs (Three.mem_subs hq) hl)

example : ∃ m, built (suffixArrayMatcher Samples.sip) sources = .ok m ∧
    PassesIn (suffixArrayMatcher Samples.sip) m 1 { message := b!"a77", values := [(b!"x", b!"77")], tags := none } := by
  have key : ∀ qs ∈ Three.subs sources, qs.length ≤ 3 → one ∈ qs →
      (SuffixTable.build Samples.sip (qs.map loaded) >>= fun t => t.parse b!"a77") =
        .ok (some { pattern := { loaded one with pattern := [] }, values := [(b!"x", b!"77")] }) := by decide +kernel
  refine C152_message Samples.sip sources sources_utf8 sources_hashes (by decide +kernel) one (by decide +kernel)
    { message := b!"a77", values := [(b!"x", b!"77")], tags := none } (ascii_utf8 (by decide)) fun qs hq hl hp => ?_
  have k := key qs (Three.mem_subs hq) hl hp
  obtain ⟨t, hb⟩ := sfile_built Samples.sip qs
  have hb' : SuffixTable.build Samples.sip (qs.map loaded) = .ok t := hb
  rw [hb'] at k
  refine ⟨t, hb, _, k, _, rfl, rfl, ?_, ?_⟩
  · simp [TagsOk]
  · intro kv hkv
    simp only [List.mem_singleton] at hkv
    subst hkv
    decide +kernel

/-! Patterns that begin with parsers. -/

def SuffixLoads.other : Pattern := tested (Samples.pat 5 [.parser (Samples.int b!"x"), .literal b!"b"]) b!"7b" b!"7"
def SuffixLoads.anything : Pattern := tested (Samples.pat 6 [.parser (Samples.greedy b!"x" none)]) b!"c" b!"c"

example : ∃ m, fromSource (suffixArrayMatcher Samples.sip) ([same, other, anything].map .ok) = .ok (.ok m, []) := by
  have key : ∀ qs ∈ Three.subs [same, other, anything], qs.length ≤ 2 → loads (fromSource (suffixArrayMatcher Samples.sip) (qs.map .ok)) = true := by decide +kernel
  refine C152_load Samples.sip [same, other, anything] ?_ ?_ (by decide +kernel) ?_ fun qs hq hl => loads_iff.mp (key qs (Three.mem_subs hq) hl)
  · intro p hp l hl
    simp [same, other, anything, tested] at hp
    rcases hp with rfl | rfl | rfl <;> simp [Samples.pat] at hl <;> subst hl <;> exact ascii_utf8 (by decide)
  · have key : ∀ a, (∃ p ∈ [same, other, anything], p.pattern.head? = some (.parser a)) → a = Samples.int b!"x" ∨ a = Samples.greedy b!"x" none := by
      rintro a ⟨p, hp, e⟩
      simp [same, other, anything, tested] at hp
      rcases hp with rfl | rfl | rfl <;> simp [Samples.pat] at e
      · exact .inl e.symm
      · exact .inl e.symm
      · exact .inr e.symm
    intro a b ha hb h
    rcases key a ha with rfl | rfl <;> rcases key b hb with rfl | rfl
    · rfl
    · revert h; decide +kernel
    · revert h; decide +kernel
    · rfl
  · intro p hp msg hm
    simp [same, other, anything, tested] at hp
    rcases hp with rfl | rfl | rfl <;> simp [Samples.pat, testsOf, Pattern.withUuid] at hm <;> (subst hm; exact ascii_utf8 (by decide))

end Verif
