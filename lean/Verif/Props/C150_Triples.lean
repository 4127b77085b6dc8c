import Verif.Props.C149_Three
import Verif.Props.C143_Fewer
import Verif.Props.C138_Values
/-! C150: a pattern source can be tested three patterns at a time. -/
namespace Verif
open Spec Fewer

namespace Triples

theorem apart_eq {ps : List Pattern} (hd : ps.Pairwise fun p q => p.uuid ≠ q.uuid) {p q : Pattern} (hp : p ∈ ps) (hq : q ∈ ps) (h : p.uuid = q.uuid) : p = q := by
  refine Classical.byContradiction fun hne => ?_
  rcases Three.pair_sublist hp hq hne with k | k
  · have := hd.sublist k
    simp [h] at this
  · have := hd.sublist k
    simp [h] at this

/-- Answers with the same uuid from parts of one list are the same. -/
theorem same_answer {sip : Bytes → UInt64} {ps qs : List Pattern} (hps : Proper sip ps) (hd : ps.Pairwise fun p q => p.uuid ≠ q.uuid) (hq : ∀ q ∈ qs, q ∈ ps)
    {text : Bytes} (hx : Utf8 text) {r r' : MatchResult} (hr : (SuffixTree.build sip ps >>= fun t => t.parse text) = .ok (some r))
    (hr' : (SuffixTree.build sip qs >>= fun t => t.parse text) = .ok (some r')) (he : r.pattern.uuid = r'.pattern.uuid) : r = r' := by
  cases hb : SuffixTree.build sip ps with
  | error e => rw [hb] at hr; simp [bind, Except.bind] at hr
  | ok t =>
    cases hb' : SuffixTree.build sip qs with
    | error e => rw [hb'] at hr'; simp [bind, Except.bind] at hr'
    | ok t' =>
      rw [hb] at hr
      rw [hb'] at hr'
      have hqs := proper_sub hps hq
      have hall : ∀ p ∈ ps ++ qs, p ∈ ps := fun p hp => (List.mem_append.mp hp).elim id (hq p)
      have hv := C138_trie sip sip ps qs (fun p hp => hps.utf8 p (hall p hp)) hps.hashes hqs.hashes
        (fun p hp q hq h => by rw [apart_eq hd (hall p hp) (hall q hq) h]) t t' hb hb' text hx r r' hr hr' he
      obtain ⟨p, hp, caps, _, h2⟩ := C11_trie_sound sip ps hps.utf8 hps.hashes t hb text hx r hr
      obtain ⟨p', hp', caps', _, h2'⟩ := C11_trie_sound sip qs hqs.utf8 hqs.hashes t' hb' text hx r' hr'
      have e := apart_eq hd hp (hq p' hp') (by rw [h2.1, h2'.1] at he; exact he)
      subst e
      have hp2 : r.pattern = r'.pattern := by rw [h2.1, h2'.1]
      cases r
      cases r'
      simp_all

theorem loaded_proper {sip : Bytes → UInt64} {ps : List Pattern} (h : Plain sip ps) : Proper sip (ps.map loaded) := (loaded_plain h).proper

end Triples
open Triples

/-- C150: if a test message of a pattern passes in the matcher of every part of the list that consists of this pattern and at most two others, then it passes
in the matcher of the whole list. -/
theorem C150_message (sip : Bytes → UInt64) (ps : List Pattern) (hps : Plain sip ps) (hd : ps.Pairwise fun p q => p.uuid ≠ q.uuid) (p : Pattern) (hp : p ∈ ps)
    (msg : TestMessage) (hx : Ascii msg.message)
    (h : ∀ qs : List Pattern, qs.Sublist ps → qs.length ≤ 3 → p ∈ qs → ∃ m, built (trieMatcher sip) qs = .ok m ∧ PassesIn (trieMatcher sip) m p.uuid msg) :
    ∃ m, built (trieMatcher sip) ps = .ok m ∧ PassesIn (trieMatcher sip) m p.uuid msg := by
  have hpl := loaded_plain hps
  obtain ⟨t, hb, _, hpar⟩ := C13_ascii_never_panics sip (ps.map loaded) hpl.ascii
  obtain ⟨a, ha⟩ := hpar msg.message hx
  refine ⟨t, hb, a, ha, ?_⟩
  have run : ∀ qs : List Pattern, qs.Sublist ps → qs.length ≤ 3 → p ∈ qs → ∃ res, (SuffixTree.build sip (qs.map loaded) >>= fun t => t.parse msg.message) = .ok (some res) ∧
      res.pattern.uuid = p.uuid ∧ Passes p.uuid msg (some res) := by
    intro qs h1 h2 h3
    obtain ⟨m, k1, b, k2, k3⟩ := h qs h1 h2 h3
    obtain ⟨r, rfl, hr, _⟩ := id k3
    have k1' : SuffixTree.build sip (qs.map loaded) = .ok m := k1
    exact ⟨r, by rw [k1']; exact k2, hr, k3⟩
  have hrun : (SuffixTree.build sip (ps.map loaded) >>= fun t => t.parse msg.message) = .ok a := by rw [hb]; exact ha
  obtain ⟨res, rfl, hres⟩ := C149_three sip (ps.map loaded) hpl.proper (loaded_apart hd) (loaded p) (List.mem_map.mpr ⟨p, hp, rfl⟩) msg.message (ascii_utf8 hx) (by
    intro qs h1 h2 h3
    obtain ⟨qs, k1, rfl⟩ := List.sublist_map_iff.mp h1
    obtain ⟨p', k2, k3⟩ := List.mem_map.mp h3
    have k4 : p' = p := apart_eq hd (k1.subset k2) hp (by simpa [loaded] using congrArg Pattern.uuid k3)
    subst k4
    obtain ⟨res, g1, g2, _⟩ := run qs k1 (by simpa using h2) k2
    exact ⟨res, g1, g2⟩) a hrun
  obtain ⟨res', g1, g2, g3⟩ := run [p] (List.singleton_sublist.mpr hp) (by simp) (by simp)
  have := same_answer hpl.proper (loaded_apart hd) (qs := [p].map loaded) (by intro q hq; simp at hq; exact List.mem_map.mpr ⟨p, hp, hq.symm⟩) (ascii_utf8 hx) hrun g1
    (by rw [g2]; exact hres)
  rw [this]
  exact g3

/-- C150: a source loads if every part of it with at most three patterns loads. -/
theorem C150_load (sip : Bytes → UInt64) (ps : List Pattern) (hps : Plain sip ps) (hd : ps.Pairwise fun p q => p.uuid ≠ q.uuid)
    (hmsg : ∀ p ∈ ps, ∀ msg ∈ testsOf p, Ascii msg.message)
    (h : ∀ qs : List Pattern, qs.Sublist ps → qs.length ≤ 3 → ∃ m, fromSource (trieMatcher sip) (qs.map .ok) = .ok (.ok m, [])) :
    ∃ m, fromSource (trieMatcher sip) (ps.map .ok) = .ok (.ok m, []) := by
  obtain ⟨t, hb, _⟩ := build_ascii sip (ps.map loaded) (loaded_plain hps).ascii
  refine ⟨t, (C40_from_source_ok _ _ _ _).mpr ⟨rfl, ps, rfl, hb, fun pre p post e => ?_⟩⟩
  have hs : (pre ++ [p]).Sublist ps := e ▸ upTo
  obtain ⟨t1, hb1, _⟩ := build_ascii sip ((pre ++ [p]).map loaded) (loaded_plain (plain_sub hps fun _ g => hs.subset g)).ascii
  refine ⟨t1, hb1, fun msg hin => ?_⟩
  have hpm : p ∈ ps := hs.subset (by simp)
  have hpre : p ∉ pre := fun k => (List.pairwise_append.mp (hd.sublist hs)).2.2 p k p (by simp) rfl
  obtain ⟨m, k1, k2⟩ := C150_message sip (pre ++ [p]) (plain_sub hps fun _ g => hs.subset g) (hd.sublist hs) p (by simp) msg (hmsg p hpm msg hin) (by
    intro qs h1 h2 h3
    obtain ⟨X, Y, rfl, hX, hY⟩ := List.sublist_append_iff.mp h1
    have hY' : Y = [p] := by
      cases hY with
      | cons _ k =>
        cases k
        exact absurd (hX.subset (by simpa using h3)) hpre
      | cons_cons _ k => cases k; rfl
    subst hY'
    obtain ⟨m, hm⟩ := h (X ++ [p]) (h1.trans hs) h2
    rw [C40_from_source_ok] at hm
    obtain ⟨_, ps', e', _, hv⟩ := hm
    have e' : X ++ [p] = ps' := by
      have := congrArg delivered e'
      rwa [delivered_map_ok, delivered_map_ok] at this
    obtain ⟨m1, g1, g2⟩ := hv X p [] e'.symm
    exact ⟨m1, g1, g2 msg hin⟩)
  have : m = t1 := by
    have hb1' : built (trieMatcher sip) (pre ++ [p]) = .ok t1 := hb1
    rw [k1] at hb1'
    simpa using hb1'
  rw [← this]
  exact k2

/-- C150, the same for a pattern file. -/
theorem C150_file (sip : Bytes → UInt64) (F : List Pattern) (hps : Plain sip F) (hd : F.Pairwise fun p q => p.uuid ≠ q.uuid)
    (hmsg : ∀ p ∈ F, ∀ msg ∈ testsOf p, Ascii msg.message)
    (h : ∀ G : List Pattern, G.Sublist F → G.length ≤ 3 → ∃ m, fromSource (trieMatcher sip) (fileItems G) = .ok (.ok m, [])) :
    ∃ m, fromSource (trieMatcher sip) (fileItems F) = .ok (.ok m, []) := by
  rw [C45_file_order]
  refine C150_load sip F.reverse (plain_sub hps fun q => List.mem_reverse.mp) ?_ (fun p hp => hmsg p (List.mem_reverse.mp hp)) ?_
  · rw [List.pairwise_reverse]
    exact hd.imp fun k => Ne.symm k
  · intro qs hq hl
    obtain ⟨m, hm⟩ := h qs.reverse (by simpa using hq.reverse) (by simpa using hl)
    rw [C45_file_order, List.reverse_reverse] at hm
    exact ⟨m, hm⟩

namespace Triples

def ab : Pattern := Samples.pat 1 [.literal b!"ab"]
def ac : Pattern := Samples.pat 2 [.literal b!"ac"]
def rest : Pattern := tested (Samples.pat 3 [.parser (Samples.greedy b!"x" none)]) b!"ad" b!"ad"
def bd : Pattern := tested (Samples.pat 4 [.literal b!"b", .parser (Samples.int b!"x")]) b!"b7" b!"7"
def bde : Pattern := tested (Samples.pat 5 [.literal b!"bd", .parser (Samples.int b!"x")]) b!"bd5" b!"5"
def sample : List Pattern := [ab, rest, bd, bde]

end Triples

/-- C150: two patterns at a time are not enough. -/
theorem C150_pairs_do_not_count : ∃ ps : List Pattern, Plain Samples.sip ps ∧ (ps.Pairwise fun p q => p.uuid ≠ q.uuid) ∧
    (∀ p ∈ ps, ∀ msg ∈ testsOf p, Ascii msg.message) ∧
    (∀ qs : List Pattern, qs.Sublist ps → qs.length ≤ 2 → ∃ m, fromSource (trieMatcher Samples.sip) (qs.map .ok) = .ok (.ok m, [])) ∧
    ¬∃ m, fromSource (trieMatcher Samples.sip) (ps.map .ok) = .ok (.ok m, []) := by
  refine ⟨[ab, ac, rest], ⟨?_, ?_, ?_, ?_⟩, by decide +kernel, ?_, ?_, ?_⟩
  · intro p hp l hl
    simp [ab, ac, rest, tested] at hp
    rcases hp with rfl | rfl | rfl <;> simp [Samples.pat] at hl <;> subst hl <;> decide
  · intro p hp l hl
    simp [ab, ac, rest, tested] at hp
    rcases hp with rfl | rfl | rfl <;> simp [Samples.pat] at hl <;> subst hl <;> decide
  · intro p hp l rest' e l'
    simp [ab, ac, rest, tested] at hp
    rcases hp with rfl | rfl | rfl <;> simp [Samples.pat] at e <;> first | (rw [← e.2]; simp) | (rw [e.2]; simp)
  · have key : ∀ a, (∃ p ∈ [ab, ac, rest], p.pattern.head? = some (.parser a)) → a = Samples.greedy b!"x" none := by
      rintro a ⟨p, hp, e⟩
      simp [ab, ac, rest, tested] at hp
      rcases hp with rfl | rfl | rfl <;> simp [Samples.pat] at e
      exact e.symm
    intro a b ha hb _
    rw [key a ha, key b hb]
  · intro p hp msg hm
    simp [ab, ac, rest, tested] at hp
    rcases hp with rfl | rfl | rfl <;> simp [Samples.pat, testsOf, Pattern.withUuid] at hm <;> (subst hm; decide)
  · have key : ∀ qs ∈ Three.subs [ab, ac, rest], qs.length ≤ 2 → loads (fromSource (trieMatcher Samples.sip) (qs.map .ok)) = true := by decide +kernel
    exact fun qs hq hl => loads_iff.mp (key qs (Three.mem_subs hq) hl)
  · rw [← loads_iff]
    decide +kernel

/-! Every three of these four patterns load, and therefore all of them. -/

theorem Triples.sample_plain : Plain Samples.sip sample := by
  refine ⟨?_, ?_, ?_, ?_⟩
  · intro p hp l hl
    simp [sample, ab, bd, bde, rest, tested] at hp
    rcases hp with rfl | rfl | rfl | rfl <;> simp [Samples.pat] at hl <;> subst hl <;> decide
  · intro p hp l hl
    simp [sample, ab, bd, bde, rest, tested] at hp
    rcases hp with rfl | rfl | rfl | rfl <;> simp [Samples.pat] at hl <;> subst hl <;> decide
  · intro p hp l rest' e l'
    simp [sample, ab, bd, bde, rest, tested] at hp
    rcases hp with rfl | rfl | rfl | rfl <;> simp [Samples.pat] at e <;> first | (rw [← e.2]; simp) | (rw [e.2]; simp)
  · have key : ∀ a, (∃ p ∈ sample, p.pattern.head? = some (.parser a)) → a = Samples.greedy b!"x" none := by
      rintro a ⟨p, hp, e⟩
      simp [sample, ab, bd, bde, rest, tested] at hp
      rcases hp with rfl | rfl | rfl | rfl <;> simp [Samples.pat] at e
      exact e.symm
    intro a b ha hb _
    rw [key a ha, key b hb]

theorem Triples.sample_ascii : ∀ p ∈ sample, ∀ msg ∈ testsOf p, Ascii msg.message := by
  intro p hp msg hm
  simp [sample, ab, bd, bde, rest, tested] at hp
  rcases hp with rfl | rfl | rfl | rfl <;> simp [Samples.pat, testsOf, Pattern.withUuid] at hm <;> (subst hm; decide)

example : ∃ m, fromSource (trieMatcher Samples.sip) (sample.map .ok) = .ok (.ok m, []) := by
  have key : ∀ qs ∈ Three.subs sample, qs.length ≤ 3 → loads (fromSource (trieMatcher Samples.sip) (qs.map .ok)) = true := by decide +kernel
  exact C150_load Samples.sip sample sample_plain (by decide +kernel) sample_ascii fun qs hq hl => loads_iff.mp (key qs (Three.mem_subs hq) hl)

example : ∃ m, fromSource (trieMatcher Samples.sip) (fileItems sample.reverse) = .ok (.ok m, []) := by
  have key : ∀ qs ∈ Three.subs sample.reverse, qs.length ≤ 3 → loads (fromSource (trieMatcher Samples.sip) (fileItems qs)) = true := by decide +kernel
  exact C150_file Samples.sip sample.reverse (plain_sub sample_plain fun q => List.mem_reverse.mp) (by decide +kernel)
    (fun p hp => sample_ascii p (List.mem_reverse.mp hp)) fun qs hq hl => loads_iff.mp (key qs (Three.mem_subs hq) hl)

end Verif
