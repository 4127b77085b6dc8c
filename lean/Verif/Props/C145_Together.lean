import Verif.Props.C143_Fewer
import Verif.Props.C102_Local
import Verif.Spec.Begins
/-! C145: pattern files whose patterns begin with different characters can be put together, and taken apart. -/
namespace Verif
open Spec
namespace Together
variable {T : Type}

theorem begins {p : Pattern} (h : BeginsLiterally p) (hn : NonemptyLits p) : ∃ c l rest, p.pattern = .literal (c :: l) :: rest := by
  obtain ⟨l, h⟩ := h
  cases e : p.pattern with
  | nil => rw [e] at h; simp at h
  | cons t rest =>
    rw [e] at h
    simp only [List.head?_cons, Option.some.injEq] at h
    subst h
    cases l with
    | nil => exact absurd rfl (hn [] (by rw [e]; simp))
    | cons c l => exact ⟨c, l, rest, rfl⟩

theorem beginsIn_of {f : UInt8 → Bool} {p : Pattern} {c : UInt8} {l : Bytes} {rest : List Token} (e : p.pattern = .literal (c :: l) :: rest) :
    BeginsIn f p = f c := by
  unfold BeginsIn
  rw [e]

/-- The patterns that concern a text are among those of the part. -/
theorem concerns_part {f : UInt8 → Bool} {c : UInt8} (hf : f c = true) {ps : List Pattern} (hn : ∀ p ∈ ps, NonemptyLits p) (hl : ∀ p ∈ ps, BeginsLiterally p) :
    (ps.filter (BeginsIn f)).filter (Concerns c) = ps.filter (Concerns c) := by
  rw [List.filter_filter]
  refine List.filter_congr fun p hp => ?_
  obtain ⟨d, l, rest, e⟩ := begins (hl p hp) (hn p hp)
  rw [beginsIn_of e]
  unfold Concerns
  rw [e]
  simp only [List.head?_cons, Option.some.injEq]
  by_cases g : d = c
  · subst g; simp [hf]
  · simp [g]

theorem loads_tests (I : MatcherImpl T) (ps : List Pattern) : (∃ m, fromSource I (ps.map .ok) = .ok (.ok m, [])) ↔ ∃ m, Validated I ps m := by
  constructor
  · rintro ⟨m, h⟩
    obtain ⟨_, ps', e, hv⟩ := (C40_from_source_ok I _ _ _).mp h
    have e : ps = ps' := by
      have := congrArg delivered e
      rwa [delivered_map_ok, delivered_map_ok] at this
    subst e
    exact ⟨m, hv⟩
  · rintro ⟨m, hv⟩
    exact ⟨m, (C40_from_source_ok I _ _ _).mpr ⟨rfl, ps, rfl, hv⟩⟩

theorem split_loads (I : MatcherImpl T) (ps : List Pattern) (g h : Pattern → Bool) (hgh : ∀ p ∈ ps, g p = true ∨ h p = true)
    (hb : ∀ qs : List Pattern, qs.Sublist ps → ∃ m, built I qs = .ok m)
    (key : ∀ k, k = g ∨ k = h → ∀ pre p post m m' msg, ps = pre ++ p :: post → k p = true → built I (pre ++ [p]) = .ok m →
      built I (pre.filter k ++ [p]) = .ok m' → msg ∈ testsOf p → (PassesIn I m p.uuid msg ↔ PassesIn I m' p.uuid msg)) :
    (∃ m, fromSource I (ps.map .ok) = .ok (.ok m, [])) ↔
      (∃ m, fromSource I ((ps.filter g).map .ok) = .ok (.ok m, [])) ∧ ∃ m, fromSource I ((ps.filter h).map .ok) = .ok (.ok m, []) := by
  rw [loads_tests, loads_tests, loads_tests]
  have part : ∀ k, k = g ∨ k = h → (∃ m, Validated I ps m) → ∃ m, Validated I (ps.filter k) m := by
    rintro k hk ⟨m, _, hv⟩
    obtain ⟨m', hm'⟩ := hb (ps.filter k) List.filter_sublist
    refine ⟨m', hm', fun pre' p post' e => ?_⟩
    obtain ⟨A, B, e1, rfl, e2⟩ := List.filter_eq_append_iff.mp e
    obtain ⟨C, D, e3, hC, hp, _⟩ := List.filter_eq_cons_iff.mp e2
    have e4 : ps = (A ++ C) ++ p :: D := by rw [e1, e3]; simp
    have e5 : (A ++ C).filter k = A.filter k := by rw [List.filter_append, List.filter_eq_nil_iff.mpr hC, List.append_nil]
    obtain ⟨m1, h1, h2⟩ := hv (A ++ C) p D e4
    obtain ⟨m2, h3⟩ := hb (A.filter k ++ [p]) (by rw [← e5, e4]; exact List.filter_sublist.append (List.singleton_sublist.mpr (by simp)))
    exact ⟨m2, h3, fun msg hin => (key k hk (A ++ C) p D m1 m2 msg e4 hp h1 (by rw [e5]; exact h3) hin).mp (h2 msg hin)⟩
  constructor
  · exact fun hm => ⟨part g (.inl rfl) hm, part h (.inr rfl) hm⟩
  · rintro ⟨⟨mg, _, hg⟩, mh, _, hh⟩
    obtain ⟨m, hm⟩ := hb ps (List.Sublist.refl _)
    refine ⟨m, hm, fun pre p post e => ?_⟩
    obtain ⟨m1, h1⟩ := hb (pre ++ [p]) (by rw [e]; exact Fewer.upTo)
    refine ⟨m1, h1, fun msg hin => ?_⟩
    rcases hgh p (by rw [e]; simp) with hp | hp
    · obtain ⟨m2, h2, h3⟩ := hg (pre.filter g) p (post.filter g) (by rw [e, List.filter_append, List.filter_cons_of_pos hp])
      exact (key g (.inl rfl) pre p post m1 m2 msg e hp h1 h2 hin).mpr (h3 msg hin)
    · obtain ⟨m2, h2, h3⟩ := hh (pre.filter h) p (post.filter h) (by rw [e, List.filter_append, List.filter_cons_of_pos hp])
      exact (key h (.inr rfl) pre p post m1 m2 msg e hp h1 h2 hin).mpr (h3 msg hin)

/-- A test message passes in a trie only if it begins like its pattern. -/
theorem passes_begins {sip : Bytes → UInt64} {L : List Pattern} {p : Pattern} (hL : Plain sip L) (hid : L.Pairwise fun p q => p.uuid ≠ q.uuid) (hp : p ∈ L)
    {c : UInt8} {l : Bytes} {rest : List Token} (e : p.pattern = .literal (c :: l) :: rest) {m : SuffixTree} (hb : built (trieMatcher sip) L = .ok m)
    {msg : TestMessage} (hx : Utf8 msg.message) (h : PassesIn (trieMatcher sip) m p.uuid msg) : ∃ y, msg.message = c :: y := by
  obtain ⟨a, ha, r, rfl, hr, _⟩ := h
  have hL' := Fewer.loaded_plain hL
  obtain ⟨q, hq, caps, hm, hres⟩ := C11_trie_sound sip (L.map loaded) hL'.proper.utf8 hL'.hashes m hb msg.message hx r ha
  have := Fewer.own (Fewer.loaded_apart hid) hq (List.mem_map_of_mem hp) (show q.uuid = (loaded p).uuid by
    rw [hres.1] at hr
    exact hr)
  subst this
  have e' : (loaded p).pattern = .literal (c :: l) :: rest := e
  rw [e'] at hm
  generalize msg.message = x at hm
  cases hm
  exact ⟨_, rfl⟩

theorem loaded_begins {f : UInt8 → Bool} {L : List Pattern} : (L.map loaded).filter (BeginsIn f) = (L.filter (BeginsIn f)).map loaded := by
  rw [List.filter_map]
  rfl

end Together
open Together

/-- C145, trie: a text that begins with a character of the set has the same outcome in the trie of all patterns and in the trie of those that begin with
characters of the set. -/
theorem C145_trie_answers (sip : Bytes → UInt64) (ps : List Pattern) (hps : Plain sip ps) (hl : ∀ p ∈ ps, BeginsLiterally p) (f : UInt8 → Bool) (c : UInt8)
    (hc : c.toNat < 128) (hf : f c = true) (rest : Bytes) (hx : Utf8 (c :: rest)) :
    (SuffixTree.build sip ps >>= fun t => t.parse (c :: rest)) =
      (SuffixTree.build sip (ps.filter (BeginsIn f)) >>= fun t => t.parse (c :: rest)) :=
  C102_others_do_not_count sip ps _ hps (Fewer.plain_sub hps fun _ h => (List.mem_filter.mp h).1) c hc (concerns_part hf hps.nonempty hl).symm rest hx

/-- C145, trie: for any set of characters, the patterns load together exactly if those that begin with a character of the set and the others load. -/
theorem C145_trie (sip : Bytes → UInt64) (ps : List Pattern) (hps : Plain sip ps) (hl : ∀ p ∈ ps, BeginsLiterally p)
    (hid : ps.Pairwise fun p q => p.uuid ≠ q.uuid) (hmsg : ∀ p ∈ ps, ∀ msg ∈ testsOf p, Utf8 msg.message) (f : UInt8 → Bool) :
    (∃ m, fromSource (trieMatcher sip) (ps.map .ok) = .ok (.ok m, [])) ↔
      (∃ m, fromSource (trieMatcher sip) ((ps.filter (BeginsIn f)).map .ok) = .ok (.ok m, [])) ∧
      ∃ m, fromSource (trieMatcher sip) ((ps.filter (BeginsIn fun c => !f c)).map .ok) = .ok (.ok m, []) := by
  refine split_loads _ ps _ _ (fun p hp => ?_) (fun qs hq => ?_) ?_
  · obtain ⟨c, l, rest, e⟩ := begins (hl p hp) (hps.nonempty p hp)
    rw [beginsIn_of e, beginsIn_of e]
    cases f c <;> simp
  · obtain ⟨t, ht, _⟩ := build_ascii sip (qs.map loaded) (Fewer.loaded_plain (Fewer.plain_sub hps fun _ g => hq.subset g)).ascii
    exact ⟨t, ht⟩
  · have key : ∀ f : UInt8 → Bool, ∀ pre p post m m' msg, ps = pre ++ p :: post → BeginsIn f p = true → built (trieMatcher sip) (pre ++ [p]) = .ok m →
        built (trieMatcher sip) (pre.filter (BeginsIn f) ++ [p]) = .ok m' → msg ∈ testsOf p →
        (PassesIn (trieMatcher sip) m p.uuid msg ↔ PassesIn (trieMatcher sip) m' p.uuid msg) := by
      intro f pre p post m m' msg e hp h1 h2 hin
      have hpp : p ∈ ps := by rw [e]; simp
      have s1 : (pre ++ [p]).Sublist ps := by rw [e]; exact Fewer.upTo
      have e2 : pre.filter (BeginsIn f) ++ [p] = (pre ++ [p]).filter (BeginsIn f) := by
        rw [List.filter_append, List.filter_cons_of_pos hp]; rfl
      rw [e2] at h2
      have s2 : ((pre ++ [p]).filter (BeginsIn f)).Sublist ps := List.filter_sublist.trans s1
      have p1 := Fewer.plain_sub hps fun _ g => s1.subset g
      have p2 := Fewer.plain_sub hps fun _ g => s2.subset g
      have hx := hmsg p hpp msg hin
      obtain ⟨c, l, rest, ep⟩ := begins (hl p hpp) (hps.nonempty p hpp)
      have hc : c.toNat < 128 := hps.ascii p hpp (c :: l) (by rw [ep]; simp) c (by simp)
      have hf : f c = true := by rw [← hp, beginsIn_of ep]
      have same : (∃ y, msg.message = c :: y) → (trieMatcher sip).parse m msg.message = (trieMatcher sip).parse m' msg.message := by
        rintro ⟨y, ey⟩
        have := C145_trie_answers sip ((pre ++ [p]).map loaded) (Fewer.loaded_plain p1)
          (fun q hq => by obtain ⟨q, hq', rfl⟩ := List.mem_map.mp hq; exact hl q (s1.subset hq')) f c hc hf y (ey ▸ hx)
        have b1 : SuffixTree.build sip ((pre ++ [p]).map loaded) = .ok m := h1
        have b2 : SuffixTree.build sip (((pre ++ [p]).filter (BeginsIn f)).map loaded) = .ok m' := h2
        rw [loaded_begins, b1, b2] at this
        rw [ey]
        exact this
      constructor
      · intro h
        have := same (passes_begins p1 (hid.sublist s1) (by simp) ep h1 hx h)
        unfold PassesIn at h ⊢
        rwa [this] at h
      · intro h
        have := same (passes_begins p2 (hid.sublist s2) (List.mem_filter.mpr ⟨by simp, hp⟩) ep h2 hx h)
        unfold PassesIn at h ⊢
        rwa [this]
    rintro k (rfl | rfl)
    · exact key f
    · exact key fun c => !f c

/-- C145, trie: two sources whose patterns begin with different characters load one after the other exactly if each of them loads. -/
theorem C145_trie_together (sip : Bytes → UInt64) (ps qs : List Pattern) (hps : Plain sip (ps ++ qs)) (hl : ∀ p ∈ ps ++ qs, BeginsLiterally p)
    (hid : (ps ++ qs).Pairwise fun p q => p.uuid ≠ q.uuid) (hmsg : ∀ p ∈ ps ++ qs, ∀ msg ∈ testsOf p, Utf8 msg.message)
    (hd : ∀ p ∈ ps, ∀ q ∈ qs, ∀ c l rest d k tail, p.pattern = .literal (c :: l) :: rest → q.pattern = .literal (d :: k) :: tail → c ≠ d) :
    (∃ m, fromSource (trieMatcher sip) ((ps ++ qs).map .ok) = .ok (.ok m, [])) ↔
      (∃ m, fromSource (trieMatcher sip) (ps.map .ok) = .ok (.ok m, [])) ∧ ∃ m, fromSource (trieMatcher sip) (qs.map .ok) = .ok (.ok m, []) := by
  classical
  have h := C145_trie sip (ps ++ qs) hps hl hid hmsg fun c => decide (∃ p ∈ ps, ∃ l rest, p.pattern = .literal (c :: l) :: rest)
  have k1 : ∀ p ∈ ps, ∀ c l rest, p.pattern = .literal (c :: l) :: rest → ∃ p ∈ ps, ∃ l rest, p.pattern = .literal (c :: l) :: rest :=
    fun p hp c l rest e => ⟨p, hp, l, rest, e⟩
  have k2 : ∀ q ∈ qs, ∀ c l rest, q.pattern = .literal (c :: l) :: rest → ¬ ∃ p ∈ ps, ∃ l rest, p.pattern = .literal (c :: l) :: rest := by
    rintro q hq c l rest e ⟨p, hp, l', rest', e'⟩
    exact hd p hp q hq c l' rest' c l rest e' e rfl
  have e1 : (ps ++ qs).filter (BeginsIn fun c => decide (∃ p ∈ ps, ∃ l rest, p.pattern = .literal (c :: l) :: rest)) = ps := by
    rw [List.filter_append, List.filter_eq_self.mpr, List.filter_eq_nil_iff.mpr, List.append_nil]
    · intro q hq
      obtain ⟨c, l, rest, e⟩ := begins (hl q (by simp [hq])) (hps.nonempty q (by simp [hq]))
      rw [beginsIn_of e, decide_eq_true_eq]
      exact k2 q hq c l rest e
    · intro q hq
      obtain ⟨c, l, rest, e⟩ := begins (hl q (by simp [hq])) (hps.nonempty q (by simp [hq]))
      rw [beginsIn_of e, decide_eq_true_eq]
      exact k1 q hq c l rest e
  have e2 : (ps ++ qs).filter (BeginsIn fun c => !decide (∃ p ∈ ps, ∃ l rest, p.pattern = .literal (c :: l) :: rest)) = qs := by
    rw [List.filter_append, List.filter_eq_nil_iff.mpr, List.filter_eq_self.mpr, List.nil_append]
    · intro q hq
      obtain ⟨c, l, rest, e⟩ := begins (hl q (by simp [hq])) (hps.nonempty q (by simp [hq]))
      rw [beginsIn_of e, Bool.not_eq_true', decide_eq_false_iff_not]
      exact k2 q hq c l rest e
    · intro q hq
      obtain ⟨c, l, rest, e⟩ := begins (hl q (by simp [hq])) (hps.nonempty q (by simp [hq]))
      rw [beginsIn_of e, Bool.not_eq_true', decide_eq_false_iff_not]
      exact fun g => g (k1 q hq c l rest e)
  rw [e1, e2] at h
  exact h

namespace Together

/-- The first byte of the chosen literal, if there is a leading literal that begins like the text. -/
theorem chosen_first {ps : List Pattern} (hu : ∀ p ∈ ps, Utf8Lits p) {c : UInt8} (hc : c.toNat < 128) {y : Bytes} (hx : Utf8 (c :: y)) {l0 : Bytes}
    (h0 : Leads ps (c :: l0)) {l : Bytes} (h : Chosen ps (c :: y) l) : ∃ l1, l = c :: l1 := by
  obtain ⟨h1, rfl | ⟨_, h2⟩⟩ := h
  · exact ⟨y, rfl⟩
  · by_cases e : c :: l0 = l
    · exact ⟨l0, e.symm⟩
    · have hul : ∀ l, Leads ps l → Utf8 l := fun l ⟨p, hp, e⟩ => hu p hp l (List.mem_of_mem_head? e)
      have c1 := (lcp_iff (hul l h1) hx).mpr rfl
      have c2 := (lcp_iff (hul _ h0) hx).mpr rfl
      have h3 := (h2 _ h0 e).1 _ _ c1 c2
      have h4 := c2.2.2.2 [c] (ascii_utf8 (by intro b hb; simp at hb; subst hb; exact hc)) (by simp) (by simp)
      have h5 := c1.2.1
      have h6 := c1.2.2.1
      generalize List.take (commonPrefixLen l (c :: y)) (c :: y) = z at h3 h5 h6
      simp only [List.length_singleton] at h4
      cases z with
      | nil => simp only [List.length_nil] at h3; omega
      | cons b z =>
        obtain ⟨rfl, _⟩ := List.cons_prefix_cons.mp h6
        cases l with
        | nil => simp at h5
        | cons d l =>
          obtain ⟨rfl, _⟩ := List.cons_prefix_cons.mp h5
          exact ⟨l, rfl⟩

theorem lastWith_part {ps : List Pattern} {P : List Token → Prop} {k : Pattern → Bool} (hk : ∀ p ∈ ps, P p.pattern → k p = true) {p : Pattern} :
    LastWith (ps.filter k) P p ↔ LastWith ps P p := by
  have fwd : ∀ p, LastWith ps P p → LastWith (ps.filter k) P p := by
    rintro p ⟨A, B, rfl, hP, hB⟩
    refine ⟨A.filter k, B.filter k, ?_, hP, fun q hq => hB q (List.mem_filter.mp hq).1⟩
    rw [List.filter_append, List.filter_cons_of_pos (hk p (by simp) hP)]
  refine ⟨fun h => ?_, fwd p⟩
  obtain ⟨A, B, e, hP, _⟩ := id h
  have hp : p ∈ ps.filter k := by rw [e]; simp
  obtain ⟨q, hq⟩ := lastWith_exists (P := P) ⟨p, (List.mem_filter.mp hp).1, hP⟩
  rwa [lastWith_unique h (fwd q hq)]

theorem chosen_part {ps : List Pattern} (hu : ∀ p ∈ ps, Utf8Lits p) {c : UInt8} (hc : c.toNat < 128) {y : Bytes} (hx : Utf8 (c :: y)) {l0 : Bytes}
    (h0 : Leads ps (c :: l0)) {f : UInt8 → Bool} (hf : f c = true) {l : Bytes} : Chosen (ps.filter (BeginsIn f)) (c :: y) l ↔ Chosen ps (c :: y) l := by
  have sub : ∀ l, Leads (ps.filter (BeginsIn f)) l → Leads ps l := fun l ⟨p, hp, e⟩ => ⟨p, (List.mem_filter.mp hp).1, e⟩
  have stay : ∀ l, Leads ps (c :: l) → Leads (ps.filter (BeginsIn f)) (c :: l) := by
    rintro l ⟨p, hp, e⟩
    refine ⟨p, List.mem_filter.mpr ⟨hp, ?_⟩, e⟩
    cases g : p.pattern with
    | nil => rw [g] at e; simp at e
    | cons t rest =>
      rw [g] at e
      simp only [List.head?_cons, Option.some.injEq] at e
      subst e
      rw [beginsIn_of g]
      exact hf
  have fwd : ∀ l, Chosen ps (c :: y) l → Chosen (ps.filter (BeginsIn f)) (c :: y) l := by
    intro l h
    obtain ⟨l1, rfl⟩ := chosen_first hu hc hx h0 h
    refine ⟨stay l1 h.1, ?_⟩
    rcases h.2 with e | ⟨g1, g2⟩
    · exact .inl e
    · exact .inr ⟨fun g => g1 (sub _ g), fun l' hl' => g2 l' (sub l' hl')⟩
  refine ⟨fun h => ?_, fwd l⟩
  obtain ⟨l', h', _⟩ := C73_chosen ps hu (c :: y) hx ⟨_, h0⟩
  rwa [chosen_unique h (fwd l' h')]

theorem part_kind {ps : List Pattern} {c : UInt8} {f : UInt8 → Bool} (hf : f c = true) (l : Bytes) :
    (∀ p ∈ ps, p.pattern = [.literal (c :: l)] → BeginsIn f p = true) ∧
    ∀ p ∈ ps, (∃ rest, rest ≠ [] ∧ p.pattern = .literal (c :: l) :: rest) → BeginsIn f p = true :=
  ⟨fun _ _ e => by rw [beginsIn_of e]; exact hf, fun _ _ ⟨_, _, e⟩ => by rw [beginsIn_of e]; exact hf⟩

end Together

/-- C145, suffix array: the same if one of the patterns begins with the first character of the text; then all other patterns, whatever they begin with, do not
count. -/
theorem C145_suffix_answers (sip : Bytes → UInt64) (ps : List Pattern) (hu : ∀ p ∈ ps, Utf8Lits p) (hcol : NoCollision sip ps) (f : UInt8 → Bool) (c : UInt8)
    (hc : c.toNat < 128) (hf : f c = true) (hp : ∃ p ∈ ps, ∃ l, p.pattern.head? = some (.literal (c :: l))) (rest : Bytes) (hx : Utf8 (c :: rest)) :
    (SuffixTable.build sip ps >>= fun t => t.parse (c :: rest)) =
      (SuffixTable.build sip (ps.filter (BeginsIn f)) >>= fun t => t.parse (c :: rest)) := by
  obtain ⟨p0, hp0, l0, e0⟩ := hp
  have h0 : Leads ps (c :: l0) := ⟨p0, hp0, e0⟩
  have hs : ∀ p ∈ ps.filter (BeginsIn f), p ∈ ps := fun p h => (List.mem_filter.mp h).1
  have hu' : ∀ p ∈ ps.filter (BeginsIn f), Utf8Lits p := fun p h => hu p (hs p h)
  have g := C74_panics_iff sip ps hu hcol (c :: rest) hx
  have g' := C74_panics_iff sip _ hu' (noCollision_sub hcol hs) (c :: rest) hx
  have hch : ∀ {l}, Chosen (ps.filter (BeginsIn f)) (c :: rest) l ↔ Chosen ps (c :: rest) l := chosen_part hu hc hx h0 hf
  obtain ⟨l, hl, _⟩ := C73_chosen ps hu (c :: rest) hx ⟨_, h0⟩
  obtain ⟨l1, rfl⟩ := chosen_first hu hc hx h0 hl
  have hl' := hch.mpr hl
  obtain ⟨k1, k2⟩ := part_kind (ps := ps) hf l1
  have htr : SuffixTrouble (ps.filter (BeginsIn f)) (c :: rest) ↔ SuffixTrouble ps (c :: rest) := by
    constructor
    · rintro (⟨hno, _⟩ | ⟨l, h1, h2, p, h3, h4⟩)
      · exact absurd hl'.1 (hno _)
      · obtain rfl := chosen_unique h1 hl'
        exact .inr ⟨_, hl, h2, p, (lastWith_part k2).mp h3, h4⟩
    · rintro (⟨hno, _⟩ | ⟨l, h1, h2, p, h3, h4⟩)
      · exact absurd hl.1 (hno _)
      · obtain rfl := chosen_unique h1 hl
        exact .inr ⟨_, hl', h2, p, (lastWith_part k2).mpr h3, h4⟩
  by_cases ht : SuffixTrouble ps (c :: rest)
  · rw [g.1 ht, g'.1 (htr.mpr ht)]
  · obtain ⟨r, e, hr⟩ := g.2 ht
    obtain ⟨r', e', hr'⟩ := g'.2 (fun h => ht (htr.mp h))
    rw [e, e']
    congr 1
    refine C73_answer_unique _ hu' (c :: rest) hx _ _ ⟨fun hno => absurd hl'.1 (hno _), fun l h => ?_⟩ hr'
    obtain rfl := chosen_unique h hl'
    obtain ⟨a1, a2⟩ := hr.2 _ hl
    refine ⟨fun hpre => ⟨fun p h => (a1 hpre).1 p ((lastWith_part k1).mp h), fun hno => (a1 hpre).2 fun p h e => ?_⟩,
      fun hpre => ⟨fun p h => (a2 hpre).1 p ((lastWith_part k2).mp h), fun hno => (a2 hpre).2 fun p h rest hr e => ?_⟩⟩
    · exact hno p (List.mem_filter.mpr ⟨h, k1 p h e⟩) e
    · exact hno p (List.mem_filter.mpr ⟨h, k2 p h ⟨rest, hr, e⟩⟩) rest hr e

/-- C145, suffix array: the patterns load together exactly if the two parts load, provided that each test message begins with the first character of its
pattern. -/
theorem C145_suffix_array (sip : Bytes → UInt64) (ps : List Pattern) (ha : ∀ p ∈ ps, AsciiLits p) (hn : ∀ p ∈ ps, NonemptyLits p)
    (hl : ∀ p ∈ ps, BeginsLiterally p) (hmsg : ∀ p ∈ ps, ∀ msg ∈ testsOf p, Utf8 msg.message)
    (hfirst : ∀ p ∈ ps, ∀ msg ∈ testsOf p, ∀ c l rest, p.pattern = .literal (c :: l) :: rest → msg.message.head? = some c) (f : UInt8 → Bool) :
    (∃ m, fromSource (suffixArrayMatcher sip) (ps.map .ok) = .ok (.ok m, [])) ↔
      (∃ m, fromSource (suffixArrayMatcher sip) ((ps.filter (BeginsIn f)).map .ok) = .ok (.ok m, [])) ∧
      ∃ m, fromSource (suffixArrayMatcher sip) ((ps.filter (BeginsIn fun c => !f c)).map .ok) = .ok (.ok m, []) := by
  refine split_loads _ ps _ _ (fun p hp => ?_) (fun qs _ => sfile_built sip qs) ?_
  · obtain ⟨c, l, rest, e⟩ := begins (hl p hp) (hn p hp)
    rw [beginsIn_of e, beginsIn_of e]
    cases f c <;> simp
  · have key : ∀ f : UInt8 → Bool, ∀ pre p post m m' msg, ps = pre ++ p :: post → BeginsIn f p = true → built (suffixArrayMatcher sip) (pre ++ [p]) = .ok m →
        built (suffixArrayMatcher sip) (pre.filter (BeginsIn f) ++ [p]) = .ok m' → msg ∈ testsOf p →
        (PassesIn (suffixArrayMatcher sip) m p.uuid msg ↔ PassesIn (suffixArrayMatcher sip) m' p.uuid msg) := by
      intro f pre p post m m' msg e hp h1 h2 hin
      have hpp : p ∈ ps := by rw [e]; simp
      have s1 : (pre ++ [p]).Sublist ps := by rw [e]; exact Fewer.upTo
      have e2 : pre.filter (BeginsIn f) ++ [p] = (pre ++ [p]).filter (BeginsIn f) := by
        rw [List.filter_append, List.filter_cons_of_pos hp]; rfl
      rw [e2] at h2
      have hx := hmsg p hpp msg hin
      obtain ⟨c, l, rest, ep⟩ := begins (hl p hpp) (hn p hpp)
      have hc : c.toNat < 128 := ha p hpp (c :: l) (by rw [ep]; simp) c (by simp)
      have hf : f c = true := by rw [← hp, beginsIn_of ep]
      have hy := hfirst p hpp msg hin c l rest ep
      have same : (suffixArrayMatcher sip).parse m msg.message = (suffixArrayMatcher sip).parse m' msg.message := by
        obtain ⟨y, ey⟩ : ∃ y, msg.message = c :: y := by
          cases g : msg.message with
          | nil => rw [g] at hy; simp at hy
          | cons d y => rw [g] at hy; simp at hy; exact ⟨y, by rw [hy]⟩
        have := C145_suffix_answers sip ((pre ++ [p]).map loaded) (utf8_loaded fun q g l hl => ascii_utf8 (ha q (s1.subset g) l hl))
          (noCollision_loaded (by
            rintro a b ⟨q, hq, g⟩
            obtain ⟨l, g'⟩ := hl q (s1.subset hq)
            rw [g] at g'
            simp at g'))
          f c hc hf ⟨loaded p, by simp, l, by show p.pattern.head? = _; rw [ep]; rfl⟩ y (ey ▸ hx)
        have b1 : SuffixTable.build sip ((pre ++ [p]).map loaded) = .ok m := h1
        have b2 : SuffixTable.build sip (((pre ++ [p]).filter (BeginsIn f)).map loaded) = .ok m' := h2
        rw [loaded_begins, b1, b2] at this
        rw [ey]
        exact this
      unfold PassesIn
      rw [same]
    rintro k (rfl | rfl)
    · exact key f
    · exact key fun c => !f c

namespace Together
open Fewer

def abc : Pattern := tested (Samples.pat 4 [.literal b!"abc", .parser (Samples.greedy b!"x" none)]) b!"zzz" b!"zzz"
def zed : Pattern := Samples.pat 5 [.literal b!"zz"]
def bar : Pattern := tested (Samples.pat 6 [.literal b!"b", .parser (Samples.int b!"x")]) b!"b2" b!"2"

end Together
open Fewer

/-- C145, trie: different first characters are needed: `ab%{INT:x}` and `a%{INT:x}` load alone, but not one after the other. -/
theorem C145_trie_counts : ∃ p q : Pattern, p.uuid ≠ q.uuid ∧ BeginsLiterally p ∧ BeginsLiterally q ∧
    (∃ m, fromSource (trieMatcher Samples.sip) ([p].map .ok) = .ok (.ok m, [])) ∧ (∃ m, fromSource (trieMatcher Samples.sip) ([q].map .ok) = .ok (.ok m, [])) ∧
    ¬∃ m, fromSource (trieMatcher Samples.sip) (([p] ++ [q]).map .ok) = .ok (.ok m, []) := by
  refine ⟨longer, again, by decide, ⟨_, rfl⟩, ⟨_, rfl⟩, loads_iff.mp (by decide +kernel), loads_iff.mp (by decide +kernel), ?_⟩
  rw [← loads_iff]
  decide +kernel

/-- C145, suffix array: the condition on the test messages is needed: `abc%{GREEDY:x}` loads with the test message `zzz`, but not after `zz`, although the
first characters are different; the trie does not load it at all. -/
theorem C145_suffix_counts : ∃ p q : Pattern, p.uuid ≠ q.uuid ∧ p.pattern.head? = some (.literal b!"zz") ∧ q.pattern.head? = some (.literal b!"abc") ∧
    (∃ m, fromSource (suffixArrayMatcher Samples.sip) ([p].map .ok) = .ok (.ok m, [])) ∧
    (∃ m, fromSource (suffixArrayMatcher Samples.sip) ([q].map .ok) = .ok (.ok m, [])) ∧
    (¬∃ m, fromSource (suffixArrayMatcher Samples.sip) (([p] ++ [q]).map .ok) = .ok (.ok m, [])) ∧
    ¬∃ m, fromSource (trieMatcher Samples.sip) ([q].map .ok) = .ok (.ok m, []) := by
  refine ⟨zed, abc, by decide, rfl, rfl, loads_iff.mp (by decide +kernel), loads_iff.mp (by decide +kernel), ?_, ?_⟩ <;>
  · rw [← loads_iff]
    decide +kernel

namespace Together

/-! The patterns `a%{INT:x}`, `ab%{INT:x}` and `b%{INT:x}`, the last two with test messages, meet the conditions of both matchers; the first two and the third one
load, and therefore all of them. -/

theorem sample_cases {p : Pattern} (hp : p ∈ [first, longer] ++ [bar]) : p = first ∨ p = longer ∨ p = bar := by simpa using hp

theorem sample_plain : Plain Samples.sip ([first, longer] ++ [bar]) := by
  refine ⟨?_, ?_, ?_, ?_⟩
  · intro p hp l hl
    rcases sample_cases hp with rfl | rfl | rfl <;> simp [first, longer, bar, tested, Samples.pat] at hl <;> subst hl <;> decide
  · intro p hp l hl
    rcases sample_cases hp with rfl | rfl | rfl <;> simp [first, longer, bar, tested, Samples.pat] at hl <;> subst hl <;> decide
  · intro p hp l rest e l'
    rcases sample_cases hp with rfl | rfl | rfl <;> simp [first, longer, bar, tested, Samples.pat] at e <;> rw [← e.2] <;> simp
  · rintro a b ⟨p, hp, e⟩
    rcases sample_cases hp with rfl | rfl | rfl <;> simp [first, longer, bar, tested, Samples.pat] at e

theorem sample_literal : ∀ p ∈ [first, longer] ++ [bar], BeginsLiterally p := by
  intro p hp
  rcases sample_cases hp with rfl | rfl | rfl <;> exact ⟨_, rfl⟩

theorem sample_messages : ∀ p ∈ [first, longer] ++ [bar], ∀ msg ∈ testsOf p, Ascii msg.message ∧
    ∀ c l rest, p.pattern = .literal (c :: l) :: rest → msg.message.head? = some c := by
  intro p hp msg hm
  rcases sample_cases hp with rfl | rfl | rfl
  · cases hm
  all_goals
    simp [longer, bar, tested, testsOf] at hm
    subst hm
    refine ⟨by decide, fun c l rest e => ?_⟩
    simp [longer, bar, tested, Samples.pat] at e
    obtain ⟨⟨rfl, _⟩, _⟩ := e
    rfl

example : ∃ m, fromSource (trieMatcher Samples.sip) (([first, longer] ++ [bar]).map .ok) = .ok (.ok m, []) := by
  refine (C145_trie_together Samples.sip [first, longer] [bar] sample_plain sample_literal (by decide +kernel)
    (fun p hp msg hm => ascii_utf8 (sample_messages p hp msg hm).1) ?_).mpr ⟨loads_iff.mp (by decide +kernel), loads_iff.mp (by decide +kernel)⟩
  intro p hp q hq c l rest d k tail e1 e2
  simp at hp hq
  subst hq
  simp [bar, tested, Samples.pat] at e2
  rcases hp with rfl | rfl <;> simp [first, longer, tested, Samples.pat] at e1 <;> rw [← e1.1.1, ← e2.1.1] <;> decide

example : ∃ m, fromSource (suffixArrayMatcher Samples.sip) (([first, longer] ++ [bar]).map .ok) = .ok (.ok m, []) :=
  (C145_suffix_array Samples.sip ([first, longer] ++ [bar]) sample_plain.ascii sample_plain.nonempty sample_literal
    (fun p hp msg hm => ascii_utf8 (sample_messages p hp msg hm).1) (fun p hp msg hm => (sample_messages p hp msg hm).2) (fun c => c == 97)).mpr
    ⟨loads_iff.mp (by decide +kernel), loads_iff.mp (by decide +kernel)⟩

example : (SuffixTree.build Samples.sip ([first, longer] ++ [bar]) >>= fun t => t.parse b!"ab7") =
    (SuffixTree.build Samples.sip (([first, longer] ++ [bar]).filter (BeginsIn fun c => c == 97)) >>= fun t => t.parse b!"ab7") :=
  C145_trie_answers Samples.sip _ sample_plain sample_literal _ 97 (by decide) rfl b!"b7" (ascii_utf8 (by decide))

end Together

end Verif
