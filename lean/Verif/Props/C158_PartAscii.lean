import Verif.Props.C154_SmallPanics
/-! C158: a condition on the beginnings of patterns under which a trie with characters outside ASCII does not panic. -/
namespace Verif
open Spec Fewer

namespace Spec

/-- One of the patterns begins with this literal. -/
def LeadingLiteral (ps : List Pattern) (l : Bytes) : Prop := ∃ p ∈ ps, p.pattern.head? = some (.literal l)

/-- Where the two texts part, neither goes on with a character outside ASCII. -/
def PartAscii (u v : Bytes) : Prop := ∀ b y z, u = b ++ y → v = b ++ z → CommonStart u v b → ¬NonAsciiFirst y ∧ ¬NonAsciiFirst z

/-- Where the text `x` parts from the literal `l`, before the end of `l`, it does not go on with a character outside ASCII. -/
def LeavesAscii (l x : Bytes) : Prop := ∀ b y z, l = b ++ z → x = b ++ y → CommonStart l x b → z ≠ [] → ¬NonAsciiFirst y

end Spec

namespace PartAscii
open SmallPanics

theorem part_or {r s u b : Bytes} (h : CommonStart r s b) (hb : b <+: u) : CommonStart r u b ∨ CommonStart s u b := by
  refine Classical.byContradiction fun hn => ?_
  have longer : ∀ w, b <+: w → ¬CommonStart w u b → ∃ c, c <+: w ∧ c <+: u ∧ b.length < c.length := fun w hw k =>
    Classical.byContradiction fun k' => k ⟨hw, hb, fun c h1 h2 => Nat.le_of_not_lt fun h3 => k' ⟨c, h1, h2, h3⟩⟩
  obtain ⟨c, c1, c2, c3⟩ := longer r h.1 fun k => hn (.inl k)
  obtain ⟨d, d1, d2, d3⟩ := longer s h.2.1 fun k => hn (.inr k)
  rcases Nat.le_total c.length d.length with k | k
  · have := h.2.2 c c1 ((List.prefix_of_prefix_length_le c2 d2 k).trans d1)
    omega
  · have := h.2.2 d ((List.prefix_of_prefix_length_le d2 c2 k).trans c1) d1
    omega

/-- A text that parts well from all rows goes on well after every stop point. -/
theorem stop_goes {rows : List Row} {b u z : Bytes} (hs : StopPoint rows b) (hu : ∀ r ∈ rows, Spec.PartAscii r.text u) (h0 : ¬NonAsciiFirst u) (e : u = b ++ z) :
    ¬NonAsciiFirst z := by
  have use : ∀ r ∈ rows, CommonStart r.text u b → ¬NonAsciiFirst z := by
    intro r hr hc
    obtain ⟨y, ey⟩ := hc.1
    exact (hu r hr b y z ey.symm e hc).2
  rcases hs with rfl | ⟨r, hr, rfl, _⟩ | ⟨r, hr, s, hs, _, hc⟩
  · simp at e
    exact e ▸ h0
  · exact use r hr ⟨List.prefix_refl _, ⟨z, e.symm⟩, fun c' h _ => h.length_le⟩
  · rcases part_or hc ⟨z, e.symm⟩ with k | k
    · exact use r hr k
    · exact use s hs k

theorem not_lookup {rows : List Row} {x : Bytes} (hr : ∀ r ∈ rows, ∀ s ∈ rows, Spec.PartAscii r.text s.text) (h0 : ∀ r ∈ rows, ¬NonAsciiFirst r.text)
    (hx : ∀ r ∈ rows, LeavesAscii r.text x) : ¬LookupPanics rows x := by
  rintro ⟨b, y, e, _, hstop, ⟨u, hu, ⟨z, ez⟩, hne⟩, h⟩
  have go : ∀ r ∈ rows, ∀ z, r.text = b ++ z → ¬NonAsciiFirst z := fun r h z e => stop_goes hstop (fun s hs => hr s hs r h) (h0 r h) e
  rcases h with h | ⟨r, h, z, e, hz⟩
  · have hz0 : z ≠ [] := fun k => hne (by rw [← ez, k, List.append_nil])
    refine hx u hu b y z ez.symm e ?_ hz0 h
    obtain ⟨c, t, rfl, hc⟩ := h
    obtain ⟨d, w, rfl⟩ := List.exists_cons_of_ne_nil hz0
    have hd : d ≠ c := fun k => go u hu _ ez.symm ⟨d, w, rfl, k ▸ hc⟩
    have : CommonStart (b ++ d :: w) (b ++ c :: t) (b ++ []) := by
      refine commonStart_append ⟨List.nil_prefix, List.nil_prefix, ?_⟩
      intro c' h1 h2
      cases c' with
      | nil => simp
      | cons f c' =>
        rw [List.cons_prefix_cons] at h1 h2
        exact absurd (h1.1.symm.trans h2.1) hd
    rw [← ez, e]
    simpa using this
  · exact go r h z e hz

theorem not_split {rows : List Row} {l : Bytes} (hl : Utf8 l) (hr : ∀ r ∈ rows, Spec.PartAscii r.text l) : ¬SplitPanics rows l := by
  rintro ⟨r, hr', b, y, e, hy, hc, _, h⟩
  obtain ⟨c, k⟩ := commonStart_exists r.text l
  obtain ⟨z', ez⟩ := k.1
  obtain ⟨y', ey⟩ := k.2.1
  obtain ⟨g1, g2⟩ := hr r hr' c z' y' ez.symm ey.symm k
  have hcu : Utf8 c := by
    cases y' with
    | nil => simp at ey; exact ey ▸ hl
    | cons d w =>
      have hd : d.toNat < 128 := Nat.lt_of_not_le fun k => g2 ⟨d, w, rfl, k⟩
      exact (utf8_split_ascii hd (ey ▸ hl)).1
  have h1 := hc.2.2.2 c hcu k.1 k.2.1
  have h2 := k.2.2 b hc.2.1 hc.2.2.1
  have hbc : b = c := (List.prefix_of_prefix_length_le hc.2.2.1 k.2.1 h2).eq_of_length (by omega)
  subst hbc
  rcases h with h | ⟨z, ez', h⟩
  · rw [e] at ey
    exact g2 (List.append_cancel_left ey ▸ h)
  · rw [ez'] at ez
    exact g1 (List.append_cancel_left ez ▸ h)

theorem leaves {l x : Bytes} (h : Spec.PartAscii l x) : LeavesAscii l x := fun b y z e1 e2 hc _ => (h b z y e1 e2 hc).2

theorem row_leading {ps : List Pattern} {r : Row} (h : r ∈ (Table.of ps).rows) : LeadingLiteral ps r.text := by
  obtain ⟨q, hq, rest, e⟩ := has_source (w := r.text) ⟨r, h, rfl⟩
  exact ⟨q, hq, by rw [e]; rfl⟩

end PartAscii
open PartAscii SmallPanics

/-- C158: patterns can all be added to a trie if their leading literals begin in ASCII and, where two of them part, both go on in ASCII or end. -/
theorem C158_add (sip : Bytes → UInt64) (ps : List Pattern) (hps : Proper sip ps) (h0 : ∀ l, LeadingLiteral ps l → ¬NonAsciiFirst l)
    (h : ∀ u v, LeadingLiteral ps u → LeadingLiteral ps v → PartAscii u v) : ∃ t, SuffixTree.build sip ps = .ok t := by
  refine (C96_build_panics_iff sip ps hps.utf8 hps.nonempty hps.split).2 fun A p B e hp => ?_
  obtain ⟨l, rest, el, hp⟩ := hp
  have hpm : p ∈ ps := by rw [e]; simp
  have hl : LeadingLiteral ps l := ⟨p, hpm, by rw [el]; rfl⟩
  have row : ∀ r ∈ (Table.of A).rows, LeadingLiteral ps r.text := fun r hr => by
    obtain ⟨q, hq, k⟩ := row_leading hr
    exact ⟨q, by rw [e]; simp [hq], k⟩
  rcases hp with hp | hp
  · exact not_lookup (fun r hr s hs => h _ _ (row r hr) (row s hs)) (fun r hr => h0 _ (row r hr)) (fun r hr => leaves (h _ _ (row r hr) hl)) hp
  · exact not_split (hps.utf8 p hpm l (by rw [el]; simp)) (fun r hr => h _ _ (row r hr) hl) hp

/-- C158: such a trie does not panic for a text that no trie of a single pattern panics for, if the text leaves each leading literal with an ASCII
character or by ending. -/
theorem C158_parse (sip : Bytes → UInt64) (ps : List Pattern) (hps : Proper sip ps) (h0 : ∀ l, LeadingLiteral ps l → ¬NonAsciiFirst l)
    (h : ∀ u v, LeadingLiteral ps u → LeadingLiteral ps v → PartAscii u v) (text : Bytes) (hx : Utf8 text)
    (hl : ∀ l, LeadingLiteral ps l → LeavesAscii l text) (h1 : ∀ p ∈ ps, ∃ r, (SuffixTree.build sip [p] >>= fun t => t.parse text) = .ok r) :
    ∃ r, (SuffixTree.build sip ps >>= fun t => t.parse text) = .ok r := by
  obtain ⟨t, hb⟩ := C158_add sip ps hps h0 h
  have hn : ¬(Table.of ps).Panics text := by
    intro hp
    rcases parse_one hp with hp | ⟨p, hpm, hp⟩
    · exact not_lookup (fun r hr s hs => h _ _ (row_leading hr) (row_leading hs)) (fun r hr => h0 _ (row_leading hr)) (fun r hr => hl _ (row_leading hr)) hp
    · have hX := proper_sub hps (qs := [p]) (by simpa using hpm)
      obtain ⟨r, hr⟩ := h1 p hpm
      cases hb' : SuffixTree.build sip [p] with
      | error e => rw [hb'] at hr; simp [bind, Except.bind] at hr
      | ok t' =>
        rw [hb'] at hr
        have := (C66_panics_iff sip [p] hX.utf8 hX.nonempty hX.split hX.hashes t' hb' text hx).1 hp
        have hr' : t'.parse text = .ok r := hr
        rw [this] at hr'
        simp at hr'
  obtain ⟨r, hr, _⟩ := (C66_panics_iff sip ps hps.utf8 hps.nonempty hps.split hps.hashes t hb text hx).2 hn
  exact ⟨r, by rw [hb]; exact hr⟩

/-- C158: in particular, if the leading literals are ASCII, all patterns can be added, whatever their other literals are, and the trie does not panic for a
text that leaves no leading literal with a character outside ASCII, if the tries of its single patterns do not. -/
theorem C158_ascii_leading (sip : Bytes → UInt64) (ps : List Pattern) (hps : Proper sip ps) (h : ∀ l, LeadingLiteral ps l → Ascii l) :
    (∃ t, SuffixTree.build sip ps = .ok t) ∧
    ∀ text, Utf8 text → (∀ l, LeadingLiteral ps l → LeavesAscii l text) →
      (∀ p ∈ ps, ∃ r, (SuffixTree.build sip [p] >>= fun t => t.parse text) = .ok r) →
      ∃ r, (SuffixTree.build sip ps >>= fun t => t.parse text) = .ok r := by
  have ascii : ∀ {b y : Bytes}, Ascii (b ++ y) → ¬NonAsciiFirst y := by
    rintro b y ha ⟨c, t, rfl, hc⟩
    have := ha c (by simp)
    omega
  have h0 : ∀ l, LeadingLiteral ps l → ¬NonAsciiFirst l := fun l hl => ascii (b := []) (h l hl)
  have h1 : ∀ u v, LeadingLiteral ps u → LeadingLiteral ps v → PartAscii u v := fun u v hu hv b y z e1 e2 _ =>
    ⟨ascii (e1 ▸ h u hu), ascii (e2 ▸ h v hv)⟩
  exact ⟨C158_add sip ps hps h0 h1, fun text hx hl hr => C158_parse sip ps hps h0 h1 text hx hl hr⟩

namespace PartAscii

/-! The conditions can be computed. -/

def asciiFirst : Bytes → Bool
  | [] => true
  | c :: _ => decide (c.toNat < 128)

theorem asciiFirst_not {x : Bytes} (h : asciiFirst x = true) : ¬NonAsciiFirst x := by
  rintro ⟨c, t, rfl, hc⟩
  simp [asciiFirst] at h
  omega

def parts : Bytes → Bytes → Bool
  | c :: u, d :: v => if c = d then parts u v else decide (c.toNat < 128) && decide (d.toNat < 128)
  | u, v => asciiFirst u && asciiFirst v

def leavesBy : Bytes → Bytes → Bool
  | c :: l, d :: x => if c = d then leavesBy l x else decide (d.toNat < 128)
  | _, _ => true

theorem common_cons {c : UInt8} {u v b : Bytes} (h : CommonStart (c :: u) (c :: v) b) : ∃ b', b = c :: b' ∧ CommonStart u v b' := by
  cases b with
  | nil =>
    have := h.2.2 [c] (by simp) (by simp)
    simp at this
  | cons d b =>
    obtain ⟨h1, h2, h3⟩ := h
    rw [List.cons_prefix_cons] at h1 h2
    obtain ⟨rfl, h1⟩ := h1
    refine ⟨b, rfl, h1, h2.2, fun c' k1 k2 => ?_⟩
    have := h3 (d :: c') (by simpa using k1) (by simpa using k2)
    simpa using this

theorem common_apart {c d : UInt8} {u v b : Bytes} (hcd : c ≠ d) (h : CommonStart (c :: u) (d :: v) b) : b = [] := by
  cases b with
  | nil => rfl
  | cons e b =>
    obtain ⟨h1, h2, _⟩ := h
    rw [List.cons_prefix_cons] at h1 h2
    exact absurd (h1.1.symm.trans h2.1) hcd

theorem parts_sound : ∀ {u v : Bytes}, parts u v = true → Spec.PartAscii u v
  | [], v, h => by
    intro b y z e1 e2 _
    simp [parts, asciiFirst] at h
    obtain ⟨rfl, rfl⟩ := List.append_eq_nil_iff.mp e1.symm
    simp at e2
    subst e2
    exact ⟨by simp [NonAsciiFirst], asciiFirst_not h⟩
  | c :: u, [], h => by
    intro b y z e1 e2 _
    obtain ⟨rfl, rfl⟩ := List.append_eq_nil_iff.mp e2.symm
    simp at e1
    subst e1
    refine ⟨asciiFirst_not ?_, by simp [NonAsciiFirst]⟩
    simp [parts] at h
    exact h.1
  | c :: u, d :: v, h => by
    intro b y z e1 e2 hc
    unfold parts at h
    split at h
    · next k =>
      subst k
      obtain ⟨b', rfl, hc'⟩ := common_cons hc
      simp at e1 e2
      exact parts_sound h b' y z e1 e2 hc'
    · next k =>
      obtain rfl := common_apart k hc
      simp at e1 e2 h
      subst e1 e2
      exact ⟨asciiFirst_not (by simp [asciiFirst, h.1]), asciiFirst_not (by simp [asciiFirst, h.2])⟩

theorem leavesBy_sound : ∀ {l x : Bytes}, leavesBy l x = true → LeavesAscii l x
  | [], x, _ => by
    intro b y z e1 _ _ hz
    exact absurd (List.append_eq_nil_iff.mp e1.symm).2 hz
  | c :: l, [], _ => by
    intro b y z _ e2 _ _
    rw [(List.append_eq_nil_iff.mp e2.symm).2]
    simp [NonAsciiFirst]
  | c :: l, d :: x, h => by
    intro b y z e1 e2 hc hz
    unfold leavesBy at h
    split at h
    · next k =>
      subst k
      obtain ⟨b', rfl, hc'⟩ := common_cons hc
      simp at e1 e2
      exact leavesBy_sound h b' y z e1 e2 hc' hz
    · next k =>
      obtain rfl := common_apart k hc
      simp at e2 h
      subst e2
      exact asciiFirst_not (by simp [asciiFirst, h])

def leading (ps : List Pattern) : List Bytes := ps.filterMap fun p => match p.pattern.head? with | some (.literal l) => some l | _ => none

theorem mem_leading {ps : List Pattern} {l : Bytes} (h : LeadingLiteral ps l) : l ∈ leading ps := by
  obtain ⟨p, hp, e⟩ := h
  exact List.mem_filterMap.mpr ⟨p, hp, by rw [e]⟩

def accents : List Pattern := [Samples.pat 1 [.literal b!"éa"], Samples.pat 2 [.literal b!"éb"]]
def aparts : List Pattern := [Samples.pat 1 [.literal b!"aé"], Samples.pat 2 [.literal b!"ab"]]
def plains : List Pattern := [Samples.pat 1 [.literal b!"ab"], Samples.pat 2 [.literal b!"ac"]]

theorem literals_proper {ps : List Pattern} (h : ∀ p ∈ ps, ∃ l, Utf8 l ∧ l ≠ [] ∧ p.pattern = [.literal l]) : Proper Samples.sip ps := by
  refine ⟨?_, ?_, ?_, ?_⟩
  · intro p hp l hl
    obtain ⟨s, hs, _, e⟩ := h p hp
    rw [e] at hl
    simp at hl
    exact hl ▸ hs
  · intro p hp l hl
    obtain ⟨s, _, hs, e⟩ := h p hp
    rw [e] at hl
    simp at hl
    exact hl ▸ hs
  · intro p hp l rest e l'
    obtain ⟨s, _, _, e'⟩ := h p hp
    rw [e'] at e
    simp at e
    rw [e.2]; simp
  · rintro a b ⟨p, hp, e⟩
    obtain ⟨s, _, _, e'⟩ := h p hp
    rw [e'] at e
    simp at e

/-- Making this trie panics. -/
def slices (ps : List Pattern) : Bool := match SuffixTree.build Samples.sip ps with | .error .slice => true | _ => false

theorem slices_iff {ps : List Pattern} (h : slices ps = true) : SuffixTree.build Samples.sip ps = .error .slice := by
  unfold slices at h
  split at h
  · assumption
  · simp at h

theorem firsts {ps : List Pattern} (h : ∀ l ∈ leading ps, asciiFirst l = true) : ∀ l, LeadingLiteral ps l → ¬NonAsciiFirst l :=
  fun l hl => asciiFirst_not (h l (mem_leading hl))

theorem pairs {ps : List Pattern} (h : ∀ u ∈ leading ps, ∀ v ∈ leading ps, parts u v = true) :
    ∀ u v, LeadingLiteral ps u → LeadingLiteral ps v → Spec.PartAscii u v :=
  fun u v hu hv => parts_sound (h u (mem_leading hu) v (mem_leading hv))

end PartAscii

/-- C158: each of the conditions counts: literals that part well but begin outside ASCII, literals that begin in ASCII but part badly, and a text that
leaves a literal with a character outside ASCII. -/
theorem C158_conditions_count :
    (Proper Samples.sip accents ∧ (∀ u v, LeadingLiteral accents u → LeadingLiteral accents v → PartAscii u v) ∧
      SuffixTree.build Samples.sip accents = .error .slice) ∧
    (Proper Samples.sip aparts ∧ (∀ l, LeadingLiteral aparts l → ¬NonAsciiFirst l) ∧ SuffixTree.build Samples.sip aparts = .error .slice) ∧
    (Proper Samples.sip plains ∧ (∀ l, LeadingLiteral plains l → ¬NonAsciiFirst l) ∧
      (∀ u v, LeadingLiteral plains u → LeadingLiteral plains v → PartAscii u v) ∧ Utf8 b!"aé" ∧
      (∀ p ∈ plains, ∃ r, (SuffixTree.build Samples.sip [p] >>= fun t => t.parse b!"aé") = .ok r) ∧
      (SuffixTree.build Samples.sip plains >>= fun t => t.parse b!"aé") = .error .slice) := by
  refine ⟨⟨literals_proper ?_, pairs (by decide +kernel), slices_iff ?_⟩, ⟨literals_proper ?_, firsts (by decide +kernel), slices_iff ?_⟩,
    literals_proper ?_, firsts (by decide +kernel), pairs (by decide +kernel), ⟨['a', 'é'], by decide +kernel⟩, ?_, by decide +kernel⟩
  · intro p hp
    simp only [accents, List.mem_cons, List.not_mem_nil, or_false] at hp
    rcases hp with rfl | rfl
    · exact ⟨_, ⟨['é', 'a'], by decide +kernel⟩, by decide +kernel, rfl⟩
    · exact ⟨_, ⟨['é', 'b'], by decide +kernel⟩, by decide +kernel, rfl⟩
  · decide +kernel
  · intro p hp
    simp only [aparts, List.mem_cons, List.not_mem_nil, or_false] at hp
    rcases hp with rfl | rfl
    · exact ⟨_, ⟨['a', 'é'], by decide +kernel⟩, by decide +kernel, rfl⟩
    · exact ⟨_, ⟨['a', 'b'], by decide +kernel⟩, by decide +kernel, rfl⟩
  · decide +kernel
  · intro p hp
    simp only [plains, List.mem_cons, List.not_mem_nil, or_false] at hp
    rcases hp with rfl | rfl
    · exact ⟨_, ⟨['a', 'b'], by decide +kernel⟩, by decide +kernel, rfl⟩
    · exact ⟨_, ⟨['a', 'c'], by decide +kernel⟩, by decide +kernel, rfl⟩
  · have key : ∀ p ∈ plains, answers [p] b!"aé" = true := by decide +kernel
    exact fun p hp => answers_iff.mp (key p hp)

/-- C158: the conditions are not necessary. -/
theorem C158_not_conversely : ∃ ps : List Pattern, Proper Samples.sip ps ∧ (∃ u v, LeadingLiteral ps u ∧ LeadingLiteral ps v ∧ ¬PartAscii u v) ∧
    ∃ t, SuffixTree.build Samples.sip ps = .ok t := by
  refine ⟨[SmallPanics.accent, SmallPanics.more], proper_sub SmallPanics.all_proper (by intro s hs; simp at hs ⊢; rcases hs with h | h <;> simp [h]),
    ⟨b!"aé", b!"a", ⟨SmallPanics.accent, by simp, rfl⟩, ⟨SmallPanics.more, by simp, rfl⟩, fun h => ?_⟩, makes_iff.mp (by decide +kernel)⟩
  refine (h b!"a" b!"é" [] (by decide +kernel) (by decide +kernel) ⟨by decide +kernel, List.prefix_refl _, fun c' _ k => k.length_le⟩).1 ?_
  exact ⟨195, [169], by decide +kernel, by decide⟩

example : ∃ r, (SuffixTree.build Samples.sip SmallPanics.fine >>= fun t => t.parse b!"aéb") = .ok r := by
  have key : ∀ p ∈ SmallPanics.fine, answers [p] b!"aéb" = true := by decide +kernel
  have hl : ∀ l ∈ leading SmallPanics.fine, leavesBy l b!"aéb" = true := by decide +kernel
  exact C158_parse Samples.sip SmallPanics.fine
    (proper_sub SmallPanics.all_proper (by intro s hs; simp [SmallPanics.fine] at hs ⊢; rcases hs with h | h | h <;> simp [h]))
    (firsts (by decide +kernel)) (pairs (by decide +kernel)) b!"aéb" ⟨['a', 'é', 'b'], by decide +kernel⟩ (fun l h => leavesBy_sound (hl l (mem_leading h)))
    fun p hp => answers_iff.mp (key p hp)

/-- Patterns with ASCII in front and other characters later. -/
example : ∃ t, SuffixTree.build Samples.sip [Samples.pat 1 [.literal b!"a", .parser (Samples.int b!"x"), .literal b!"é"],
    Samples.pat 2 [.literal b!"b", .parser (Samples.int b!"x"), .literal b!"è"]] = .ok t := by
  refine (C158_ascii_leading Samples.sip _ ⟨?_, ?_, ?_, ?_⟩ ?_).1
  · intro p hp l hl
    simp at hp
    rcases hp with rfl | rfl <;> simp [Samples.pat] at hl <;> rcases hl with rfl | rfl
    · exact ⟨['a'], by decide +kernel⟩
    · exact ⟨['é'], by decide +kernel⟩
    · exact ⟨['b'], by decide +kernel⟩
    · exact ⟨['è'], by decide +kernel⟩
  · intro p hp l hl
    simp at hp
    rcases hp with rfl | rfl <;> simp [Samples.pat] at hl <;> rcases hl with rfl | rfl <;> decide +kernel
  · intro p hp l rest e l'
    simp at hp
    rcases hp with rfl | rfl <;> simp [Samples.pat] at e <;> rw [← e.2] <;> simp
  · rintro a b ⟨p, hp, e⟩
    simp at hp
    rcases hp with rfl | rfl <;> simp [Samples.pat] at e
  · rintro l ⟨p, hp, e⟩
    simp at hp
    rcases hp with rfl | rfl <;> simp [Samples.pat] at e <;> subst e <;> decide

end Verif
