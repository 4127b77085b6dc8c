import Verif.Proofs.TrieEntries
/-! The effect of an insertion on the set of literal entries. -/
namespace Verif
open Spec

variable {P : Bytes → Prop}

/-- A set of entries: text, pattern, parsers tried after the text. -/
abbrev EntrySet := Bytes → Option Pattern → List ParserNode → Prop

/-- The parsers of the entry with the text `l`, none if there is no such entry. -/
def OldPs (F : EntrySet) (l : Bytes) (ps : List ParserNode) : Prop :=
  (∃ w, F l w ps) ∨ (ps = [] ∧ ¬∃ w ps, F l w ps)

/-- The pattern of the entry with the text `l`, none if there is no such entry. -/
def OldW (F : EntrySet) (l : Bytes) (w : Option Pattern) : Prop :=
  (∃ ps, F l w ps) ∨ (w = none ∧ ¬∃ w ps, F l w ps)

/-- A pattern that continues after `l` has no effect. -/
def Lost (F : EntrySet) (l : Bytes) : Prop :=
  (∀ w ps, F l w ps → ps = []) ∧ ∃ x w ps, F x w ps ∧ l <+: x ∧ x ≠ l

/-- What the insertion of a pattern `l :: rest` does to a set of entries. -/
structure Effect (rest : List Token) (q : Pattern) (l : Bytes) (F F' : EntrySet) : Prop where
  whole : rest = [] → ∀ x w ps, F' x w ps ↔ (x = l ∧ w = some q ∧ OldPs F l ps) ∨ (x ≠ l ∧ F x w ps)
  lost : rest ≠ [] → Lost F l → ∀ x w ps, F' x w ps ↔ (x = l ∧ ps = [] ∧ OldW F l w) ∨ (x ≠ l ∧ F x w ps)
  more : rest ≠ [] → ¬ Lost F l → ∀ x w ps, F' x w ps ↔
    (x = l ∧ ps = (single rest q).parserChildren ∧ OldW F l w) ∨ (¬ l <+: x ∧ F x w ps)

def unionE (F G : EntrySet) : EntrySet := fun x w ps => F x w ps ∨ G x w ps
def shiftE (a : Bytes) (F : EntrySet) : EntrySet := fun x w ps => ∃ x', x = a ++ x' ∧ F x' w ps

theorem effect_congr {rest : List Token} {q : Pattern} {l : Bytes} {F F' G G' : EntrySet} (h : Effect rest q l F F')
    (h1 : ∀ x w ps, G x w ps ↔ F x w ps) (h2 : ∀ x w ps, G' x w ps ↔ F' x w ps) : Effect rest q l G G' := by
  have e1 : G = F := by funext x w ps; exact propext (h1 x w ps)
  have e2 : G' = F' := by funext x w ps; exact propext (h2 x w ps)
  rw [e1, e2]; exact h

/-- Entries that do not begin with `l` play no role. -/
theorem effect_frame {rest : List Token} {q : Pattern} {l : Bytes} {F F' G : EntrySet} (h : Effect rest q l F F')
    (hG : ∀ x w ps, G x w ps → ¬ l <+: x) : Effect rest q l (unionE F G) (unionE F' G) := by
  have hGl : ∀ w ps, ¬ G l w ps := fun w ps hg => hG _ _ _ hg (List.prefix_refl _)
  have hne : ∀ x w ps, G x w ps → x ≠ l := by rintro x w ps hg rfl; exact hGl _ _ hg
  have e1 : ∀ w ps, unionE F G l w ps ↔ F l w ps := fun w ps => by simp [unionE, hGl]
  have e2 : ∀ ps, OldPs (unionE F G) l ps ↔ OldPs F l ps := fun ps => by simp only [OldPs, e1]
  have e3 : ∀ w, OldW (unionE F G) l w ↔ OldW F l w := fun w => by simp only [OldW, e1]
  have e4 : Lost (unionE F G) l ↔ Lost F l := by
    unfold Lost
    simp only [e1]
    constructor
    · rintro ⟨h1, x, w, ps, (hf | hg), h3, h4⟩
      · exact ⟨h1, x, w, ps, hf, h3, h4⟩
      · exact absurd h3 (hG _ _ _ hg)
    · rintro ⟨h1, x, w, ps, hf, h3, h4⟩
      exact ⟨h1, x, w, ps, .inl hf, h3, h4⟩
  refine ⟨?_, ?_, ?_⟩
  · intro hr x w ps
    rw [e2]
    have := h.whole hr x w ps
    constructor
    · rintro (h1 | h1)
      · rcases this.mp h1 with h1 | ⟨h1, h2⟩
        · exact .inl h1
        · exact .inr ⟨h1, .inl h2⟩
      · exact .inr ⟨hne _ _ _ h1, .inr h1⟩
    · rintro (h1 | ⟨h1, (h2 | h2)⟩)
      · exact .inl (this.mpr (.inl h1))
      · exact .inl (this.mpr (.inr ⟨h1, h2⟩))
      · exact .inr h2
  · intro hr hl x w ps
    rw [e3]
    have := h.lost hr (e4.mp hl) x w ps
    constructor
    · rintro (h1 | h1)
      · rcases this.mp h1 with h1 | ⟨h1, h2⟩
        · exact .inl h1
        · exact .inr ⟨h1, .inl h2⟩
      · exact .inr ⟨hne _ _ _ h1, .inr h1⟩
    · rintro (h1 | ⟨h1, (h2 | h2)⟩)
      · exact .inl (this.mpr (.inl h1))
      · exact .inl (this.mpr (.inr ⟨h1, h2⟩))
      · exact .inr h2
  · intro hr hl x w ps
    rw [e3]
    have := h.more hr (fun h => hl (e4.mpr h)) x w ps
    constructor
    · rintro (h1 | h1)
      · rcases this.mp h1 with h1 | ⟨h1, h2⟩
        · exact .inl h1
        · exact .inr ⟨h1, .inl h2⟩
      · exact .inr ⟨hG _ _ _ h1, .inr h1⟩
    · rintro (h1 | ⟨h1, (h2 | h2)⟩)
      · exact .inl (this.mpr (.inl h1))
      · exact .inl (this.mpr (.inr ⟨h1, h2⟩))
      · exact .inr h2

/-- A common beginning of all texts plays no role. -/
theorem effect_shift {rest : List Token} {q : Pattern} {l : Bytes} {F F' : EntrySet} (a : Bytes) (h : Effect rest q l F F') :
    Effect rest q (a ++ l) (shiftE a F) (shiftE a F') := by
  have e0 : ∀ (F : EntrySet) x w ps, shiftE a F (a ++ x) w ps ↔ F x w ps := by
    intro F x w ps
    constructor
    · rintro ⟨x', he, h⟩; rw [List.append_cancel_left_eq] at he; subst he; exact h
    · intro h; exact ⟨x, rfl, h⟩
  have e2 : ∀ ps, OldPs (shiftE a F) (a ++ l) ps ↔ OldPs F l ps := fun ps => by simp only [OldPs, e0]
  have e3 : ∀ w, OldW (shiftE a F) (a ++ l) w ↔ OldW F l w := fun w => by simp only [OldW, e0]
  have e4 : Lost (shiftE a F) (a ++ l) ↔ Lost F l := by
    unfold Lost
    simp only [e0]
    constructor
    · rintro ⟨h1, x, w, ps, ⟨x', rfl, hf⟩, h3, h4⟩
      refine ⟨h1, x', w, ps, hf, (List.prefix_append_right_inj a).mp h3, ?_⟩
      rintro rfl; exact h4 rfl
    · rintro ⟨h1, x, w, ps, hf, h3, h4⟩
      refine ⟨h1, a ++ x, w, ps, ⟨x, rfl, hf⟩, (List.prefix_append_right_inj a).mpr h3, ?_⟩
      rw [Ne, List.append_cancel_left_eq]; exact h4
  have hne : ∀ x', a ++ x' ≠ a ++ l ↔ x' ≠ l := fun x' => by rw [Ne, List.append_cancel_left_eq]
  refine ⟨?_, ?_, ?_⟩
  · intro hr x w ps
    rw [e2]
    constructor
    · rintro ⟨x', rfl, h1⟩
      rcases (h.whole hr x' w ps).mp h1 with ⟨rfl, h1⟩ | ⟨h1, h2⟩
      · exact .inl ⟨rfl, h1⟩
      · exact .inr ⟨(hne _).mpr h1, x', rfl, h2⟩
    · rintro (⟨rfl, h1⟩ | ⟨h1, x', rfl, h2⟩)
      · exact ⟨l, rfl, (h.whole hr _ _ _).mpr (.inl ⟨rfl, h1⟩)⟩
      · exact ⟨x', rfl, (h.whole hr _ _ _).mpr (.inr ⟨(hne _).mp h1, h2⟩)⟩
  · intro hr hl x w ps
    rw [e3]
    have hl := e4.mp hl
    constructor
    · rintro ⟨x', rfl, h1⟩
      rcases (h.lost hr hl x' w ps).mp h1 with ⟨rfl, h1⟩ | ⟨h1, h2⟩
      · exact .inl ⟨rfl, h1⟩
      · exact .inr ⟨(hne _).mpr h1, x', rfl, h2⟩
    · rintro (⟨rfl, h1⟩ | ⟨h1, x', rfl, h2⟩)
      · exact ⟨l, rfl, (h.lost hr hl _ _ _).mpr (.inl ⟨rfl, h1⟩)⟩
      · exact ⟨x', rfl, (h.lost hr hl _ _ _).mpr (.inr ⟨(hne _).mp h1, h2⟩)⟩
  · intro hr hl x w ps
    rw [e3]
    have hl : ¬ Lost F l := fun h => hl (e4.mpr h)
    constructor
    · rintro ⟨x', rfl, h1⟩
      rcases (h.more hr hl x' w ps).mp h1 with ⟨rfl, h1⟩ | ⟨h1, h2⟩
      · exact .inl ⟨rfl, h1⟩
      · exact .inr ⟨fun h => h1 ((List.prefix_append_right_inj a).mp h), x', rfl, h2⟩
    · rintro (⟨rfl, h1⟩ | ⟨h1, x', rfl, h2⟩)
      · exact ⟨l, rfl, (h.more hr hl _ _ _).mpr (.inl ⟨rfl, h1⟩)⟩
      · exact ⟨x', rfl, (h.more hr hl _ _ _).mpr (.inr ⟨fun h => h1 ((List.prefix_append_right_inj a).mpr h), h2⟩)⟩

/-- Entries of a node that has just been created and updated. -/
theorem nentry_fresh {rest : List Token} (hpn : ParserNext rest) (q : Pattern) (l : Bytes) (x : Bytes) (w : Option Pattern)
    (ps : List ParserNode) : NEntry (updLit rest q (freshLit l)) x w ps ↔
      x = l ∧ (rest = [] ∧ w = some q ∧ ps = [] ∨
        rest ≠ [] ∧ w = none ∧ ps = if l = [] then [] else (single rest q).parserChildren) := by
  unfold NEntry parsersOf
  rcases updLit_cases rest q (freshLit l) with ⟨hr, h⟩ | ⟨hr, h⟩
  · rw [h]
    simp [setPat, freshLit, hr]
    intros
    by_cases h0 : l = [] <;> simp [h0]
  · rw [h]
    simp only [setChild, freshLit, true_and, Option.some.injEq, hr, false_and, false_or, ne_eq, not_false_eq_true]
    constructor
    · rintro (h1 | ⟨h0, c, x', rfl, rfl, h2⟩)
      · exact h1
      · rw [entryAt_iff, (single_parser hpn hr q).1] at h2
        simp at h2
    · intro h1; exact .inl h1

theorem not_oldPs_empty (l : Bytes) (ps : List ParserNode) : OldPs (fun _ _ _ => False) l ps ↔ ps = [] := by simp [OldPs]
theorem not_oldW_empty (l : Bytes) (w : Option Pattern) : OldW (fun _ _ _ => False) l w ↔ w = none := by simp [OldW]

/-- A new entry with a non-empty text. -/
theorem effect_fresh {rest : List Token} (hpn : ParserNext rest) (q : Pattern) {l : Bytes} (hl : l ≠ []) :
    Effect rest q l (fun _ _ _ => False) (NEntry (updLit rest q (freshLit l))) := by
  refine ⟨?_, ?_, ?_⟩
  · intro hr x w ps
    rw [nentry_fresh hpn, not_oldPs_empty]
    simp [hr]
  · rintro _ ⟨_, x, w, ps, h, _⟩
    exact h.elim
  · intro hr _ x w ps
    rw [nentry_fresh hpn, not_oldW_empty]
    simp only [hr, false_and, hl, if_false, ne_eq, not_false_eq_true, true_and, false_or, and_false, or_false]
    constructor
    · rintro ⟨h1, h2, h3⟩; exact ⟨h1, h3, h2⟩
    · rintro ⟨h1, h2, h3⟩; exact ⟨h1, h3, h2⟩

/-- An existing entry with a non-empty text. -/
theorem effect_exact {rest : List Token} (hpn : ParserNext rest) (q : Pattern) {n : LiteralNode} (hn0 : n.literal ≠ [])
    (hv : n.hasValue = true) (hent : ∀ c, n.node = some c → c.parserChildren ≠ [] ∧ ∀ m ∈ c.literalChildren, m.literal ≠ []) :
    Effect rest q n.literal (NEntry n) (NEntry (updLit rest q n)) := by
  have hbelow : ∀ c x' w ps, n.node = some c → EntryAt c x' w ps → x' ≠ [] := by
    intro c x' w ps hc h
    rw [entryAt_iff] at h
    obtain ⟨m, hm, h⟩ := h
    intro h0
    have := nentry_rk h
    rw [h0] at this
    exact (hent c hc).2 m hm (rk_eq_nil.mp this.symm)
  have hat : ∀ w ps, NEntry n n.literal w ps ↔ w = n.pattern ∧ ps = parsersOf n := by
    intro w ps
    constructor
    · rintro (⟨_, _, h⟩ | ⟨_, c, x', hc, he, h⟩)
      · exact h
      · have : x' = [] := by simpa using he
        exact absurd this (hbelow c x' w ps hc h)
    · rintro ⟨rfl, rfl⟩; exact .inl ⟨hv, rfl, rfl, rfl⟩
  have hps : ∀ ps, OldPs (NEntry n) n.literal ps ↔ ps = parsersOf n := by
    intro ps
    simp only [OldPs, hat]
    constructor
    · rintro (⟨w, _, h⟩ | ⟨_, h⟩)
      · exact h
      · exact absurd ⟨_, _, rfl, rfl⟩ h
    · rintro rfl; exact .inl ⟨_, rfl, rfl⟩
  have hw : ∀ w, OldW (NEntry n) n.literal w ↔ w = n.pattern := by
    intro w
    simp only [OldW, hat]
    constructor
    · rintro (⟨w, h, _⟩ | ⟨_, h⟩)
      · exact h
      · exact absurd ⟨_, _, rfl, rfl⟩ h
    · rintro rfl; exact .inl ⟨_, rfl, rfl⟩
  have hall : ∀ x w ps, NEntry n x w ps → n.literal <+: x := by
    rintro x w ps (⟨_, rfl, _⟩ | ⟨_, c, x', _, rfl, _⟩)
    · exact List.prefix_refl _
    · exact List.prefix_append _ _
  have hlost : ¬ Lost (NEntry n) n.literal := by
    rintro ⟨h1, x, w, ps, h2, h3, h4⟩
    have h5 := h1 _ _ ((hat _ _).mpr ⟨rfl, rfl⟩)
    rcases h2 with ⟨_, rfl, _⟩ | ⟨_, c, x', hc, rfl, h⟩
    · exact h4 rfl
    · unfold parsersOf at h5
      rw [if_neg hn0, hc] at h5
      exact (hent c hc).1 h5
  refine ⟨?_, fun _ h => absurd h hlost, ?_⟩
  · intro hr x w ps
    rw [hps]
    rcases updLit_cases rest q n with ⟨_, h⟩ | ⟨h, _⟩
    · rw [h]
      constructor
      · rintro (⟨_, rfl, rfl, rfl⟩ | ⟨_, c, x', hc, rfl, h⟩)
        · exact .inl ⟨rfl, rfl, rfl⟩
        · refine .inr ⟨?_, .inr ⟨hn0, c, x', hc, rfl, h⟩⟩
          simpa [setPat] using hbelow c x' w ps hc h
      · rintro (⟨rfl, rfl, rfl⟩ | ⟨h1, (⟨_, rfl, _⟩ | ⟨_, c, x', hc, rfl, h⟩)⟩)
        · exact .inl ⟨hv, rfl, rfl, rfl⟩
        · exact absurd rfl h1
        · exact .inr ⟨hn0, c, x', hc, rfl, h⟩
    · exact absurd hr h
  · intro hr _ x w ps
    rw [hw]
    rcases updLit_cases rest q n with ⟨h, _⟩ | ⟨_, h⟩
    · exact absurd h hr
    · rw [h]
      constructor
      · rintro (⟨_, rfl, rfl, rfl⟩ | ⟨_, c, x', hc, rfl, h⟩)
        · refine .inl ⟨rfl, ?_, rfl⟩
          simp [parsersOf, setChild, hn0]
        · simp [setChild] at hc
          subst hc
          rw [entryAt_iff, (single_parser hpn hr q).1] at h
          simp at h
      · rintro (⟨rfl, rfl, rfl⟩ | ⟨h1, h2⟩)
        · exact .inl ⟨hv, rfl, rfl, by simp [parsersOf, setChild, hn0]⟩
        · exact absurd (hall _ _ _ h2) h1

/-- The entry with the empty text below an inner node: new or existing. -/
theorem effect_nil {rest : List Token} {q : Pattern} {F F' G : EntrySet}
    (hF : (∀ x w ps, ¬ F x w ps) ∨ ∃ w0, ∀ x w ps, F x w ps ↔ x = [] ∧ w = w0 ∧ ps = [])
    (hF' : ∀ x w ps, F' x w ps ↔ x = [] ∧ ps = [] ∧ if rest = [] then w = some q else OldW F [] w)
    (hG : ∀ x w ps, G x w ps → x ≠ []) (hex : ∃ x w ps, G x w ps) : Effect rest q [] (unionE F G) (unionE F' G) := by
  have hG0 : ∀ w ps, ¬ G [] w ps := fun w ps h => hG _ _ _ h rfl
  have e1 : ∀ w ps, unionE F G [] w ps ↔ F [] w ps := fun w ps => by simp [unionE, hG0]
  have hx : ∀ x w ps, x ≠ [] → (unionE F G x w ps ↔ G x w ps) := by
    intro x w ps h
    unfold unionE
    constructor
    · rintro (h1 | h1)
      · rcases hF with hF | ⟨w0, hF⟩
        · exact absurd h1 (hF _ _ _)
        · exact absurd ((hF _ _ _).mp h1).1 h
      · exact h1
    · exact .inr
  have e2 : ∀ ps, OldPs (unionE F G) [] ps ↔ ps = [] := by
    intro ps
    simp only [OldPs, e1]
    rcases hF with hF | ⟨w0, hF⟩
    · simp [hF]
    · simp [hF]
  have e3 : ∀ w, OldW (unionE F G) [] w ↔ OldW F [] w := fun w => by simp only [OldW, e1]
  have e4 : Lost (unionE F G) [] := by
    refine ⟨?_, ?_⟩
    · intro w ps h
      rw [e1] at h
      rcases hF with hF | ⟨w0, hF⟩
      · exact absurd h (hF _ _ _)
      · exact ((hF _ _ _).mp h).2.2
    · obtain ⟨x, w, ps, h⟩ := hex
      exact ⟨x, w, ps, .inr h, List.nil_prefix, hG _ _ _ h⟩
  have key : ∀ (Q : Option Pattern → Prop), (∀ x w ps, F' x w ps ↔ x = [] ∧ ps = [] ∧ Q w) → ∀ x w ps,
      unionE F' G x w ps ↔ (x = [] ∧ ps = [] ∧ Q w) ∨ (x ≠ [] ∧ unionE F G x w ps) := by
    intro Q hQ x w ps
    constructor
    · rintro (h | h)
      · exact .inl ((hQ _ _ _).mp h)
      · exact .inr ⟨hG _ _ _ h, .inr h⟩
    · rintro (h | ⟨h1, h2⟩)
      · exact .inl ((hQ _ _ _).mpr h)
      · exact .inr ((hx _ _ _ h1).mp h2)
  refine ⟨?_, ?_, fun _ h => absurd e4 h⟩
  · intro hr x w ps
    rw [key (fun w => w = some q) (by intro x w ps; rw [hF', if_pos hr]) x w ps]
    simp only [e2]
    constructor
    · rintro (⟨h1, h2, h3⟩ | h)
      · exact .inl ⟨h1, h3, h2⟩
      · exact .inr h
    · rintro (⟨h1, h2, h3⟩ | h)
      · exact .inl ⟨h1, h3, h2⟩
      · exact .inr h
  · intro hr _ x w ps
    rw [key (fun w => OldW F [] w) (by intro x w ps; rw [hF', if_neg hr]) x w ps]
    simp only [e3]

/-- The entries of the siblings of a node. -/
def others (A B : List LiteralNode) : EntrySet := fun x w ps => ∃ m, (m ∈ A ∨ m ∈ B) ∧ NEntry m x w ps

theorem entry_split_of {t : SuffixTree} {A B : List LiteralNode} {n : LiteralNode} (ht : t.literalChildren = A ++ n :: B) (x : Bytes)
    (w : Option Pattern) (ps : List ParserNode) : EntryAt t x w ps ↔ unionE (NEntry n) (others A B) x w ps := by
  rw [entryAt_iff, ht]
  unfold unionE others
  constructor
  · rintro ⟨m, hm, h⟩
    simp at hm
    rcases hm with hm | rfl | hm
    · exact .inr ⟨m, .inl hm, h⟩
    · exact .inl h
    · exact .inr ⟨m, .inr hm, h⟩
  · rintro (h | ⟨m, hm, h⟩)
    · exact ⟨n, by simp, h⟩
    · exact ⟨m, by rcases hm with hm | hm <;> simp [hm], h⟩

theorem entry_split (t : SuffixTree) (A B : List LiteralNode) (n : LiteralNode) (x : Bytes) (w : Option Pattern) (ps : List ParserNode) :
    EntryAt { t with literalChildren := A ++ n :: B } x w ps ↔ unionE (NEntry n) (others A B) x w ps :=
  entry_split_of rfl x w ps

theorem others_rk {A B : List LiteralNode} {n : LiteralNode} (hs : SortedLits P (A ++ n :: B)) {x : Bytes} {w : Option Pattern}
    {ps : List ParserNode} (h : others A B x w ps) : rk x ≠ rk n.literal := by
  obtain ⟨m, hm, h⟩ := h
  rw [nentry_rk h]
  have h1 := hs.sorted
  rw [List.pairwise_append, List.pairwise_cons] at h1
  rcases hm with hm | hm
  · have := h1.2.2 m hm n (by simp); omega
  · have := h1.2.1.1 m hm; omega

theorem effect_new_nil {rest : List Token} (hpn : ParserNext rest) (q : Pattern) {G : EntrySet}
    (hG : ∀ x w ps, G x w ps → x ≠ []) (hex : ∃ x w ps, G x w ps) :
    Effect rest q [] G (unionE (NEntry (updLit rest q (freshLit []))) G) := by
  refine effect_congr (effect_nil (F := fun _ _ _ => False) (.inl fun _ _ _ h => h) ?_ hG hex) (fun x w ps => by simp [unionE])
    (fun _ _ _ => Iff.rfl)
  intro x w ps
  rw [nentry_fresh hpn, not_oldW_empty]
  simp only [if_true]
  split
  · rename_i hr; simp [hr, and_comm]
  · rename_i hr; simp [hr, and_comm]

/-- Insertion has the effect described. -/
theorem ins_effect {rest : List Token} (hpn : ParserNext rest) {q : Pattern} {t t' : SuffixTree} {l : Bytes}
    (h : Ins (updLit rest q) t l t') (hi : Inv P t) (hs : TShape t)
    (hnil : l = [] → ∃ m ∈ t.literalChildren, m.literal ≠ []) : Effect rest q l (EntryAt t) (EntryAt t') := by
  have hg := goodUpd_updLit rest q
  induction h with
  | miss t l A B ht hA hB =>
    have hne : ∀ x w ps, others A B x w ps → rk x ≠ rk l := by
      rintro x w ps ⟨m, hm, h⟩
      rw [nentry_rk h]
      rcases hm with hm | hm
      · have := hA m hm; omega
      · have := hB m hm; omega
    have e0 : ∀ x w ps, EntryAt t x w ps ↔ others A B x w ps := by
      intro x w ps
      rw [entryAt_iff, ht]
      simp [others]
    by_cases hl : l = []
    · subst hl
      refine effect_congr (effect_new_nil hpn q (G := others A B) ?_ ?_) e0 (fun x w ps => entry_split t A B _ x w ps)
      · intro x w ps h h0
        exact hne x w ps h (by rw [h0])
      · obtain ⟨m, hm, _⟩ := hnil rfl
        obtain ⟨x, w, ps, h⟩ := nentry_exists hs hi hm
        exact ⟨x, w, ps, (e0 _ _ _).mp (entryAt_iff.mpr ⟨m, hm, h⟩)⟩
    · refine effect_congr (effect_frame (effect_fresh hpn q hl) (G := others A B) ?_) ?_ (fun x w ps => entry_split t A B _ x w ps)
      · intro x w ps h hp
        exact hne x w ps h (prefix_rk hp hl).symm
      · intro x w ps
        rw [e0]; simp [unionE]
  | exact t l A B n ht hl hv =>
    have hn : n ∈ t.literalChildren := by rw [ht]; simp
    have hsort := hi.lits; rw [ht] at hsort
    have e0 : ∀ x w ps, EntryAt t x w ps ↔ unionE (NEntry n) (others A B) x w ps := entry_split_of ht
    subst hl
    by_cases hl : n.literal = []
    · rw [hl]
      have hn1 : ∀ x w ps, NEntry n x w ps ↔ x = [] ∧ w = n.pattern ∧ ps = [] := by
        intro x w ps
        simp [NEntry, parsersOf, hl, hv]
      refine effect_congr (effect_nil (F := NEntry n) (F' := NEntry (updLit rest q n)) (.inr ⟨n.pattern, hn1⟩) ?_ ?_ ?_) e0
        (fun x w ps => entry_split t A B _ x w ps)
      · intro x w ps
        have hOld : OldW (NEntry n) [] w ↔ w = n.pattern := by
          simp [OldW, hn1]
        rw [hOld]
        rcases updLit_cases rest q n with ⟨hr, h⟩ | ⟨hr, h⟩
        · rw [h, if_pos hr]
          simp [NEntry, parsersOf, setPat, hl, hv, and_comm]
        · rw [h, if_neg hr]
          simp [NEntry, parsersOf, setChild, hl, hv, and_comm]
      · intro x w ps h h0
        exact others_rk hsort h (by rw [h0, hl])
      · obtain ⟨m, hm, hm0⟩ := hnil hl
        obtain ⟨x, w, ps, h⟩ := nentry_exists hs hi hm
        rw [ht] at hm
        simp at hm
        rcases hm with hm | rfl | hm
        · exact ⟨x, w, ps, m, .inl hm, h⟩
        · exact absurd hl hm0
        · exact ⟨x, w, ps, m, .inr hm, h⟩
    · refine effect_congr (effect_frame (effect_exact hpn q hl hv (hs.entry n hn hv hl)) (G := others A B) ?_) e0
        (fun x w ps => entry_split t A B _ x w ps)
      intro x w ps h hp
      exact others_rk hsort h (prefix_rk hp hl).symm
  | split t l A B n ht hr hsp hpos hrk =>
    have hn : n ∈ t.literalChildren := by rw [ht]; simp
    have hn0 : n.literal ≠ [] := split_ne_nil hr (split_ne hsp)
    have hl0 : l ≠ [] := by
      intro h0
      rw [h0] at hr
      exact hn0 (rk_eq_nil.mp hr)
    have hsort := hi.lits; rw [ht] at hsort
    have e0 : ∀ x w ps, EntryAt t x w ps ↔ unionE (NEntry n) (others A B) x w ps := entry_split_of ht
    refine effect_congr (effect_frame (G := others A B) (F := NEntry n) (F' := NEntry (splitNode (updLit rest q) n l)) ?_ ?_) e0
        (fun x w ps => entry_split t A B _ x w ps)
    · have htk := cpl_take n.literal l
      have el : l.take (commonPrefixLen n.literal l) ++ l.drop (commonPrefixLen n.literal l) = l := by simp
      have en : l.take (commonPrefixLen n.literal l) ++ n.literal.drop (commonPrefixLen n.literal l) = n.literal := by
        rw [← htk]; simp
      generalize hcpl : commonPrefixLen n.literal l = k at *
      have htake0 : l.take k ≠ [] := by
        intro h0
        have := rk_take (l := l) hpos
        rw [h0] at this
        exact hl0 (rk_eq_nil.mp this.symm)
      let right : LiteralNode := { n with literal := n.literal.drop k }
      let left : LiteralNode := updLit rest q (freshLit (l.drop k))
      -- a leaf if nothing of the label is left
      have hleaf : n.literal.drop k = [] → n.node = none := by
        intro h0
        rw [h0, List.append_nil] at en
        rcases hsp with h1 | ⟨h1, _⟩
        · exact absurd ⟨l.drop k, by rw [← en]; exact el⟩ h1
        · exact h1
      have hright : ∀ x w ps, NEntry n x w ps ↔ shiftE (l.take k) (NEntry right) x w ps := by
        intro x w ps
        have hpo : parsersOf right = parsersOf n := by
          unfold parsersOf
          by_cases h0 : n.literal.drop k = []
          · rw [if_pos (by exact h0), if_neg hn0, hleaf h0]
          · rw [if_neg (by exact h0), if_neg hn0]
        constructor
        · rintro (⟨hv, rfl, rfl, rfl⟩ | ⟨_, c, x', hc, rfl, h⟩)
          · exact ⟨n.literal.drop k, en.symm, .inl ⟨hv, rfl, rfl, hpo.symm⟩⟩
          · refine ⟨n.literal.drop k ++ x', by rw [← List.append_assoc, en], .inr ⟨?_, c, x', hc, rfl, h⟩⟩
            intro h0
            rw [hleaf h0] at hc; simp at hc
        · rintro ⟨x', rfl, (⟨hv, rfl, rfl, rfl⟩ | ⟨_, c, x', hc, rfl, h⟩)⟩
          · exact .inl ⟨hv, en, rfl, hpo⟩
          · refine .inr ⟨hn0, c, x', hc, ?_, h⟩
            rw [← List.append_assoc]
            show l.take k ++ n.literal.drop k ++ x' = n.literal ++ x'
            rw [en]
      have hnew : ∀ x w ps, NEntry (splitNode (updLit rest q) n l) x w ps ↔
          shiftE (l.take k) (unionE (NEntry left) (NEntry right)) x w ps := by
        intro x w ps
        constructor
        · rintro (⟨hv, _⟩ | ⟨_, c, x', hc, rfl, h⟩)
          · simp [splitNode] at hv
          · simp [splitNode] at hc; subst hc
            rw [entryAt_iff] at h
            obtain ⟨m, hm, h⟩ := h
            refine ⟨x', by simp [splitNode, hcpl], ?_⟩
            rcases (splitChildren_mem _ _ _ _).mp hm with rfl | rfl
            · rw [hcpl] at h; exact .inl h
            · rw [hcpl] at h; exact .inr h
        · rintro ⟨x', rfl, h⟩
          refine .inr ⟨by simpa [splitNode, hcpl] using htake0, _, x', rfl, by simp [splitNode, hcpl], ?_⟩
          rw [entryAt_iff]
          rcases h with h | h
          · exact ⟨left, (splitChildren_mem _ _ _ _).mpr (.inl (by rw [hcpl])), h⟩
          · exact ⟨right, (splitChildren_mem _ _ _ _).mpr (.inr (by rw [hcpl])), h⟩
      have main : Effect rest q (l.drop k) (NEntry right) (unionE (NEntry left) (NEntry right)) := by
        by_cases hld : l.drop k = []
        · have hnd : n.literal.drop k ≠ [] := by
            intro h0; apply hrk; rw [h0, hld]
          show Effect rest q (l.drop k) (NEntry right) (unionE (NEntry (updLit rest q (freshLit (l.drop k)))) (NEntry right))
          rw [hld]
          refine effect_new_nil hpn q ?_ ?_
          · intro x w ps h h0
            have := nentry_rk h
            rw [h0] at this
            exact hnd (rk_eq_nil.mp this.symm)
          · obtain ⟨x, w, ps, h⟩ := nentry_exists hs hi hn
            obtain ⟨x', _, h⟩ := (hright _ _ _).mp h
            exact ⟨x', w, ps, h⟩
        · refine effect_congr (effect_frame (effect_fresh hpn q hld) (G := NEntry right) ?_) (fun x w ps => by simp [unionE])
            (fun _ _ _ => Iff.rfl)
          intro x w ps h hp
          have := nentry_rk h
          rw [← prefix_rk hp hld] at this
          exact hrk this.symm
      have := effect_shift (l.take k) main
      rw [el] at this
      exact effect_congr this hright hnew
    · intro x w ps h hp
      exact others_rk hsort h (by rw [hr]; exact (prefix_rk hp hl0).symm)
  | down t l A B n c c' ht hr hp hc hne hins ih =>
    have hn : n ∈ t.literalChildren := by rw [ht]; simp
    have hn0 : n.literal ≠ [] := by
      intro h0
      cases hv : n.hasValue with
      | true =>
        refine hne ⟨hv, ?_⟩
        rw [h0] at hr ⊢
        exact (rk_eq_nil.mp hr.symm).symm
      | false => exact (hi.inner n hn hv).1 h0
    have hl0 : l ≠ [] := by
      intro h0
      rw [h0] at hr
      exact hn0 (rk_eq_nil.mp hr)
    have hsort := hi.lits; rw [ht] at hsort
    have e0 : ∀ x w ps, EntryAt t x w ps ↔ unionE (NEntry n) (others A B) x w ps := entry_split_of ht
    refine effect_congr (effect_frame (G := others A B) (F := NEntry n) (F' := NEntry { n with node := some c' }) ?_ ?_) e0
        (fun x w ps => entry_split t A B _ x w ps)
    · obtain ⟨y, rfl⟩ := hp
      simp only [List.drop_left] at ih hins
      have ih := ih (hi.child n hn c hc) (hs.child n hn hn0 c hc) (by
        rintro rfl
        have hv : n.hasValue = false := by
          cases hv : n.hasValue with
          | true => exact absurd ⟨hv, by simp⟩ hne
          | false => rfl
        obtain ⟨d, hd, _, m1, hm1, m2, hm2, h3⟩ := hs.inner n hn hv
        rw [hc] at hd; simp at hd; subst hd
        by_cases h1 : m1.literal = []
        · refine ⟨m2, hm2, ?_⟩
          intro h2; rw [h1, h2] at h3; exact h3 rfl
        · exact ⟨m1, hm1, h1⟩)
      have hpc : c'.parserChildren = c.parserChildren := (ins_shape hpn hins (hi.child n hn c hc) (hs.child n hn hn0 c hc)).2.1
      let own : EntrySet := fun x w ps => n.hasValue = true ∧ x = n.literal ∧ w = n.pattern ∧ ps = parsersOf n
      refine effect_congr (effect_frame (effect_shift n.literal ih) (G := own) ?_) ?_ ?_
      · rintro x w ps ⟨hv, rfl, _⟩ hp
        have := hp.length_le
        have hy : y = [] := by rw [List.length_append] at this; exact List.length_eq_zero_iff.mp (by omega)
        exact hne ⟨hv, by simp [hy]⟩
      · intro x w ps
        unfold NEntry unionE shiftE
        rw [or_comm]
        simp only [hn0, ne_eq, not_false_eq_true, true_and, hc, Option.some.injEq]
        refine or_congr ?_ Iff.rfl
        constructor
        · rintro ⟨_, x', rfl, rfl, h⟩; exact ⟨x', rfl, h⟩
        · rintro ⟨x', rfl, h⟩; exact ⟨c, x', rfl, rfl, h⟩
      · intro x w ps
        unfold NEntry unionE shiftE
        rw [or_comm]
        have hpo : parsersOf { n with node := some c' } = parsersOf n := by
          unfold parsersOf
          simp only [hn0, if_false, hc, hpc]
        simp only [hn0, ne_eq, not_false_eq_true, true_and, Option.some.injEq, hpo]
        refine or_congr ?_ Iff.rfl
        constructor
        · rintro ⟨_, x', rfl, rfl, h⟩; exact ⟨x', rfl, h⟩
        · rintro ⟨x', rfl, h⟩; exact ⟨c', x', rfl, rfl, h⟩
    · intro x w ps h hp'
      exact others_rk hsort h (by rw [hr]; exact (prefix_rk hp' hl0).symm)

end Verif
