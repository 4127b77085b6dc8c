import Verif.Proofs.TrieSingle
/-! Families of patterns whose leading literals are pairwise incomparable. -/
namespace Verif
open Spec

/-- The entries reached through inner nodes only, with the literal leading to them. -/
inductive HeadAt : SuffixTree → Bytes → Option Pattern → Option SuffixTree → Prop
  | here (t : SuffixTree) (n : LiteralNode) (hn : n ∈ t.literalChildren) (hv : n.hasValue = true) :
      HeadAt t n.literal n.pattern n.node
  | down (t : SuffixTree) (n : LiteralNode) (c : SuffixTree) (h : Bytes) (pat : Option Pattern) (ch : Option SuffixTree)
      (hn : n ∈ t.literalChildren) (hv : n.hasValue = false) (hc : n.node = some c) (hh : HeadAt c h pat ch) :
      HeadAt t (n.literal ++ h) pat ch

/-- No parser children at the inner nodes, no empty labels, and an entry below every inner node. -/
inductive PF : SuffixTree → Prop
  | mk (t : SuffixTree) (hp : t.parserChildren = []) (hne : ∀ n ∈ t.literalChildren, n.literal ≠ [])
      (hin : ∀ n ∈ t.literalChildren, n.hasValue = false → ∃ h pat ch, ∃ c, n.node = some c ∧ HeadAt c h pat ch)
      (inner : ∀ n ∈ t.literalChildren, n.hasValue = false → ∀ c, n.node = some c → PF c) : PF t

theorem PF.parsers {t : SuffixTree} (h : PF t) : t.parserChildren = [] := by cases h; assumption
theorem PF.ne {t : SuffixTree} (h : PF t) : ∀ n ∈ t.literalChildren, n.literal ≠ [] := by cases h; assumption
theorem PF.hin {t : SuffixTree} (h : PF t) : ∀ n ∈ t.literalChildren, n.hasValue = false →
    ∃ h pat ch, ∃ c, n.node = some c ∧ HeadAt c h pat ch := by cases h; assumption
theorem PF.inner {t : SuffixTree} (h : PF t) : ∀ n ∈ t.literalChildren, n.hasValue = false → ∀ c, n.node = some c → PF c := by
  cases h; assumption

theorem pf_replace {t : SuffixTree} {A B : List LiteralNode} {n' : LiteralNode} (h : PF t)
    (hsub : ∀ m, m ∈ A ∨ m ∈ B → m ∈ t.literalChildren) (hne : n'.literal ≠ [])
    (hin : n'.hasValue = false → ∃ h pat ch, ∃ c, n'.node = some c ∧ HeadAt c h pat ch)
    (inner : n'.hasValue = false → ∀ c, n'.node = some c → PF c) : PF { t with literalChildren := A ++ n' :: B } := by
  refine .mk _ h.parsers ?_ ?_ ?_
  · intro m hm
    simp at hm
    rcases hm with hm | rfl | hm
    · exact h.ne m (hsub m (.inl hm))
    · exact hne
    · exact h.ne m (hsub m (.inr hm))
  · intro m hm
    simp at hm
    rcases hm with hm | rfl | hm
    · exact h.hin m (hsub m (.inl hm))
    · exact hin
    · exact h.hin m (hsub m (.inr hm))
  · intro m hm
    simp at hm
    rcases hm with hm | rfl | hm
    · exact h.inner m (hsub m (.inl hm))
    · exact inner
    · exact h.inner m (hsub m (.inr hm))

def NHead (n : LiteralNode) (h : Bytes) (pat : Option Pattern) (ch : Option SuffixTree) : Prop :=
  (n.hasValue = true ∧ h = n.literal ∧ pat = n.pattern ∧ ch = n.node) ∨
  (n.hasValue = false ∧ ∃ c h', n.node = some c ∧ h = n.literal ++ h' ∧ HeadAt c h' pat ch)

theorem headAt_iff {t : SuffixTree} {h : Bytes} {pat : Option Pattern} {ch : Option SuffixTree} :
    HeadAt t h pat ch ↔ ∃ n ∈ t.literalChildren, NHead n h pat ch := by
  constructor
  · intro hh
    cases hh with
    | here _ n hn hv => exact ⟨n, hn, .inl ⟨hv, rfl, rfl, rfl⟩⟩
    | down _ n c h _ _ hn hv hc hh => exact ⟨n, hn, .inr ⟨hv, c, h, hc, rfl, hh⟩⟩
  · rintro ⟨n, hn, (⟨hv, rfl, rfl, rfl⟩ | ⟨hv, c, h', hc, rfl, hh⟩)⟩
    · exact .here t n hn hv
    · exact .down t n c h' pat ch hn hv hc hh

theorem headAt_replace {t : SuffixTree} {A B : List LiteralNode} {n' : LiteralNode} {h : Bytes} {pat : Option Pattern}
    {ch : Option SuffixTree} : HeadAt { t with literalChildren := A ++ n' :: B } h pat ch ↔
      NHead n' h pat ch ∨ ∃ m, (m ∈ A ∨ m ∈ B) ∧ NHead m h pat ch := by
  rw [headAt_iff]
  constructor
  · rintro ⟨m, hm, h1⟩
    simp at hm
    rcases hm with hm | rfl | hm
    · exact .inr ⟨m, .inl hm, h1⟩
    · exact .inl h1
    · exact .inr ⟨m, .inr hm, h1⟩
  · rintro (h1 | ⟨m, hm, h1⟩)
    · exact ⟨n', by simp, h1⟩
    · exact ⟨m, by rcases hm with hm | hm <;> simp [hm], h1⟩

theorem ins_heads {g : LiteralNode → LiteralNode} (hg : GoodUpd g) {fp : Option Pattern} {fn : Option SuffixTree}
    (hfresh : ∀ l, (g (freshLit l)).pattern = fp ∧ (g (freshLit l)).node = fn) {t t' : SuffixTree} {l : Bytes}
    (h : Ins g t l t') (hpf : PF t) (hl0 : l ≠ []) (hinc : ∀ h pat ch, HeadAt t h pat ch → ¬ h <+: l ∧ ¬ l <+: h) :
    PF t' ∧ ∀ h pat ch, HeadAt t' h pat ch ↔ HeadAt t h pat ch ∨ (h = l ∧ pat = fp ∧ ch = fn) := by
  induction h with
  | miss t l A B ht hA hB =>
    have hvf : (g (freshLit l)).hasValue = true := hg.hasValue _
    refine ⟨pf_replace hpf (by intro m hm; rw [ht]; simpa using hm) (by rw [hg.literal]; exact hl0) (by simp [hvf]) (by simp [hvf]), ?_⟩
    · intro h pat ch
      rw [headAt_replace, headAt_iff (t := t), ht]
      have : NHead (g (freshLit l)) h pat ch ↔ (h = l ∧ pat = fp ∧ ch = fn) := by
        unfold NHead
        rw [hvf, (hfresh l).1, (hfresh l).2, hg.literal]
        simp [freshLit]
      rw [this]
      simp only [List.mem_append]
      exact or_comm
  | exact t l A B n ht hl hv =>
    have := hinc n.literal n.pattern n.node (.here t n (by rw [ht]; simp) hv)
    rw [hl] at this
    exact absurd (List.prefix_refl _) this.1
  | split t l A B n ht hr hs hpos hrk =>
    have hn : n ∈ t.literalChildren := by rw [ht]; simp
    have htk := cpl_take n.literal l
    have el : l.take (commonPrefixLen n.literal l) ++ l.drop (commonPrefixLen n.literal l) = l := by simp
    have en : l.take (commonPrefixLen n.literal l) ++ n.literal.drop (commonPrefixLen n.literal l) = n.literal := by
      rw [← htk]; simp
    have hvf : ∀ l, (g (freshLit l)).hasValue = true := fun l => hg.hasValue _
    have hld : l.drop (commonPrefixLen n.literal l) ≠ [] := by
      intro h0
      rw [h0, List.append_nil] at el
      rw [el] at en
      have hpre : l <+: n.literal := ⟨_, en⟩
      cases hv : n.hasValue with
      | true => exact (hinc _ _ _ (.here t n hn hv)).2 hpre
      | false =>
        obtain ⟨h, pat, ch, c, hc, hh⟩ := hpf.hin n hn hv
        exact (hinc _ _ _ (.down t n c h pat ch hn hv hc hh)).2 (hpre.trans (List.prefix_append _ _))
    have hnd : n.literal.drop (commonPrefixLen n.literal l) ≠ [] := by
      intro h0
      rw [h0, List.append_nil] at en
      have hpre : n.literal <+: l := ⟨_, by rw [← en]; exact el⟩
      rcases hs with h1 | ⟨h1, _⟩
      · exact h1 hpre
      · cases hv : n.hasValue with
        | true => exact (hinc _ _ _ (.here t n hn hv)).1 hpre
        | false =>
          obtain ⟨h, pat, ch, c, hc, hh⟩ := hpf.hin n hn hv
          rw [h1] at hc; simp at hc
    refine ⟨pf_replace hpf (by intro m hm; rw [ht]; rcases hm with hm | hm <;> simp [hm]) ?_ ?_ ?_, ?_⟩
    · simp only [splitNode]
      intro h0
      have := congrArg rk h0
      rw [rk_take hpos] at this
      exact hl0 (rk_eq_nil.mp this)
    · intro _
      refine ⟨_, _, _, _, rfl, .here _ _ ((splitChildren_mem _ _ _ _).mpr (.inl rfl)) (hvf _)⟩
    · intro _ c hc
      simp [splitNode] at hc; subst hc
      refine .mk _ rfl ?_ ?_ ?_
      · intro m hm
        rcases (splitChildren_mem _ _ _ _).mp hm with rfl | rfl
        · rw [hg.literal]; exact hld
        · exact hnd
      · intro m hm hv
        rcases (splitChildren_mem _ _ _ _).mp hm with rfl | rfl
        · rw [hvf] at hv; simp at hv
        · exact hpf.hin n hn hv
      · intro m hm hv c hc
        rcases (splitChildren_mem _ _ _ _).mp hm with rfl | rfl
        · rw [hvf] at hv; simp at hv
        · exact hpf.inner n hn hv c hc
    · intro h pat ch
      rw [headAt_replace, headAt_iff (t := t), ht]
      have : NHead (splitNode g n l) h pat ch ↔ NHead n h pat ch ∨ (h = l ∧ pat = fp ∧ ch = fn) := by
        constructor
        · rintro (⟨hv, _⟩ | ⟨_, c, h', hc, rfl, hh⟩)
          · simp [splitNode] at hv
          · simp [splitNode] at hc; subst hc
            rw [headAt_iff] at hh
            obtain ⟨m, hm, hh⟩ := hh
            rcases (splitChildren_mem _ _ _ _).mp hm with rfl | rfl
            · rcases hh with ⟨_, rfl, rfl, rfl⟩ | ⟨hv, _⟩
              · right
                rw [hg.literal, (hfresh _).1, (hfresh _).2]
                simp [splitNode, freshLit]
              · rw [hvf] at hv; simp at hv
            · left
              rcases hh with ⟨hv, rfl, rfl, rfl⟩ | ⟨hv, c, h2, hc, rfl, hh⟩
              · exact .inl ⟨hv, by simp only [splitNode]; exact en, rfl, rfl⟩
              · refine .inr ⟨hv, c, h2, hc, ?_, hh⟩
                simp only [splitNode]
                rw [← List.append_assoc, en]
        · rintro (hh | ⟨rfl, rfl, rfl⟩)
          · refine .inr ⟨rfl, ⟨splitChildren g n l, []⟩, ?_⟩
            rcases hh with ⟨hv, rfl, rfl, rfl⟩ | ⟨hv, c, h2, hc, rfl, hh⟩
            · refine ⟨n.literal.drop (commonPrefixLen n.literal l), rfl, by simp only [splitNode]; exact en.symm, ?_⟩
              rw [headAt_iff]
              exact ⟨_, (splitChildren_mem _ _ _ _).mpr (.inr rfl), .inl ⟨hv, rfl, rfl, rfl⟩⟩
            · refine ⟨n.literal.drop (commonPrefixLen n.literal l) ++ h2, rfl, ?_, ?_⟩
              · simp only [splitNode]
                rw [← List.append_assoc, en]
              · rw [headAt_iff]
                exact ⟨_, (splitChildren_mem _ _ _ _).mpr (.inr rfl), .inr ⟨hv, c, h2, hc, rfl, hh⟩⟩
          · refine .inr ⟨rfl, _, h.drop (commonPrefixLen n.literal h), rfl, by simp only [splitNode]; exact el.symm, ?_⟩
            rw [headAt_iff]
            refine ⟨_, (splitChildren_mem _ _ _ _).mpr (.inl rfl), .inl ⟨hvf _, ?_, ?_, ?_⟩⟩
            · rw [hg.literal]; rfl
            · rw [(hfresh _).1]
            · rw [(hfresh _).2]
      rw [this]
      simp only [List.mem_append, List.mem_cons]
      constructor
      · rintro ((h1 | h1) | ⟨m, hm, h1⟩)
        · exact .inl ⟨n, .inr (.inl rfl), h1⟩
        · exact .inr h1
        · exact .inl ⟨m, by rcases hm with hm | hm <;> simp [hm], h1⟩
      · rintro (⟨m, hm, h1⟩ | h1)
        · rcases hm with hm | rfl | hm
          · exact .inr ⟨m, .inl hm, h1⟩
          · exact .inl (.inl h1)
          · exact .inr ⟨m, .inr hm, h1⟩
        · exact .inl (.inr h1)
  | down t l A B n c c' ht hr hp hc hne _ ih =>
    have hn : n ∈ t.literalChildren := by rw [ht]; simp
    cases hv : n.hasValue with
    | true =>
      have := hinc n.literal n.pattern n.node (.here t n hn hv)
      exact absurd hp this.1
    | false =>
      obtain ⟨y, rfl⟩ := hp
      simp only [List.drop_left] at ih
      have hy0 : y ≠ [] := by
        rintro rfl
        obtain ⟨h, pat, ch, c, hc, hh⟩ := hpf.hin n hn hv
        refine (hinc _ _ _ (.down t n c h pat ch hn hv hc hh)).2 ?_
        simp
      obtain ⟨ih1, ih2⟩ := ih (hpf.inner n hn hv c hc) hy0 (by
        intro h pat ch hh
        have := hinc _ _ _ (.down t n c h pat ch hn hv hc hh)
        rw [List.prefix_append_right_inj, List.prefix_append_right_inj] at this
        exact this)
      refine ⟨pf_replace hpf (by intro m hm; rw [ht]; rcases hm with hm | hm <;> simp [hm]) (hpf.ne n hn) ?_ ?_, ?_⟩
      · intro _
        exact ⟨y, fp, fn, c', rfl, (ih2 _ _ _).mpr (.inr ⟨rfl, rfl, rfl⟩)⟩
      · intro _ d hd
        simp at hd; subst hd; exact ih1
      · intro h pat ch
        rw [headAt_replace, headAt_iff (t := t), ht]
        have : NHead { n with node := some c', hasValue := false } h pat ch ↔ NHead n h pat ch ∨ (h = n.literal ++ y ∧ pat = fp ∧ ch = fn) := by
          unfold NHead
          simp only [hv, Bool.false_eq_true, false_and, false_or, true_and, hc, Option.some.injEq]
          constructor
          · rintro ⟨d, h', rfl, rfl, hh⟩
            rcases (ih2 _ _ _).mp hh with hh | ⟨rfl, h1⟩
            · exact .inl ⟨c, h', rfl, rfl, hh⟩
            · exact .inr ⟨rfl, h1⟩
          · rintro (⟨d, h', rfl, rfl, hh⟩ | ⟨rfl, h1⟩)
            · exact ⟨c', h', rfl, rfl, (ih2 _ _ _).mpr (.inl hh)⟩
            · exact ⟨c', y, rfl, rfl, (ih2 _ _ _).mpr (.inr ⟨rfl, h1⟩)⟩
        rw [this]
        simp only [List.mem_append, List.mem_cons]
        constructor
        · rintro ((h1 | h1) | ⟨m, hm, h1⟩)
          · exact .inl ⟨n, .inr (.inl rfl), h1⟩
          · exact .inr h1
          · exact .inl ⟨m, by rcases hm with hm | hm <;> simp [hm], h1⟩
        · rintro (⟨m, hm, h1⟩ | h1)
          · rcases hm with hm | rfl | hm
            · exact .inr ⟨m, .inl hm, h1⟩
            · exact .inl (.inl h1)
            · exact .inr ⟨m, .inr hm, h1⟩
          · exact .inl (.inr h1)

theorem strict_shift {a h : Bytes} {rest : List Token} {x : Bytes} {caps} :
    MatchesStrict (.literal h :: rest) x caps ↔ MatchesStrict (.literal (a ++ h) :: rest) (a ++ x) caps := by
  constructor
  · intro hm
    obtain ⟨y, rfl, h1, h2⟩ := strict_lit_inv hm
    rw [← List.append_assoc]
    exact .literal _ _ _ _ h1 h2
  · intro hm
    obtain ⟨y, he, h1, h2⟩ := strict_lit_inv hm
    rw [List.append_assoc] at he
    have := List.append_cancel_left he
    subst this
    exact .literal _ _ _ _ h1 h2

/-- A text beginning with a head is answered by the pattern of the head. -/
theorem parse_head {t : SuffixTree} {h : Bytes} {pat : Option Pattern} {ch : Option SuffixTree} (hh : HeadAt t h pat ch)
    {rest : List Token} {q : Pattern} (hpat : pat = restPat rest q) (hch : ch = restNode rest q) (hpf : PF t) (hi : Inv Utf8 t)
    (ih : rest ≠ [] → ∀ y, Utf8 y → ∀ r, (single rest q).parse y = .ok r → Answers rest q y r)
    {y : Bytes} (hx : Utf8 (h ++ y)) {r : Option MatchResult} (hr : t.parse (h ++ y) = .ok r) :
    Answers (.literal h :: rest) q (h ++ y) r := by
  induction hh generalizing y with
  | here t n hn hv =>
    have hrk : rk n.literal = rk (n.literal ++ y) := prefix_rk (List.prefix_append _ _) (hpf.ne n hn)
    exact litNode_prefix hi hpf.parsers hv hpat hch (hit_of_mem hi.lits hn hrk) hx ih hr
  | down t n c h pat ch hn hv hc hh ihh =>
    rw [List.append_assoc] at hx hr ⊢
    have hrk : rk n.literal = rk (n.literal ++ (h ++ y)) := prefix_rk (List.prefix_append _ _) (hpf.ne n hn)
    have hp := parse_down hi hx (hit_of_mem hi.lits hn hrk) hc (List.prefix_append _ _) (by simp [hv]) hr
    simp only [List.drop_left] at hp
    have hx' : Utf8 (h ++ y) := utf8_cancel (hi.lits.label n hn) hx
    have := ihh hpat hch (hpf.inner n hn hv c hc) (hi.child n hn c hc) hx' hp
    refine ⟨fun caps hm => this.1 caps (strict_shift.mpr hm), fun hno => this.2 ?_⟩
    rintro ⟨caps, hm⟩
    exact hno ⟨caps, strict_shift.mp hm⟩

/-- A text beginning with no head leads nowhere. -/
theorem walk_nohead {t : SuffixTree} (hpf : PF t) {x : Bytes} (hno : ∀ h pat ch, HeadAt t h pat ch → ¬ h <+: x) :
    ∃ c rest, walk t x = .stuck c rest ∧ c.parserChildren = [] := by
  fun_induction walk t x with
  | case1 t => exact ⟨t, _, rfl, hpf.parsers⟩
  | case2 t n hc hh =>
    exfalso
    cases hv : n.hasValue with
    | true => exact hno _ _ _ (.here t n (hit_mem hh) hv) (List.prefix_refl _)
    | false =>
      obtain ⟨h, pat, ch, c, hc', _⟩ := hpf.hin n (hit_mem hh) hv
      rw [hc] at hc'; simp at hc'
  | case3 t => exact ⟨t, _, rfl, hpf.parsers⟩
  | case4 t => exact ⟨t, _, rfl, hpf.parsers⟩
  | case5 t x n hh c hc hp hv =>
    simp at hv
    exact absurd (by rw [hv.2]; exact List.prefix_refl _) (hno _ _ _ (.here t n (hit_mem hh) hv.1))
  | case6 t x n hh d hc hp hv ih =>
    simp only [Decidable.not_not] at hp
    cases hv' : n.hasValue with
    | true => exact absurd hp (hno _ _ _ (.here t n (hit_mem hh) hv'))
    | false =>
      apply ih (hpf.inner n (hit_mem hh) hv' d hc)
      intro h pat ch hd
      have := hno _ _ _ (.down t n d h pat ch (hit_mem hh) hv' hc hd)
      obtain ⟨y, rfl⟩ := hp
      rw [List.prefix_append_right_inj] at this
      simpa using this

theorem updLit_fresh (rest : List Token) (q : Pattern) (l : Bytes) :
    (updLit rest q (freshLit l)).pattern = restPat rest q ∧ (updLit rest q (freshLit l)).node = restNode rest q := by
  unfold updLit restPat restNode
  split <;> exact ⟨rfl, rfl⟩

theorem pf_new : PF SuffixTree.new :=
  .mk _ rfl (by simp [SuffixTree.new]) (by simp [SuffixTree.new]) (by simp [SuffixTree.new])

/-- The entries of a trie built from an incomparable family. -/
theorem build_heads {sip : Bytes → UInt64} {ps : List Pattern} {t : SuffixTree} (hu : ∀ p ∈ ps, Utf8Lits p)
    (hne : ∀ p ∈ ps, LitsNe p.pattern) (hinc : Incomparable ps) (h : SuffixTree.build sip ps = .ok t) :
    Inv Utf8 t ∧ PF t ∧ ∀ h pat ch, HeadAt t h pat ch ↔
      ∃ p ∈ ps, ∃ rest, p.pattern = .literal h :: rest ∧ pat = restPat rest p.strip ∧ ch = restNode rest p.strip := by
  have key := build_induct (sip := sip) (fun ps t => (∀ p ∈ ps, LitsNe p.pattern) → Incomparable ps → PF t ∧ ∀ h pat ch, HeadAt t h pat ch ↔
      ∃ p ∈ ps, ∃ rest, p.pattern = .literal h :: rest ∧ pat = restPat rest p.strip ∧ ch = restNode rest p.strip)
    (fun _ _ => ⟨pf_new, by intro h pat ch; rw [headAt_iff]; simp [SuffixTree.new]⟩)
    (fun ps t p t' hs hi hl ih hne hinc => by
      obtain ⟨hlead, hpair⟩ := hinc
      rw [List.pairwise_append] at hpair
      obtain ⟨hpf, hheads⟩ := ih (fun p hp => hne p (by simp [hp])) ⟨fun p hp => hlead p (by simp [hp]), hpair.1⟩
      obtain ⟨l, rest, hp⟩ := hlead p (by simp)
      cases hs with
      | empty he => rw [hp] at he; simp at he
      | par a r he => rw [hp] at he; simp at he
      | lit l' rest' he t' hins =>
        rw [hp] at he; simp at he
        obtain ⟨rfl, rfl⟩ := he
        have hl0 : l ≠ [] := hne p (by simp) l (by rw [hp]; simp)
        have hsep : ∀ h pat ch, HeadAt t h pat ch → ¬ h <+: l ∧ ¬ l <+: h := by
          intro h pat ch hh
          obtain ⟨p', hp', rest', e, _⟩ := (hheads _ _ _).mp hh
          exact hpair.2.2 p' hp' p (by simp) h rest' l rest e hp
        obtain ⟨a, b⟩ := ins_heads (goodUpd_updLit _ _) (updLit_fresh rest p.strip) hins hpf hl0 hsep
        refine ⟨a, ?_⟩
        intro h pat ch
        rw [b, hheads]
        constructor
        · rintro (⟨p', hp', r⟩ | ⟨rfl, rfl, rfl⟩)
          · exact ⟨p', by simp [hp'], r⟩
          · exact ⟨p, by simp, rest, hp, rfl, rfl⟩
        · rintro ⟨p', hp', rest', e, e1, e2⟩
          simp at hp'
          rcases hp' with hp' | rfl
          · exact .inl ⟨p', hp', rest', e, e1, e2⟩
          · right
            rw [hp] at e; simp at e
            obtain ⟨rfl, rfl⟩ := e
            exact ⟨rfl, e1, e2⟩)
    hu h
  exact ⟨key.1, key.2 hne hinc⟩

end Verif
