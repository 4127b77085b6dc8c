import Verif.Proofs.TrieWalk
import Verif.Proofs.Matching
/-! Soundness of the trie: every stored path belongs to an added pattern, and parsing follows stored paths. -/
namespace Verif
open Spec

/-- Paths through the trie that end in a pattern. -/
inductive FPath : SuffixTree → List Atom → Pattern → Prop
  | lit (t : SuffixTree) (n : LiteralNode) (q : Pattern) (hn : n ∈ t.literalChildren) (hq : n.pattern = some q) :
      FPath t (bytesA n.literal ++ []) q
  | litDown (t : SuffixTree) (n : LiteralNode) (c : SuffixTree) (as : List Atom) (q : Pattern) (hn : n ∈ t.literalChildren)
      (hc : n.node = some c) (h : FPath c as q) : FPath t (bytesA n.literal ++ as) q
  | par (t : SuffixTree) (m : ParserNode) (q : Pattern) (hm : m ∈ t.parserChildren) (hq : m.pattern = some q) :
      FPath t [.inr m.parser] q
  | parDown (t : SuffixTree) (m : ParserNode) (c : SuffixTree) (as : List Atom) (q : Pattern) (hm : m ∈ t.parserChildren)
      (hc : m.node = some c) (h : FPath c as q) : FPath t (.inr m.parser :: as) q

/-- Paths from an entry. -/
def EPath (pat : Option Pattern) (node : Option SuffixTree) (as : List Atom) (q : Pattern) : Prop :=
  (as = [] ∧ pat = some q) ∨ ∃ c, node = some c ∧ FPath c as q

theorem fpath_iff {t : SuffixTree} {as : List Atom} {q : Pattern} : FPath t as q ↔
    (∃ n ∈ t.literalChildren, ∃ as', as = bytesA n.literal ++ as' ∧ EPath n.pattern n.node as' q) ∨
    (∃ m ∈ t.parserChildren, ∃ as', as = .inr m.parser :: as' ∧ EPath m.pattern m.node as' q) := by
  constructor
  · intro h
    cases h with
    | lit _ n q hn hq => exact .inl ⟨n, hn, [], rfl, .inl ⟨rfl, hq⟩⟩
    | litDown _ n c as q hn hc h => exact .inl ⟨n, hn, as, rfl, .inr ⟨c, hc, h⟩⟩
    | par _ m q hm hq => exact .inr ⟨m, hm, [], rfl, .inl ⟨rfl, hq⟩⟩
    | parDown _ m c as q hm hc h => exact .inr ⟨m, hm, as, rfl, .inr ⟨c, hc, h⟩⟩
  · rintro (⟨n, hn, as', rfl, (⟨rfl, hq⟩ | ⟨c, hc, h⟩)⟩ | ⟨m, hm, as', rfl, (⟨rfl, hq⟩ | ⟨c, hc, h⟩)⟩)
    · exact .lit t n q hn hq
    · exact .litDown t n c as' q hn hc h
    · exact .par t m q hm hq
    · exact .parDown t m c as' q hm hc h

theorem fpath_new {as : List Atom} {q : Pattern} : ¬ FPath SuffixTree.new as q := by
  rw [fpath_iff]; simp [SuffixTree.new]

theorem fpath_single {toks : List Token} {q0 q : Pattern} {as : List Atom} (h : FPath (single toks q0) as q) :
    as = flat toks ∧ q = q0 := by
  induction toks generalizing as with
  | nil => exact absurd h fpath_new
  | cons tok rest ih =>
    rw [fpath_iff] at h
    cases tok with
    | literal l =>
      simp only [single, List.mem_singleton, exists_eq_left, List.not_mem_nil, false_and, exists_false, or_false] at h
      obtain ⟨as', rfl, h⟩ := h
      cases rest with
      | nil =>
        rcases h with ⟨rfl, h⟩ | ⟨c, h, _⟩
        · simp at h; exact ⟨rfl, h.symm⟩
        · simp at h
      | cons t r =>
        rcases h with ⟨_, h⟩ | ⟨c, h, h2⟩
        · simp at h
        · simp at h; subst h
          obtain ⟨rfl, rfl⟩ := ih h2
          exact ⟨rfl, rfl⟩
    | parser a =>
      simp only [single, List.mem_singleton, exists_eq_left, List.not_mem_nil, false_and, exists_false, false_or] at h
      obtain ⟨as', rfl, h⟩ := h
      cases rest with
      | nil =>
        rcases h with ⟨rfl, h⟩ | ⟨c, h, _⟩
        · simp at h; exact ⟨rfl, h.symm⟩
        · simp at h
      | cons t r =>
        rcases h with ⟨_, h⟩ | ⟨c, h, h2⟩
        · simp at h
        · simp at h; subst h
          obtain ⟨rfl, rfl⟩ := ih h2
          exact ⟨rfl, rfl⟩

theorem epath_updLit {rest : List Token} {q0 q : Pattern} {n : LiteralNode} {as : List Atom}
    (h : EPath (updLit rest q0 n).pattern (updLit rest q0 n).node as q) :
    EPath n.pattern n.node as q ∨ (as = flat rest ∧ q = q0) := by
  unfold updLit at h
  split at h
  · rename_i hr
    rw [List.isEmpty_iff] at hr; subst hr
    rcases h with ⟨rfl, h⟩ | h
    · simp [setPat] at h; exact .inr ⟨rfl, h.symm⟩
    · exact .inl (.inr h)
  · rcases h with h | ⟨c, h, h2⟩
    · exact .inl (.inl h)
    · simp [setChild] at h; subst h
      exact .inr (fpath_single h2)

theorem epath_updPar {rest : List Token} {q0 q : Pattern} {n : ParserNode} {as : List Atom}
    (h : EPath (updPar rest q0 n).pattern (updPar rest q0 n).node as q) :
    EPath n.pattern n.node as q ∨ (as = flat rest ∧ q = q0) := by
  unfold updPar at h
  split at h
  · rename_i hr
    rw [List.isEmpty_iff] at hr; subst hr
    rcases h with ⟨rfl, h⟩ | h
    · simp at h; exact .inr ⟨rfl, h.symm⟩
    · exact .inl (.inr h)
  · rcases h with h | ⟨c, h, h2⟩
    · exact .inl (.inl h)
    · simp at h; subst h
      exact .inr (fpath_single h2)

theorem updPar_parser (rest : List Token) (q : Pattern) (n : ParserNode) : (updPar rest q n).parser = n.parser := by
  unfold updPar; split <;> rfl

/-- Insertion adds at most one path. -/
theorem ins_fpath {g : LiteralNode → LiteralNode} (hg : GoodUpd g) {new : List Atom → Pattern → Prop}
    (hnew : ∀ n as q, EPath (g n).pattern (g n).node as q → EPath n.pattern n.node as q ∨ new as q)
    {t t' : SuffixTree} {l : Bytes} (h : Ins g t l t') {as : List Atom} {q : Pattern} (hp : FPath t' as q) :
    FPath t as q ∨ ∃ as', as = bytesA l ++ as' ∧ new as' q := by
  have hfresh : ∀ l as q, EPath (g (freshLit l)).pattern (g (freshLit l)).node as q → new as q := by
    intro l as q h1
    rcases hnew _ _ _ h1 with h1 | h1
    · rcases h1 with ⟨_, h1⟩ | ⟨c, h1, _⟩ <;> simp [freshLit] at h1
    · exact h1
  -- a path of the new tree that does not use the changed child is a path of the old tree
  have old : ∀ (t : SuffixTree) (A B : List LiteralNode) (n' : LiteralNode) (_ : ∀ m, m ∈ A ∨ m ∈ B → m ∈ t.literalChildren) as q,
      FPath { t with literalChildren := A ++ n' :: B } as q →
      FPath t as q ∨ ∃ as', as = bytesA n'.literal ++ as' ∧ EPath n'.pattern n'.node as' q := by
    intro t A B n' hsub as q h
    rw [fpath_iff] at h
    rcases h with ⟨m, hm, as', rfl, he⟩ | h
    · simp at hm
      rcases hm with hm | rfl | hm
      · exact .inl (fpath_iff.mpr (.inl ⟨m, hsub m (.inl hm), as', rfl, he⟩))
      · exact .inr ⟨as', rfl, he⟩
      · exact .inl (fpath_iff.mpr (.inl ⟨m, hsub m (.inr hm), as', rfl, he⟩))
    · exact .inl (fpath_iff.mpr (.inr h))
  induction h generalizing as q with
  | miss t l A B ht hA hB =>
    rcases old t A B _ (by intro m hm; rw [ht]; simpa using hm) as q hp with h | ⟨as', h1, h2⟩
    · exact .inl h
    · rw [hg.literal] at h1
      exact .inr ⟨as', h1, hfresh _ _ _ h2⟩
  | exact t l A B n ht hl hv =>
    rcases old t A B _ (by intro m hm; rw [ht]; rcases hm with hm | hm <;> simp [hm]) as q hp with h | ⟨as', h1, h2⟩
    · exact .inl h
    · rw [hg.literal] at h1
      rcases hnew _ _ _ h2 with h2 | h2
      · exact .inl (fpath_iff.mpr (.inl ⟨n, by rw [ht]; simp, as', h1, h2⟩))
      · exact .inr ⟨as', by rw [h1, hl], h2⟩
  | split t l A B n ht hr hs hpos hrk =>
    rcases old t A B _ (by intro m hm; rw [ht]; rcases hm with hm | hm <;> simp [hm]) as q hp with h | ⟨as', h1, h2⟩
    · exact .inl h
    · simp only [splitNode] at h1 h2
      rcases h2 with ⟨_, h2⟩ | ⟨c, h2, h3⟩
      · simp at h2
      · simp at h2
        subst h2
        rw [fpath_iff] at h3
        rcases h3 with ⟨m, hm, as'', rfl, he⟩ | h3
        · rw [splitChildren_mem] at hm
          rcases hm with rfl | rfl
          · rw [hg.literal] at h1
            refine .inr ⟨as'', ?_, hfresh _ _ _ he⟩
            rw [h1, ← List.append_assoc, ← bytesA_append]
            simp [freshLit]
          · refine .inl (fpath_iff.mpr (.inl ⟨n, by rw [ht]; simp, as'', ?_, he⟩))
            rw [h1, ← List.append_assoc, ← bytesA_append, ← cpl_take]
            simp
        · simp at h3
  | down t l A B n c c' ht hr hpfx hc hne _ ih =>
    rcases old t A B _ (by intro m hm; rw [ht]; rcases hm with hm | hm <;> simp [hm]) as q hp with h | ⟨as', h1, h2⟩
    · exact .inl h
    · simp only at h1 h2
      have hm : n ∈ t.literalChildren := by rw [ht]; simp
      rcases h2 with h2 | ⟨c2, h2, h3⟩
      · exact .inl (fpath_iff.mpr (.inl ⟨n, hm, as', h1, .inl h2⟩))
      · simp at h2; subst h2
        rcases ih h3 with h4 | ⟨as'', h4, h5⟩
        · exact .inl (fpath_iff.mpr (.inl ⟨n, hm, as', h1, .inr ⟨c, hc, h4⟩⟩))
        · refine .inr ⟨as'', ?_, h5⟩
          rw [h1, h4, ← List.append_assoc, ← bytesA_append]
          obtain ⟨y, rfl⟩ := hpfx
          simp

theorem ins_parsers {g : LiteralNode → LiteralNode} {t t' : SuffixTree} {l : Bytes} (h : Ins g t l t') :
    t'.parserChildren = t.parserChildren := by cases h <;> rfl

theorem step_fpath {sip : Bytes → UInt64} {t t' : SuffixTree} {p : Pattern} (h : Step sip t p t')
    (hcol : ∀ m ∈ t.parserChildren, ∀ a, p.pattern.head? = some (.parser a) → m.parser.hashOs sip = a.hashOs sip → m.parser = a)
    {as : List Atom} {q : Pattern} (hp : FPath t' as q) : FPath t as q ∨ (as = flat p.pattern ∧ q = p.strip) := by
  cases h with
  | empty he => exact .inl hp
  | lit l rest he t' h =>
    rcases ins_fpath (goodUpd_updLit _ _) (new := fun as q => as = flat rest ∧ q = p.strip) (fun _ _ _ => epath_updLit) h hp with h | ⟨as', rfl, rfl, rfl⟩
    · exact .inl h
    · exact .inr ⟨by rw [he]; rfl, rfl⟩
  | par a rest he =>
    rw [fpath_iff] at hp
    rcases hp with hp | ⟨m, hm, as', rfl, hp⟩
    · exact .inl (fpath_iff.mpr (.inl hp))
    · rcases insPar_mem hm with h | rfl | ⟨n, hn, hh, rfl⟩
      · exact .inl (fpath_iff.mpr (.inr ⟨m, h, as', rfl, hp⟩))
      · rcases epath_updPar hp with h | ⟨rfl, rfl⟩
        · rcases h with ⟨_, h⟩ | ⟨c, h, _⟩ <;> simp [ParserNode.new] at h
        · refine .inr ⟨?_, rfl⟩
          rw [he, updPar_parser]; rfl
      · rcases epath_updPar hp with h | ⟨rfl, rfl⟩
        · exact .inl (fpath_iff.mpr (.inr ⟨n, hn, as', by rw [updPar_parser], h⟩))
        · refine .inr ⟨?_, rfl⟩
          rw [he, updPar_parser, hcol n hn a (by rw [he]; rfl) hh]; rfl

theorem step_parsers {sip : Bytes → UInt64} {t t' : SuffixTree} {p : Pattern} (h : Step sip t p t') {m : ParserNode}
    (hm : m ∈ t'.parserChildren) : (∃ n ∈ t.parserChildren, n.parser = m.parser) ∨ p.pattern.head? = some (.parser m.parser) := by
  cases h with
  | empty he => exact .inl ⟨m, hm, rfl⟩
  | lit l rest he t' h => rw [ins_parsers h] at hm; exact .inl ⟨m, hm, rfl⟩
  | par a rest he =>
    rcases insPar_mem hm with h | rfl | ⟨n, hn, hh, rfl⟩
    · exact .inl ⟨m, h, rfl⟩
    · right; rw [he, updPar_parser]; rfl
    · exact .inl ⟨n, hn, by rw [updPar_parser]⟩

/-! ### histories -/

theorem foldlM_induct {sip : Bytes → UInt64} {P : Bytes → Prop} (motive : List Pattern → SuffixTree → Prop)
    (hstep : ∀ ps t p t', t.insert sip p = .ok t' → Inv P t → LitsP P p.pattern → motive ps t → Inv P t' ∧ motive (ps ++ [p]) t')
    (ps pre : List Pattern) (t0 t : SuffixTree) (hi : Inv P t0) (h0 : motive pre t0) (hu : ∀ p ∈ ps, LitsP P p.pattern)
    (h : ps.foldlM (fun t p => SuffixTree.addPattern sip t p) t0 = .ok t) : Inv P t ∧ motive (pre ++ ps) t := by
  induction ps generalizing pre t0 with
  | nil => simp [pure, Except.pure] at h; subst h; simpa using ⟨hi, h0⟩
  | cons p ps ih =>
    simp only [List.foldlM_cons, bind, Except.bind] at h
    cases h1 : t0.addPattern sip p with
    | error e => rw [h1] at h; simp at h
    | ok t1 =>
      rw [h1] at h
      obtain ⟨a, b⟩ := hstep pre t0 p t1 h1 hi (hu p (by simp)) h0
      have := ih (pre ++ [p]) t1 a b (fun q hq => hu q (by simp [hq])) h
      simpa using this

/-- Induction over histories of `add_pattern` calls that did not panic. -/
theorem build_induct {sip : Bytes → UInt64} (motive : List Pattern → SuffixTree → Prop)
    (h0 : motive [] SuffixTree.new)
    (hstep : ∀ ps t p t', Step sip t p t' → Inv Utf8 t → LitsP Utf8 p.pattern → motive ps t → motive (ps ++ [p]) t')
    {ps : List Pattern} {t : SuffixTree} (hu : ∀ p ∈ ps, Utf8Lits p) (h : SuffixTree.build sip ps = .ok t) :
    Inv Utf8 t ∧ motive ps t := by
  have := foldlM_induct (P := Utf8) motive (fun ps t p t' hr hi hl hm => by
    obtain ⟨a, b⟩ := step_of_insert hi hl hr
    exact ⟨b, hstep ps t p t' a hi hl hm⟩) ps [] SuffixTree.new t inv_new h0 hu h
  simpa using this

/-- ASCII histories never panic. -/
theorem build_ascii (sip : Bytes → UInt64) (ps : List Pattern) (hu : ∀ p ∈ ps, AsciiLits p) :
    ∃ t, SuffixTree.build sip ps = .ok t ∧ Inv Ascii t := by
  have key : ∀ (ps : List Pattern) (t0 : SuffixTree), Inv Ascii t0 → (∀ p ∈ ps, AsciiLits p) →
      ∃ t, ps.foldlM (fun t p => SuffixTree.addPattern sip t p) t0 = .ok t ∧ Inv Ascii t := by
    intro ps
    induction ps with
    | nil => intro t0 hi _; exact ⟨t0, rfl, hi⟩
    | cons p ps ih =>
      intro t0 hi hu
      obtain ⟨t1, h1, _, h3⟩ := insert_step_ascii sip hi p (hu p (by simp))
      obtain ⟨t, h4, h5⟩ := ih t1 h3 (fun q hq => hu q (by simp [hq]))
      refine ⟨t, ?_, h5⟩
      simp only [List.foldlM_cons, bind, Except.bind, SuffixTree.addPattern, h1]
      exact h4
  exact key ps _ inv_new hu

theorem asciiLits_utf8 {p : Pattern} (h : AsciiLits p) : Utf8Lits p := fun l hl => ascii_utf8 (h l hl)

/-- Every stored path belongs to an added pattern. -/
theorem build_fpath {sip : Bytes → UInt64} {ps : List Pattern} {t : SuffixTree} (hu : ∀ p ∈ ps, Utf8Lits p)
    (hcol : NoCollision sip ps) (h : SuffixTree.build sip ps = .ok t) :
    (∀ as q, FPath t as q → ∃ p ∈ ps, as = flat p.pattern ∧ q = p.strip) := by
  have := build_induct (sip := sip) (fun ps t => NoCollision sip ps →
      (∀ m ∈ t.parserChildren, ∃ p ∈ ps, p.pattern.head? = some (.parser m.parser)) ∧
      ∀ as q, FPath t as q → ∃ p ∈ ps, as = flat p.pattern ∧ q = p.strip)
    (fun _ => ⟨by simp [SuffixTree.new], fun as q h => absurd h fpath_new⟩)
    (fun ps t p t' hs hi hl ih hcol => by
      have hcol' : NoCollision sip ps := fun a b ⟨p1, h1, e1⟩ ⟨p2, h2, e2⟩ =>
        hcol a b ⟨p1, by simp [h1], e1⟩ ⟨p2, by simp [h2], e2⟩
      obtain ⟨ih1, ih2⟩ := ih hcol'
      refine ⟨?_, ?_⟩
      · intro m hm
        rcases step_parsers hs hm with ⟨n, hn, he⟩ | he
        · obtain ⟨p', hp', e⟩ := ih1 n hn
          exact ⟨p', by simp [hp'], by rw [← he]; exact e⟩
        · exact ⟨p, by simp, he⟩
      · intro as q hq
        have hc : ∀ m ∈ t.parserChildren, ∀ a, p.pattern.head? = some (.parser a) → m.parser.hashOs sip = a.hashOs sip → m.parser = a := by
          intro m hm a ha he
          obtain ⟨p', hp', e⟩ := ih1 m hm
          exact hcol _ _ ⟨p', by simp [hp'], e⟩ ⟨p, by simp, ha⟩ he
        rcases step_fpath hs hc hq with h1 | ⟨h1, h2⟩
        · obtain ⟨p', hp', e⟩ := ih2 as q h1
          exact ⟨p', by simp [hp'], e⟩
        · exact ⟨p, by simp, h1, h2⟩)
    hu h
  exact (this.2 hcol).2

/-! ### parsing follows stored paths -/

theorem walk_found_path {t : SuffixTree} {x : Bytes} {n : LiteralNode} {q : Pattern} (h : walk t x = .found n)
    (hq : n.pattern = some q) : FPath t (bytesA x) q := by
  fun_induction walk t x with
  | case1 => simp at h
  | case2 t n' hc hh =>
    simp at h; subst h
    have := FPath.lit t n' q (hit_mem hh) hq
    simpa using this
  | case3 => simp at h
  | case4 => simp at h
  | case5 t x n' hh c hc hp hv =>
    simp at h hp hv; subst h
    have := FPath.lit t n' q (hit_mem hh) hq
    rw [hv.2] at this
    simpa using this
  | case6 t x n' hh c hc hp hv ih =>
    simp only [Decidable.not_not] at hp
    have := FPath.litDown t n' c _ q (hit_mem hh) hc (ih h)
    obtain ⟨y, rfl⟩ := hp
    simpa [← bytesA_append] using this

theorem walk_stuck_path {t : SuffixTree} {x : Bytes} {c : SuffixTree} {rest : Bytes} (h : walk t x = .stuck c rest) :
    ∃ pre, x = pre ++ rest ∧ ∀ as q, FPath c as q → FPath t (bytesA pre ++ as) q := by
  fun_induction walk t x with
  | case1 => simp at h; obtain ⟨rfl, rfl⟩ := h; exact ⟨[], rfl, fun _ _ h => h⟩
  | case2 => simp at h
  | case3 => simp at h; obtain ⟨rfl, rfl⟩ := h; exact ⟨[], rfl, fun _ _ h => h⟩
  | case4 => simp at h; obtain ⟨rfl, rfl⟩ := h; exact ⟨[], rfl, fun _ _ h => h⟩
  | case5 => simp at h
  | case6 t x n' hh d hc hp hv ih =>
    simp only [Decidable.not_not] at hp
    obtain ⟨pre, h1, h2⟩ := ih h
    obtain ⟨y, rfl⟩ := hp
    simp only [List.drop_left] at h1
    refine ⟨n'.literal ++ pre, by simp [h1], ?_⟩
    intro as q hq
    have := FPath.litDown t n' d _ q (hit_mem hh) hc (h2 as q hq)
    simpa [bytesA_append] using this

/-- A result of `parse` comes from a stored path that matches the text. -/
theorem parse_sound {t : SuffixTree} (hi : Inv Utf8 t) {x : Bytes} (hx : Utf8 x) {r : MatchResult}
    (h : t.parse x = .ok (some r)) :
    ∃ as caps, FPath t as r.pattern ∧ FMatches as x caps ∧ HasCaptures r.values caps := by
  induction hk : sizeOf t using Nat.strongRecOn generalizing t x r with
  | ind k ih =>
    have hp := parse_partial hi hx h
    cases hw : walk t x with
    | found n =>
      rw [hw] at hp
      simp only at hp
      cases hq : n.pattern with
      | none => rw [hq] at hp; simp at hp
      | some q =>
        rw [hq] at hp
        simp at hp; subst hp
        refine ⟨bytesA x, [], walk_found_path hw hq, ?_, hasCaptures_nil q⟩
        have := fmatches_bytes (l := x) FMatches.nil
        simpa using this
    | stuck c rest =>
      rw [hw] at hp
      simp only at hp
      obtain ⟨h1, h2, h3, _⟩ := walk_stuck labelPred_utf8 hi hx hw
      obtain ⟨pre, hpre, hlift⟩ := walk_stuck_path hw
      have key : ∀ ps : List ParserNode, (∀ m ∈ ps, m ∈ c.parserChildren) → parseWithParsers ps rest = .ok (some r) →
          ∃ as caps, FPath c as r.pattern ∧ FMatches as rest caps ∧ HasCaptures r.values caps := by
        intro ps
        induction ps with
        | nil => intro _ h; rw [parseWithParsers] at h; simp at h
        | cons m ps ihp =>
          intro hmem h
          have hm := hmem m (by simp)
          rw [parseWithParsers] at h
          split at h
          · simp at h
          · rename_i res hres
            simp at h; subst h
            rw [ParserNode.parse] at hres
            split at hres
            · simp at hres
            · simp at hres
            · rename_i v hv
              obtain ⟨hpm, hb⟩ := (parse_some m.parser rest v).mp hv
              obtain ⟨y, rfl⟩ := parserMatch_prefix hpm
              have ht : ltrunc (v ++ y) v.length = .ok y := by rw [ltrunc, sliceFrom_ok hb]; simp
              have hy : Utf8 y := by simpa using (boundary_split h2 hb).2
              rw [ht] at hres
              simp only at hres
              split at hres
              · rename_i d hd
                rw [parseThenPushKvpair] at hres
                split at hres
                · simp at hres
                · rename_i r0 hr0
                  simp at hres; subst hres
                  have hs := sizeOf_par_child hm hd
                  obtain ⟨as, caps, a1, a2, a3⟩ := ih (sizeOf d) (by omega) (h1.pchild m hm d hd) hy hr0 rfl
                  refine ⟨.inr m.parser :: as, (m.parser, v) :: caps, ?_, .parser _ _ _ _ _ hpm a2, hasCaptures_insert a3 _ _⟩
                  rw [insert_pattern]
                  exact .parDown c m d as _ hm hd a1
                · simp at hres
              · rename_i hd
                unfold ParserNode.pushLastKvpair at hres
                split at hres
                · rename_i hy0
                  cases hq : m.pattern with
                  | none => rw [hq] at hres; simp [unwrap, bind, Except.bind] at hres
                  | some q =>
                    rw [hq] at hres
                    simp [unwrap, bind, Except.bind, pure, Except.pure] at hres
                    subst hres
                    simp at hy0; subst hy0
                    refine ⟨[.inr m.parser], [(m.parser, v)], ?_, .parser _ _ _ _ _ hpm .nil, hasCaptures_insert (hasCaptures_nil q) _ _⟩
                    rw [insert_pattern]
                    exact .par c m q hm hq
                · simp [pure, Except.pure] at hres
          · exact ihp (fun m' hm' => hmem m' (by simp [hm'])) h
      obtain ⟨as, caps, a1, a2, a3⟩ := key c.parserChildren (fun _ h => h) hp
      exact ⟨bytesA pre ++ as, caps, hlift as _ a1, by rw [hpre]; exact fmatches_bytes a2, a3⟩

end Verif
