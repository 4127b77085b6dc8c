import Verif.Proofs.Suffix
/-! Reachable suffix tables. -/
namespace Verif
open Spec

/-! ### parser entries -/

/-- update of the first entry with the hash, or a new one at the end -/
def putPar (sip : Bytes → UInt64) (a : Parser) (f : ParserE → ParserE) : List ParserE → List ParserE
  | [] => [f (ParserE.new a)]
  | e :: es => if e.parser.hashOs sip == a.hashOs sip then f e :: es else e :: putPar sip a f es

theorem sinsertParser_run (sip : Bytes → UInt64) (t : SuffixTable) (a : Parser) (f : ParserE → ParserE) :
    t.insertParser sip a (fun e => .ok (f e)) = .ok { t with parserEntries := putPar sip a f t.parserEntries } := by
  have key : ∀ es : List ParserE,
      match es.findIdx? (fun x => x.parser.hashOs sip == a.hashOs sip) with
      | some pos => ∃ n, es[pos]? = some n ∧ es.set pos (f n) = putPar sip a f es
      | none => es ++ [f (ParserE.new a)] = putPar sip a f es := by
    intro es
    induction es with
    | nil => simp [putPar]
    | cons e es ih =>
      rw [List.findIdx?_cons]
      by_cases h : (e.parser.hashOs sip == a.hashOs sip) = true
      · simp [h, putPar]
      · simp only [h, putPar]
        simp only [Bool.false_eq_true, if_false]
        cases hf : es.findIdx? (fun x => x.parser.hashOs sip == a.hashOs sip) with
        | none => rw [hf] at ih; simp only at ih; simp [ih]
        | some pos =>
          rw [hf] at ih
          obtain ⟨n, h1, h2⟩ := ih
          simp only [Option.map_some]
          exact ⟨n, by simpa using h1, by simp [h2]⟩
  have := key t.parserEntries
  unfold SuffixTable.insertParser
  split
  · rename_i pos hp
    rw [hp] at this
    obtain ⟨n, h1, h2⟩ := this
    simp only [h1, unwrap, bind, Except.bind, pure, Except.pure, h2]
  · rename_i hp
    rw [hp] at this
    simp only at this
    simp only [bind, Except.bind, pure, Except.pure, this]

theorem putPar_mem {sip : Bytes → UInt64} {a : Parser} {f : ParserE → ParserE} {es : List ParserE} {e : ParserE}
    (h : e ∈ putPar sip a f es) :
    e ∈ es ∨ (∃ e0 ∈ es, e0.parser.hashOs sip = a.hashOs sip ∧ e = f e0) ∨ e = f (ParserE.new a) := by
  induction es with
  | nil => simp [putPar] at h; simp [h]
  | cons e0 es ih =>
    unfold putPar at h
    split at h
    · rename_i hh
      simp at h
      rcases h with rfl | h
      · right; left; exact ⟨e0, by simp, by simpa using hh, rfl⟩
      · simp [h]
    · simp at h
      rcases h with rfl | h
      · simp
      · rcases ih h with h | ⟨e1, h1, h2, h3⟩ | h
        · simp [h]
        · right; left; exact ⟨e1, by simp [h1], h2, h3⟩
        · simp [h]

/-! ### histories -/

/-- The last pattern of the history that consists of exactly the literal. -/
def wholeFor (ps : List Pattern) (l : Bytes) : Option Pattern := ps.reverse.find? fun p => decide (p.pattern = [.literal l])

/-- The last pattern of the history that starts with the literal and goes on. -/
def moreFor (ps : List Pattern) (l : Bytes) : Option Pattern :=
  ps.reverse.find? fun p => decide (p.pattern.head? = some (.literal l) ∧ p.pattern.tail ≠ [])

/-- The entry for the literal after the history. -/
def entryFor (ps : List Pattern) (l : Bytes) : Option LiteralE :=
  if ∃ p ∈ ps, p.pattern.head? = some (.literal l) then
    some ⟨(wholeFor ps l).map Pattern.strip, l, (moreFor ps l).map fun p => ssingle p.pattern.tail p.strip⟩
  else none

/-- What is known of a parser entry after the history. -/
def ParOk (sip : Bytes → UInt64) (ps : List Pattern) (e : ParserE) : Prop :=
  (∃ p ∈ ps, p.pattern.head? = some (.parser e.parser)) ∧
  (∀ q, e.pattern = some q → ∃ p ∈ ps, ∃ b, p.pattern = [.parser b] ∧ b.hashOs sip = e.parser.hashOs sip ∧ q = p.strip) ∧
  (∀ c, e.child = some c → ∃ p ∈ ps, ∃ b rest, rest ≠ [] ∧ p.pattern = .parser b :: rest ∧ b.hashOs sip = e.parser.hashOs sip ∧
    c = ssingle rest p.strip)

/-- A table after a history. -/
structure Reach (sip : Bytes → UInt64) (ps : List Pattern) (t : SuffixTable) : Prop where
  sorted : SSorted t.literalEntries
  lit : ∀ l, findLit t.literalEntries l = entryFor ps l
  par : ∀ e ∈ t.parserEntries, ParOk sip ps e

theorem reach_new (sip : Bytes → UInt64) : Reach sip [] SuffixTable.new :=
  ⟨by simp [SSorted, SuffixTable.new], by intro l; simp [findLit, SuffixTable.new, entryFor], by simp [SuffixTable.new]⟩

theorem parOk_mono {sip : Bytes → UInt64} {ps : List Pattern} {p : Pattern} {e : ParserE} (h : ParOk sip ps e) : ParOk sip (ps ++ [p]) e := by
  obtain ⟨⟨p1, h1, h2⟩, h3, h4⟩ := h
  refine ⟨⟨p1, by simp [h1], h2⟩, ?_, ?_⟩
  · intro q hq
    obtain ⟨p2, h5, h6⟩ := h3 q hq
    exact ⟨p2, by simp [h5], h6⟩
  · intro q hq
    obtain ⟨p2, h5, h6⟩ := h4 q hq
    exact ⟨p2, by simp [h5], h6⟩

theorem wholeFor_snoc (ps : List Pattern) (p : Pattern) (l : Bytes) :
    wholeFor (ps ++ [p]) l = if p.pattern = [.literal l] then some p else wholeFor ps l := by
  unfold wholeFor
  simp only [List.reverse_append, List.reverse_cons, List.reverse_nil, List.nil_append, List.singleton_append, List.find?_cons]
  by_cases h : p.pattern = [.literal l] <;> simp [h]

theorem moreFor_snoc (ps : List Pattern) (p : Pattern) (l : Bytes) :
    moreFor (ps ++ [p]) l = if p.pattern.head? = some (.literal l) ∧ p.pattern.tail ≠ [] then some p else moreFor ps l := by
  unfold moreFor
  simp only [List.reverse_append, List.reverse_cons, List.reverse_nil, List.nil_append, List.singleton_append, List.find?_cons]
  by_cases h : p.pattern.head? = some (.literal l) ∧ p.pattern.tail ≠ []
  · rw [if_pos h, decide_eq_true h]
  · rw [if_neg h, decide_eq_false h]

theorem entryFor_other {ps : List Pattern} {p : Pattern} {l : Bytes} (h : p.pattern.head? ≠ some (.literal l)) :
    entryFor (ps ++ [p]) l = entryFor ps l := by
  unfold entryFor
  have e1 : wholeFor (ps ++ [p]) l = wholeFor ps l := by
    rw [wholeFor_snoc, if_neg (by intro h2; rw [h2] at h; simp at h)]
  have e2 : moreFor (ps ++ [p]) l = moreFor ps l := by
    rw [moreFor_snoc, if_neg (by intro h2; exact h h2.1)]
  rw [e1, e2]
  by_cases hx : ∃ p ∈ ps, p.pattern.head? = some (.literal l)
  · rw [if_pos hx, if_pos (by obtain ⟨p, hp, e⟩ := hx; exact ⟨p, by simp [hp], e⟩)]
  · rw [if_neg hx, if_neg]
    rintro ⟨q, hq, e⟩
    simp at hq
    rcases hq with hq | rfl
    · exact hx ⟨q, hq, e⟩
    · exact h e

theorem wholeFor_none {ps : List Pattern} {l : Bytes} (h : ¬∃ p ∈ ps, p.pattern.head? = some (.literal l)) : wholeFor ps l = none := by
  unfold wholeFor
  rw [List.find?_eq_none]
  intro p hp
  simp at hp
  simp
  intro h2
  exact h ⟨p, hp, by rw [h2]; rfl⟩

theorem moreFor_none {ps : List Pattern} {l : Bytes} (h : ¬∃ p ∈ ps, p.pattern.head? = some (.literal l)) : moreFor ps l = none := by
  unfold moreFor
  rw [List.find?_eq_none]
  intro p hp
  simp only [List.mem_reverse] at hp
  simp only [decide_eq_true_eq]
  intro h2
  exact h ⟨p, hp, h2.1⟩

theorem entryFor_same {ps : List Pattern} {p : Pattern} {l : Bytes} {rest : List Token} (h : p.pattern = .literal l :: rest) :
    entryFor (ps ++ [p]) l = some (supdL rest p.strip ((entryFor ps l).getD (LiteralE.new l))) := by
  have hex : ∃ q ∈ ps ++ [p], q.pattern.head? = some (.literal l) := ⟨p, by simp, by rw [h]; rfl⟩
  unfold entryFor
  rw [if_pos hex, wholeFor_snoc, moreFor_snoc]
  have hbase : (if ∃ p ∈ ps, p.pattern.head? = some (.literal l) then
      some (⟨(wholeFor ps l).map Pattern.strip, l, (moreFor ps l).map fun p => ssingle p.pattern.tail p.strip⟩ : LiteralE)
      else none).getD (LiteralE.new l) =
      ⟨(wholeFor ps l).map Pattern.strip, l, (moreFor ps l).map fun p => ssingle p.pattern.tail p.strip⟩ := by
    by_cases hx : ∃ p ∈ ps, p.pattern.head? = some (.literal l)
    · rw [if_pos hx]; rfl
    · rw [if_neg hx, wholeFor_none hx, moreFor_none hx]; rfl
  rw [hbase, h]
  cases rest with
  | nil => simp [supdL]
  | cons tok rest => simp [supdL, h]

theorem reach_step {sip : Bytes → UInt64} {ps : List Pattern} {t : SuffixTable} (h : Reach sip ps t) (p : Pattern) :
    ∃ t', t.insert sip p = .ok t' ∧ Reach sip (ps ++ [p]) t' := by
  cases hp : p.pattern with
  | nil =>
    refine ⟨t, sinsert_empty sip t p hp, h.sorted, ?_, fun e he => parOk_mono (h.par e he)⟩
    intro l
    rw [h.lit, entryFor_other (by rw [hp]; simp)]
  | cons tok rest =>
    cases tok with
    | literal l =>
      refine ⟨_, (sinsert_lit sip t p l rest hp).trans (sinsertLiteral_run h.sorted l (supdL rest p.strip)), ?_, ?_, ?_⟩
      · exact putLit_sorted (supdL_literal _ _) h.sorted
      · intro x
        simp only
        rw [findLit_put (supdL_literal _ _) h.sorted, h.lit, h.lit]
        by_cases hx : x = l
        · subst hx; rw [if_pos rfl, entryFor_same hp]
        · rw [if_neg hx, entryFor_other (by rw [hp]; simpa using Ne.symm hx)]
      · exact fun e he => parOk_mono (h.par e he)
    | parser a =>
      refine ⟨_, (sinsert_par sip t p a rest hp).trans (sinsertParser_run sip t a (supdP rest p.strip)), h.sorted, ?_, ?_⟩
      · intro x
        rw [h.lit, entryFor_other (by rw [hp]; simp)]
      · intro e he
        have upd : ∀ e0 : ParserE, e0.parser.hashOs sip = a.hashOs sip → ParOk sip (ps ++ [p]) e0 ∨ e0 = ParserE.new a →
            ParOk sip (ps ++ [p]) (supdP rest p.strip e0) := by
          intro e0 hh h0
          refine ⟨?_, ?_, ?_⟩
          · rw [supdP_parser]
            rcases h0 with h0 | rfl
            · exact h0.1
            · exact ⟨p, by simp, by rw [hp]; rfl⟩
          · intro q hq
            rw [supdP_parser]
            cases rest with
            | nil =>
              simp [supdP] at hq
              exact ⟨p, by simp, a, hp, hh.symm, hq.symm⟩
            | cons tok rest =>
              simp [supdP] at hq
              rcases h0 with h0 | rfl
              · exact h0.2.1 q hq
              · simp [ParserE.new] at hq
          · intro c hc
            rw [supdP_parser]
            cases rest with
            | nil =>
              simp [supdP] at hc
              rcases h0 with h0 | rfl
              · exact h0.2.2 c hc
              · simp [ParserE.new] at hc
            | cons tok rest =>
              simp [supdP] at hc
              exact ⟨p, by simp, a, tok :: rest, by simp, hp, hh.symm, hc.symm⟩
        rcases putPar_mem he with he | ⟨e0, h0, hh, rfl⟩ | rfl
        · exact parOk_mono (h.par e he)
        · exact upd e0 hh (.inl (parOk_mono (h.par e0 h0)))
        · exact upd (ParserE.new a) rfl (.inr rfl)

theorem foldl_reach {sip : Bytes → UInt64} (qs : List Pattern) {ps : List Pattern} {t : SuffixTable} (h : Reach sip ps t) :
    ∃ t', qs.foldlM (fun t p => t.addPattern sip p) t = .ok t' ∧ Reach sip (ps ++ qs) t' := by
  induction qs generalizing ps t with
  | nil => exact ⟨t, rfl, by simpa using h⟩
  | cons q qs ih =>
    obtain ⟨t1, h1, h2⟩ := reach_step h q
    obtain ⟨t2, h3, h4⟩ := ih h2
    refine ⟨t2, ?_, by simpa using h4⟩
    simp only [List.foldlM_cons, SuffixTable.addPattern, h1, bind, Except.bind]
    exact h3

/-- Every history of additions succeeds. -/
theorem sbuild_reach (sip : Bytes → UInt64) (ps : List Pattern) : ∃ t, SuffixTable.build sip ps = .ok t ∧ Reach sip ps t := by
  have := foldl_reach ps (reach_new sip)
  simpa [SuffixTable.build] using this

theorem reach_of_build {sip : Bytes → UInt64} {ps : List Pattern} {t : SuffixTable} (h : SuffixTable.build sip ps = .ok t) : Reach sip ps t := by
  obtain ⟨t', h1, h2⟩ := sbuild_reach sip ps
  rw [h] at h1; simp at h1; subst h1; exact h2

theorem reach_entry {sip : Bytes → UInt64} {ps : List Pattern} {t : SuffixTable} (h : Reach sip ps t) {e : LiteralE} :
    e ∈ t.literalEntries ↔ entryFor ps e.literal = some e := by
  rw [findLit_mem h.sorted, h.lit]

theorem reach_has {sip : Bytes → UInt64} {ps : List Pattern} {t : SuffixTable} (h : Reach sip ps t) (l : Bytes) :
    (∃ e ∈ t.literalEntries, e.literal = l) ↔ ∃ p ∈ ps, p.pattern.head? = some (.literal l) := by
  constructor
  · rintro ⟨e, he, rfl⟩
    rw [reach_entry h] at he
    unfold entryFor at he
    split at he
    · assumption
    · simp at he
  · intro hx
    have : findLit t.literalEntries l = entryFor ps l := h.lit l
    unfold entryFor at this
    rw [if_pos hx] at this
    exact ⟨_, List.mem_of_find?_eq_some this, findLit_literal this⟩

theorem wholeFor_some {ps : List Pattern} {l : Bytes} {p : Pattern} (h : wholeFor ps l = some p) : p ∈ ps ∧ p.pattern = [.literal l] := by
  refine ⟨?_, ?_⟩
  · have := List.mem_of_find?_eq_some h; simpa using this
  · have := List.find?_some h; simpa using this

theorem moreFor_some {ps : List Pattern} {l : Bytes} {p : Pattern} (h : moreFor ps l = some p) :
    p ∈ ps ∧ ∃ rest, rest ≠ [] ∧ p.pattern = .literal l :: rest := by
  have h1 := List.mem_of_find?_eq_some h
  have h2 := List.find?_some h
  simp only [List.mem_reverse, decide_eq_true_eq] at h1 h2
  refine ⟨h1, ?_⟩
  cases hp : p.pattern with
  | nil => rw [hp] at h2; simp at h2
  | cons tok rest => rw [hp] at h2; simp at h2; exact ⟨rest, h2.2, by rw [h2.1]⟩

/-- What is known of a literal entry after the history. -/
theorem reach_lit {sip : Bytes → UInt64} {ps : List Pattern} {t : SuffixTable} (h : Reach sip ps t) {e : LiteralE} (he : e ∈ t.literalEntries) :
    (∀ q, e.pattern = some q → ∃ p ∈ ps, p.pattern = [.literal e.literal] ∧ q = p.strip) ∧
    (∀ c, e.child = some c → ∃ p ∈ ps, ∃ rest, rest ≠ [] ∧ p.pattern = .literal e.literal :: rest ∧ c = ssingle rest p.strip) := by
  rw [reach_entry h] at he
  unfold entryFor at he
  split at he
  · simp at he
    have h1 : e.pattern = (wholeFor ps e.literal).map Pattern.strip := by conv => lhs; rw [← he]
    have h2 : e.child = (moreFor ps e.literal).map fun p => ssingle p.pattern.tail p.strip := by conv => lhs; rw [← he]
    refine ⟨?_, ?_⟩
    · intro q hq
      rw [h1, Option.map_eq_some_iff] at hq
      obtain ⟨p, hp, rfl⟩ := hq
      exact ⟨p, (wholeFor_some hp).1, (wholeFor_some hp).2, rfl⟩
    · intro c hc
      rw [h2, Option.map_eq_some_iff] at hc
      obtain ⟨p, hp, rfl⟩ := hc
      obtain ⟨hm, rest, hr, e1⟩ := moreFor_some hp
      exact ⟨p, hm, rest, hr, e1, by rw [e1]; rfl⟩
  · simp at he

/-! ### longest common prefix -/

theorem sandwich {p a b c : Bytes} (ha : p <+: a) (hc : p <+: c) (h1 : cmpBytes a b = .lt) (h2 : cmpBytes b c = .lt) : p <+: b := by
  induction p generalizing a b c with
  | nil => simp
  | cons x p ih =>
    obtain ⟨a', rfl⟩ := ha
    obtain ⟨c', rfl⟩ := hc
    cases b with
    | nil => simp [cmpBytes] at h1
    | cons y b =>
      rw [List.cons_append, cmpBytes_cons] at h1 h2
      have hxy : x = y := by
        rcases h1 with h1 | h1
        · rcases h2 with h2 | h2
          · omega
          · exact h2.1.symm
        · exact h1.1
      subst hxy
      simp at h1 h2
      rw [List.cons_prefix_cons]
      exact ⟨rfl, ih (List.prefix_append _ _) (List.prefix_append _ _) h1 h2⟩

theorem cpl_le_of {a b x : Bytes} (ha : Utf8 a) (hx : Utf8 x) (hb : Utf8 b) (h : ∀ p, p <+: a → p <+: x → p <+: b) :
    commonPrefixLen a x ≤ commonPrefixLen b x := by
  have hle := cpl_le a x
  have hp : a.take (commonPrefixLen a x) <+: b := by
    refine h _ (List.take_prefix _ _) ?_
    rw [cpl_take]; exact List.take_prefix _ _
  have hlen := hp.length_le
  rw [List.length_take] at hlen
  rw [cpl_comm hb hx]
  refine cpl_max (cpl_boundary_right ha hx) (by omega) ?_
  rw [← cpl_take]
  have := List.prefix_iff_eq_take.mp hp
  rw [this, List.length_take]
  congr 1; omega

/-- For a text `x` between the entries of `A` and of `B`, the neighbours have the longest common prefixes. -/
theorem cpl_left {a b x : Bytes} (ha : Utf8 a) (hx : Utf8 x) (hb : Utf8 b) (h1 : cmpBytes a b = .lt) (h2 : cmpBytes b x = .lt) :
    commonPrefixLen a x ≤ commonPrefixLen b x := cpl_le_of ha hx hb fun _ h3 h4 => sandwich h3 h4 h1 h2

theorem cpl_right {a b x : Bytes} (ha : Utf8 a) (hx : Utf8 x) (hb : Utf8 b) (h1 : cmpBytes b a = .lt) (h2 : cmpBytes x b = .lt) :
    commonPrefixLen a x ≤ commonPrefixLen b x := cpl_le_of ha hx hb fun _ h3 h4 => sandwich h4 h3 h2 h1

/-- all entries have valid literals -/
def SUtf8 (es : List LiteralE) : Prop := ∀ e ∈ es, Utf8 e.literal

theorem cpl_self (x : Bytes) : commonPrefixLen x x = x.length := cpl_eq_length_left.mpr (List.prefix_refl x)

theorem lcp_spec {t : SuffixTable} (hs : SSorted t.literalEntries) (hu : SUtf8 t.literalEntries) {x : Bytes} (hx : Utf8 x) :
    (t.literalEntries = [] ∧ t.longestCommonPrefix x = .ok none) ∨
    ∃ e ∈ t.literalEntries, t.longestCommonPrefix x = .ok (some e) ∧
      ∀ e' ∈ t.literalEntries, commonPrefixLen e'.literal x ≤ commonPrefixLen e.literal x := by
  unfold SuffixTable.longestCommonPrefix
  rcases ssearch hs x with ⟨A, e, B, h1, h2, h3, h3', h4⟩ | ⟨A, B, h1, h2, h3, h4⟩
  · right
    refine ⟨e, by rw [h1]; simp, ?_, ?_⟩
    · rw [h4]
      simp only [bind, Except.bind, pure, Except.pure]
      rw [h1]; simp
    · intro e' _
      rw [h2, cpl_self]
      have := cpl_le e'.literal x
      omega
  · rw [h4]
    simp only [bind, Except.bind, pure, Except.pure]
    have hs' := hs
    unfold SSorted at hs'
    rw [h1, List.pairwise_append] at hs'
    have hB : ∀ b B', B = b :: B' → ∀ e ∈ B, commonPrefixLen e.literal x ≤ commonPrefixLen b.literal x := by
      rintro b B' rfl e he
      simp at he
      rcases he with rfl | he
      · exact Nat.le_refl _
      · have h5 := hs'.2.1
        rw [List.pairwise_cons] at h5
        exact cpl_right (hu e (by rw [h1]; simp [he])) hx (hu b (by rw [h1]; simp)) (h5.1 e he) (cmpBytes_gt.mp (h3 b (by simp)))
    have hA : ∀ a A', A = A' ++ [a] → ∀ e ∈ A, commonPrefixLen e.literal x ≤ commonPrefixLen a.literal x := by
      rintro a A' rfl e he
      simp at he
      rcases he with he | rfl
      · have h5 := hs'.1
        rw [List.pairwise_append] at h5
        exact cpl_left (hu e (by rw [h1]; simp [he])) hx (hu a (by rw [h1]; simp)) (h5.2.2 e he a (by simp)) (h2 a (by simp))
      · exact Nat.le_refl _
    unfold SuffixTable.lcpAroundPos
    rcases List.eq_nil_or_concat A with rfl | ⟨A', a, rfl⟩
    · cases B with
      | nil => left; rw [h1]; exact ⟨rfl, rfl⟩
      | cons b B =>
        right
        refine ⟨b, by rw [h1]; simp, by rw [h1]; simp, ?_⟩
        intro e he
        rw [h1] at he
        exact hB b B rfl e (by simpa using he)
    · right
      rw [List.concat_eq_append] at *
      have e0 : ¬ (A' ++ [a]).length = 0 := by simp
      rw [if_neg e0]
      unfold SuffixTable.lcpBetweenConsecutive
      have e1 : t.literalEntries[(A' ++ [a]).length - 1]? = some a := by rw [h1]; simp
      have e2 : t.literalEntries[(A' ++ [a]).length - 1 + 1]? = B.head? := by
        rw [h1, List.getElem?_append_right (by simp)]
        simp [List.head?_eq_getElem?]
      rw [e1, e2]
      cases B with
      | nil =>
        refine ⟨a, by rw [h1]; simp, rfl, ?_⟩
        intro e he
        rw [h1] at he
        exact hA a A' rfl e (by simpa using he)
      | cons b B =>
        simp only [List.head?_cons]
        by_cases hge : commonPrefixLen a.literal x ≥ commonPrefixLen b.literal x
        · refine ⟨a, by rw [h1]; simp, by rw [if_pos hge], ?_⟩
          intro e he
          rw [h1, List.mem_append] at he
          rcases he with he | he
          · exact hA a A' rfl e he
          · exact Nat.le_trans (hB b B rfl e he) hge
        · refine ⟨b, by rw [h1]; simp, by rw [if_neg hge], ?_⟩
          intro e he
          rw [h1, List.mem_append] at he
          rcases he with he | he
          · exact Nat.le_trans (hA a A' rfl e he) (by omega)
          · exact hB b B rfl e he

/-- A stored literal is found. -/
theorem lcp_exact {t : SuffixTable} (hs : SSorted t.literalEntries) {e : LiteralE} (he : e ∈ t.literalEntries) :
    t.longestCommonPrefix e.literal = .ok (some e) := by
  unfold SuffixTable.longestCommonPrefix
  rcases ssearch hs e.literal with ⟨A, e', B, h1, h2, h3, h3', h4⟩ | ⟨A, B, h1, h2, h3, h4⟩
  · have : e' = e := by
      have hm : e' ∈ t.literalEntries := by rw [h1]; simp
      rw [findLit_mem hs] at he hm
      rw [h2, he] at hm
      simpa using hm.symm
    subst this
    rw [h4]
    simp only [bind, Except.bind, pure, Except.pure]
    rw [h1]; simp
  · exfalso
    rw [h1, List.mem_append] at he
    rcases he with he | he
    · exact cmpBytes_irrefl _ (h2 e he)
    · exact cmpBytes_irrefl _ (cmpBytes_gt.mp (h3 e he))

end Verif
