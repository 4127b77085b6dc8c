import Verif.Props.C115_Labels
import Verif.Props.C20_Order
import Verif.Spec.Kept
import Verif.Spec.Filled
/-! C116 and C117: which patterns a trie keeps. -/
namespace Verif
open Spec

theorem rowAt_source (ps : List Pattern) : ∀ row ∈ (Table.of ps).rows, ∀ q, row.more = some q → q ∈ ps ∧ GoesOn q row.text := by
  refine snoc_induction (P := fun ps => ∀ row ∈ (Table.of ps).rows, ∀ q, row.more = some q → q ∈ ps ∧ GoesOn q row.text) ?_ ?_ ps
  · rintro row ⟨⟩
  · intro ps p ih row hrow q hq
    rw [table_snoc] at hrow
    have hold : ∀ row ∈ (Table.of ps).rows, ∀ q, row.more = some q → q ∈ ps ++ [p] ∧ GoesOn q row.text := fun row h q hq =>
      ⟨List.mem_append_left _ (ih row h q hq).1, (ih row h q hq).2⟩
    have hof : ∀ l q, (rowOf (Table.of ps).rows l).more = some q → q ∈ ps ++ [p] ∧ GoesOn q l := by
      intro l q hq
      rw [rowOf_rowAt] at hq
      cases hf : rowAt (Table.of ps).rows l with
      | none => rw [hf] at hq; simp at hq
      | some r =>
        rw [hf] at hq
        obtain ⟨h1, rfl⟩ := rowAt_text hf
        exact hold r h1 q hq
    unfold Table.add at hrow
    split at hrow
    · exact hold row hrow q hq
    · rename_i l rest he
      simp only at hrow
      rcases addLiteralLed_cases (Table.of ps).rows l rest.isEmpty p with ⟨r, t1, t2, _, t3⟩ | ⟨ha, t3⟩
      · rw [t3] at hrow
        rcases List.mem_cons.mp hrow with rfl | hrow
        · rw [t1]; exact hof l q (t2 ▸ hq)
        · exact hold row (List.mem_filter.mp hrow).1 q hq
      · rw [t3] at hrow
        rcases List.mem_cons.mp hrow with rfl | hrow
        · simp only [Option.some.injEq] at hq
          subst hq
          simp only [rowOf_text]
          exact ⟨by simp, rest, by simpa using ha, he⟩
        · exact hold row (List.mem_filter.mp hrow).1 q hq
    · exact hold row hrow q hq

theorem parserLed_source (ps : List Pattern) : ∀ q ∈ (Table.of ps).parserLed, ∀ l, ¬ GoesOn q l := by
  have key : ∀ (a : Parser) (p : Pattern) (L : List Pattern), (∀ l, ¬ GoesOn p l) → (∀ q ∈ L, ∀ l, ¬ GoesOn q l) → ∀ q ∈ addParserLed a p L, ∀ l, ¬ GoesOn q l := by
    intro a p L hp
    induction L with
    | nil => intro _ q hq; simp [addParserLed] at hq; subst hq; exact hp
    | cons s L ih =>
      intro h q hq
      rw [addParserLed] at hq
      split at hq
      · rcases List.mem_cons.mp hq with rfl | hq
        · split
          · exact h s (by simp)
          · exact hp
        · exact h q (by simp [hq])
      · rcases List.mem_cons.mp hq with rfl | hq
        · exact h q (by simp)
        · exact ih (fun q hq => h q (by simp [hq])) q hq
  refine snoc_induction (P := fun ps => ∀ q ∈ (Table.of ps).parserLed, ∀ l, ¬ GoesOn q l) ?_ ?_ ps
  · rintro q ⟨⟩
  · intro ps p ih
    rw [table_snoc]
    unfold Table.add
    split
    · exact ih
    · exact ih
    · rename_i a rest he
      refine key a p _ ?_ ih
      rintro l ⟨r, _, e⟩
      rw [he] at e
      simp at e

/-- Where an answer of the table comes from. -/
theorem answer_origin {T : Table} {x : Bytes} {r : MatchResult} (h : T.Answer x (some r)) :
    (∃ row ∈ T.rows, ∃ p, row.whole = some p ∧ r.pattern = { p with pattern := [] }) ∨
    (∃ row ∈ T.rows, ∃ p, row.more = some p ∧ r.pattern = { p with pattern := [] } ∧ ∃ caps, MatchesStrict p.pattern x caps) ∨
    ∃ p ∈ T.parserLed, r.pattern = { p with pattern := [] } := by
  by_cases hx : ∃ row ∈ T.rows, row.text = x
  · obtain ⟨row, h1, h2⟩ := hx
    have := h.1 row h1 h2
    cases hw : row.whole with
    | none => rw [hw] at this; simp at this
    | some p =>
      rw [hw] at this
      simp only [Option.map_some, Option.some.injEq] at this
      exact .inl ⟨row, h1, p, hw, by rw [this]⟩
  · obtain ⟨b, _, h1, h2, h3⟩ := h.2 (fun row hr e => hx ⟨row, hr, e⟩)
    by_cases hb : b = []
    · rcases firstAnswer_cases T.parserLed x with hn | ⟨A, p, B, caps, e, h4, h5⟩
      · simpa using (h1 hb).2 hn
      · obtain ⟨res, e', hres⟩ := (h1 hb).1 A p B caps e h4 h5
        simp only [Option.some.injEq] at e'
        subst e'
        exact .inr (.inr ⟨p, by rw [e]; simp, hres.1⟩)
    · by_cases hr : ∃ row ∈ T.rows, row.text = b ∧ ∃ p, row.more = some p
      · obtain ⟨row, r1, r2, p, r3⟩ := hr
        rcases firstAnswer_one (h2 hb row r1 r2 p r3) with g | ⟨res, caps, e, hstr, hres⟩
        · simp at g
        · simp only [Option.some.injEq] at e
          subst e
          exact .inr (.inl ⟨row, r1, p, r3, hres.1, caps, hstr⟩)
      · have := h3 hb (by
          intro row r1 r2
          cases hm : row.more with
          | none => rfl
          | some p => exact absurd ⟨row, r1, r2, p, hm⟩ hr)
        simp at this

theorem goesOn_unique {p : Pattern} {l l' : Bytes} (h : GoesOn p l) (h' : GoesOn p l') : l = l' := by
  obtain ⟨_, _, e⟩ := h
  obtain ⟨_, _, e'⟩ := h'
  rw [e] at e'
  simp at e'
  exact e'.1

/-- A pattern that goes on after its literal is never the answer of a table that does not have it there. -/
theorem never_answer {ps : List Pattern} (hu : UuidsTell ps) {q : Pattern} {l : Bytes} (hq : q ∈ ps) (hl : GoesOn q l)
    (hn : ∀ row ∈ (Table.of ps).rows, row.text = l → ∀ p, row.more = some p → p.pattern ≠ q.pattern) {x : Bytes} {r : MatchResult}
    (h : (Table.of ps).Answer x (some r)) : r.pattern.uuid ≠ q.uuid := by
  intro e
  rcases answer_origin h with ⟨row, h1, p, h2, h3⟩ | ⟨row, h1, p, h2, h3, _⟩ | ⟨p, h1, h3⟩
  · obtain ⟨h4, h5⟩ := table_whole ps row h1 p h2
    have := hu p h4 q hq (by rw [← e, h3])
    obtain ⟨rest, g, g'⟩ := hl
    rw [h5, g'] at this
    simp at this
    exact g this.2
  · obtain ⟨h4, h5⟩ := rowAt_source ps row h1 p h2
    have := hu p h4 q hq (by rw [← e, h3])
    have hl' : GoesOn p l := by obtain ⟨rest, g, g'⟩ := hl; exact ⟨rest, g, this.trans g'⟩
    exact hn row h1 (goesOn_unique h5 hl') p h2 this
  · have h4 := table_parserLed ps p h1
    have := hu p h4 q hq (by rw [← e, h3])
    obtain ⟨rest, g, g'⟩ := hl
    exact parserLed_source ps p h1 l ⟨rest, g, this.trans g'⟩

/-- A pattern that the table has at its literal is the answer for every text it matches that follows no longer literal of the table. -/
theorem found_answer {T : Table} {q : Pattern} {l : Bytes} (hne : l ≠ []) (hl : GoesOn q l) {row : Row} (hrow : row ∈ T.rows)
    (ht : row.text = l) (hm : row.more = some q) {x : Bytes} (hleave : ∀ r ∈ T.rows, l <+: r.text → ∀ c, c <+: r.text → c <+: x → c.length ≤ l.length)
    {caps} (hx : MatchesStrict q.pattern x caps) {r : Option MatchResult} (h : T.Answer x r) : ∃ res, r = some res ∧ IsResult res q caps := by
  obtain ⟨rest, hr, e⟩ := hl
  obtain ⟨y, rfl, hy, _⟩ := strict_lit_inv (e ▸ hx)
  have hyl : 0 < y.length := List.length_pos_iff.mpr (hy hr)
  have hlx : l <+: l ++ y := List.prefix_append _ _
  have hnot : ∀ row ∈ T.rows, row.text ≠ l ++ y := by
    intro s hs e'
    have := hleave s hs (e' ▸ hlx) (l ++ y) (e' ▸ List.prefix_refl _) (List.prefix_refl _)
    simp at this
    omega
  obtain ⟨b, ⟨hb, hbx, hmax⟩, _, h2, _⟩ := h.2 hnot
  have hlb := hmax l (.inr (.inl ⟨row, hrow, ht, by rw [hm]; simp⟩)) hlx
  have hpre : l <+: b := prefix_total hlx hbx hlb
  have hbl : b.length ≤ l.length := by
    rcases hb with rfl | ⟨s, hs, rfl, _⟩ | ⟨s, hs, s', hs', _, c1, c2, _⟩
    · simp
    · exact hleave s hs hpre s.text (List.prefix_refl _) hbx
    · exact hleave s hs (hpre.trans c1) b c1 hbx
  have : l = b := hpre.eq_of_length (by omega)
  subst this
  exact (h2 hne row hrow ht q hm).1 [] q [] caps rfl (by simp) hx

/-! ### Right after the addition -/

/-- The addition of a pattern that goes on after the literal `l` takes effect. -/
def TakesEffect (ps : List Pattern) (l : Bytes) : Prop := ¬((rowOf (Table.of ps).rows l).more = none ∧ Extended (Table.of ps).rows l)

theorem table_goesOn {ps : List Pattern} {q : Pattern} {l : Bytes} (hq : GoesOn q l) :
    Table.of (ps ++ [q]) = ⟨addLiteralLed (Table.of ps).rows l false q, (Table.of ps).parserLed⟩ := by
  obtain ⟨rest, hr, e⟩ := hq
  rw [table_snoc]
  unfold Table.add
  rw [e]
  cases rest with
  | nil => exact absurd rfl hr
  | cons _ _ => rfl

theorem effect_answers {ps : List Pattern} {q : Pattern} {l : Bytes} (hq : GoesOn q l) (hne : l ≠ []) (h : TakesEffect ps l) {x : Bytes} {caps}
    (hx : MatchesStrict q.pattern x caps) {r : Option MatchResult} (ha : (Table.of (ps ++ [q])).Answer x r) : ∃ res, r = some res ∧ IsResult res q caps := by
  have hT := table_goesOn (ps := ps) hq
  have hadd : (Table.of (ps ++ [q])).rows = { rowOf (Table.of ps).rows l with more := some q } :: (Table.of ps).rows.filter fun r => decide (¬ l <+: r.text) := by
    rw [hT]
    simp only [addLiteralLed]
    rw [if_neg (by simp), if_neg h]
  refine found_answer hne hq (row := { rowOf (Table.of ps).rows l with more := some q }) (by rw [hadd]; simp) (rowOf_text _ _) rfl ?_ hx ha
  intro s hs hl c hc _
  rw [hadd] at hs
  rcases List.mem_cons.mp hs with rfl | hs
  · have := hc.length_le
    simpa [rowOf_text] using this
  · have := (List.mem_filter.mp hs).2
    simp at this
    exact absurd hl this

theorem no_effect_never {ps : List Pattern} {q : Pattern} {l : Bytes} (hq : GoesOn q l) (h : ¬ TakesEffect ps l) (hu : UuidsTell (ps ++ [q])) {x : Bytes}
    {r : MatchResult} (ha : (Table.of (ps ++ [q])).Answer x (some r)) : r.pattern.uuid ≠ q.uuid := by
  refine never_answer hu (by simp) hq ?_ ha
  intro row hrow ht p hp
  have hr := (rowAt_mem (table_rows (ps ++ [q])).1).mp hrow
  rw [table_goesOn hq] at hr
  simp only [rowAt_add, ht] at hr
  unfold TakesEffect at h
  have h' := Classical.not_not.mp h
  rw [if_pos trivial] at hr
  simp only [Bool.false_eq_true, if_false, if_pos h', Option.some.injEq] at hr
  rw [← hr, h'.1] at hp
  simp at hp

/-- C116: right after a pattern that goes on after its first literal was added, it is the answer for every text it matches, or it is the answer for none. -/
theorem C116_all_or_nothing (sip : Bytes → UInt64) (ps : List Pattern) (q : Pattern) (hps : Proper sip (ps ++ [q])) (hu : UuidsTell (ps ++ [q])) (l : Bytes)
    (hq : GoesOn q l) :
    (∀ text caps r, Utf8 text → MatchesStrict q.pattern text caps → (SuffixTree.build sip (ps ++ [q]) >>= fun t => t.parse text) = .ok r →
      ∃ res, r = some res ∧ IsResult res q caps) ∨
    (∀ text res, Utf8 text → (SuffixTree.build sip (ps ++ [q]) >>= fun t => t.parse text) = .ok (some res) → res.pattern.uuid ≠ q.uuid) := by
  have hne : l ≠ [] := by obtain ⟨rest, _, e⟩ := hq; exact hps.nonempty q (by simp) l (by rw [e]; simp)
  by_cases h : TakesEffect ps l
  · exact .inl fun text caps r hx hm hr => effect_answers hq hne h hm (proper_answer hps hx hr)
  · exact .inr fun text res hx hr => no_effect_never hq h hu (proper_answer hps hx hr)

theorem takesEffect_of_no_longer {ps : List Pattern} {l : Bytes} (h : ¬ LongerLed ps l) : TakesEffect ps l := by
  rintro ⟨_, row, h1, h2, h3⟩
  exact h ⟨row.text, (table_rows ps).2 row h1, h2, h3⟩

/-- C116: if no pattern begins with a longer literal that begins with the literal of the new pattern, the new pattern is the answer for every text it
matches. -/
theorem C116_found (sip : Bytes → UInt64) (ps : List Pattern) (q : Pattern) (hps : Proper sip (ps ++ [q])) (l : Bytes) (hq : GoesOn q l)
    (h : ¬ LongerLed ps l) (text : Bytes) (hx : Utf8 text) (caps) (hm : MatchesStrict q.pattern text caps) (r : Option MatchResult)
    (hr : (SuffixTree.build sip (ps ++ [q]) >>= fun t => t.parse text) = .ok r) : ∃ res, r = some res ∧ IsResult res q caps := by
  have hne : l ≠ [] := by obtain ⟨rest, _, e⟩ := hq; exact hps.nonempty q (by simp) l (by rw [e]; simp)
  exact effect_answers hq hne (takesEffect_of_no_longer h) hm (proper_answer hps hx hr)

/-- While no pattern goes on after a beginning of `l` (or `l` itself), a longer literal that begins with it stays. -/
theorem longer_stays {l : Bytes} (ps : List Pattern) : (∀ p ∈ ps, ∀ l', l' <+: l → ¬ GoesOn p l') → LongerLed ps l → Extended (Table.of ps).rows l := by
  refine snoc_induction (P := fun ps => (∀ p ∈ ps, ∀ l', l' <+: l → ¬ GoesOn p l') → LongerLed ps l → Extended (Table.of ps).rows l) ?_ ?_ ps
  · rintro _ ⟨l', ⟨p, hp, _⟩, _⟩
    simp at hp
  · intro ps q ih h hl
    have ih' := ih fun p hp => h p (by simp [hp])
    rw [table_snoc]
    have hother : (∀ l' rest, q.pattern ≠ .literal l' :: rest) → Extended (Table.of ps).rows l := by
      intro hn
      obtain ⟨l', h1, h2⟩ := hl
      rcases leading_snoc.mp h1 with h1 | ⟨rest, h1⟩
      · exact ih' ⟨l', h1, h2⟩
      · exact absurd h1 (hn l' rest)
    unfold Table.add
    split
    · rename_i e; exact hother (by rw [e]; simp)
    · rename_i l0 rest0 e
      simp only
      rw [extended_rowAt]
      by_cases hlong : l <+: l0 ∧ l0 ≠ l
      · exact ⟨l0, hlong.1, hlong.2, by rw [rowAt_add, if_pos rfl]; simp⟩
      · have hext : Extended (Table.of ps).rows l := by
          obtain ⟨l', h1, h2, h3⟩ := hl
          rcases leading_snoc.mp h1 with h1 | ⟨rest, h1⟩
          · exact ih' ⟨l', h1, h2, h3⟩
          · rw [e] at h1
            simp only [List.cons.injEq, Token.literal.injEq] at h1
            exact absurd ⟨h1.1 ▸ h2, h1.1 ▸ h3⟩ hlong
        obtain ⟨x, h1, h2, h3⟩ := extended_rowAt.mp hext
        have hx0 : x ≠ l0 := by rintro rfl; exact hlong ⟨h1, h2⟩
        refine ⟨x, h1, h2, ?_⟩
        rw [rowAt_add, if_neg hx0, if_neg]
        · exact h3
        · rintro ⟨ha, _, hp⟩
          have hg : GoesOn q l0 := ⟨rest0, by simpa using ha, e⟩
          rcases Nat.le_total l0.length l.length with g | g
          · exact h q (by simp) l0 (prefix_total hp h1 g) hg
          · refine hlong ⟨prefix_total h1 hp g, ?_⟩
            rintro rfl
            exact h q (by simp) l0 (List.prefix_refl _) hg
    · rename_i e; exact hother (by rw [e]; simp)

theorem no_more_at {ps : List Pattern} {l : Bytes} (h : ∀ p ∈ ps, ¬ GoesOn p l) : (rowOf (Table.of ps).rows l).more = none := by
  cases hm : (rowOf (Table.of ps).rows l).more with
  | none => rfl
  | some q =>
    rw [rowOf_rowAt] at hm
    cases hf : rowAt (Table.of ps).rows l with
    | none => rw [hf] at hm; simp at hm
    | some row =>
      rw [hf] at hm
      obtain ⟨h1, rfl⟩ := rowAt_text hf
      obtain ⟨h2, h3⟩ := rowAt_source ps row h1 q hm
      exact absurd h3 (h q h2)

/-- C116: if no pattern goes on after the literal of the new pattern or after a beginning of it, but some pattern begins with a longer literal that begins
with it, the new pattern is lost: it is the answer for no text. -/
theorem C116_lost (sip : Bytes → UInt64) (ps : List Pattern) (q : Pattern) (hps : Proper sip (ps ++ [q])) (hu : UuidsTell (ps ++ [q])) (l : Bytes)
    (hq : GoesOn q l) (hno : ∀ p ∈ ps, ∀ l', l' <+: l → ¬ GoesOn p l') (h : LongerLed ps l) (text : Bytes) (hx : Utf8 text) (res : MatchResult)
    (hr : (SuffixTree.build sip (ps ++ [q]) >>= fun t => t.parse text) = .ok (some res)) : res.pattern.uuid ≠ q.uuid :=
  no_effect_never hq (fun g => g ⟨no_more_at fun p hp => hno p hp l (List.prefix_refl _), longer_stays ps hno h⟩) hu (proper_answer hps hx hr)

/-! ### In any list -/

theorem row_of_more {ps : List Pattern} {l : Bytes} {p : Pattern} (h : (rowOf (Table.of ps).rows l).more = some p) :
    ∃ row ∈ (Table.of ps).rows, row.text = l ∧ row.more = some p := by
  rw [rowOf_rowAt] at h
  cases hf : rowAt (Table.of ps).rows l with
  | none => rw [hf] at h; simp at h
  | some row =>
    rw [hf] at h
    exact ⟨row, (rowAt_text hf).1, (rowAt_text hf).2, h⟩

/-- C116: in any trie, a pattern that goes on after its first literal is either the answer for every text it matches that follows no leading literal beyond the
pattern's own one, or it is the answer for no text. -/
theorem C116_whole_or_not_at_all (sip : Bytes → UInt64) (ps : List Pattern) (hps : Proper sip ps) (hu : UuidsTell ps) (p : Pattern) (hp : p ∈ ps) (l : Bytes)
    (hg : GoesOn p l) :
    (∀ text caps r, Utf8 text → LeavesAt ps l text → MatchesStrict p.pattern text caps → (SuffixTree.build sip ps >>= fun t => t.parse text) = .ok r →
      ∃ res, r = some res ∧ res.pattern.uuid = p.uuid ∧ HasCaptures res.values caps) ∨
    (∀ text res, Utf8 text → (SuffixTree.build sip ps >>= fun t => t.parse text) = .ok (some res) → res.pattern.uuid ≠ p.uuid) := by
  have hne : l ≠ [] := by obtain ⟨rest, _, e⟩ := hg; exact hps.nonempty p hp l (by rw [e]; simp)
  by_cases h : ∃ row ∈ (Table.of ps).rows, row.text = l ∧ ∃ q, row.more = some q ∧ q.uuid = p.uuid
  · obtain ⟨row, h1, h2, q, h3, h4⟩ := h
    obtain ⟨hq, hgq⟩ := rowAt_source ps row h1 q h3
    have hpat := hu q hq p hp h4
    refine .inl fun text caps r hx hleave hm hr => ?_
    obtain ⟨res, e, hres⟩ := found_answer hne (h2 ▸ hgq) h1 h2 h3 (fun r hr => hleave r.text ((table_rows ps).2 r hr)) (hpat ▸ hm) (proper_answer hps hx hr)
    exact ⟨res, e, by rw [hres.1]; exact h4, hres.2⟩
  · refine .inr fun text res hx hr hid => ?_
    rcases answer_origin (proper_answer hps hx hr) with ⟨row, h1, q, h2, h3⟩ | ⟨row, h1, q, h2, h3, _⟩ | ⟨q, h1, h3⟩
    · obtain ⟨h4, h5⟩ := table_whole ps row h1 q h2
      have := hu q h4 p hp (by rw [← hid, h3])
      obtain ⟨rest, g, g'⟩ := hg
      rw [h5, g'] at this
      simp at this
      exact g this.2
    · obtain ⟨h4, h5⟩ := rowAt_source ps row h1 q h2
      have := hu q h4 p hp (by rw [← hid, h3])
      have hg' : GoesOn q l := by obtain ⟨rest, g, g'⟩ := hg; exact ⟨rest, g, this.trans g'⟩
      exact h ⟨row, h1, goesOn_unique h5 hg', q, h2, by rw [← hid, h3]⟩
    · have h4 := table_parserLed ps q h1
      have := hu q h4 p hp (by rw [← hid, h3])
      obtain ⟨rest, g, g'⟩ := hg
      exact parserLed_source ps q h1 l ⟨rest, g, this.trans g'⟩

/-- The addition of a pattern that does not go on after `l` or after a beginning of it leaves what is kept for `l`. -/
theorem more_stays {ps : List Pattern} {q p : Pattern} {l : Bytes} (h : ∀ l', l' <+: l → ¬ GoesOn q l') (hm : (rowOf (Table.of ps).rows l).more = some p) :
    (rowOf (Table.of (ps ++ [q])).rows l).more = some p := by
  rw [table_snoc]
  unfold Table.add
  split
  · exact hm
  · rename_i l0 rest0 e
    simp only
    rw [rowOf_rowAt]
    by_cases hl : l = l0
    · subst hl
      have hr : rest0 = [] := by
        false_or_by_contra
        rename_i hr
        exact h l (List.prefix_refl _) ⟨rest0, hr, e⟩
      subst hr
      rw [rowAt_add, if_pos rfl]
      simpa using hm
    · rw [rowAt_add, if_neg hl, if_neg]
      · rw [← rowOf_rowAt]; exact hm
      · rintro ⟨h1, _, h3⟩
        exact h l0 h3 ⟨rest0, by simpa using h1, e⟩
  · exact hm

theorem more_stays_all {A : List Pattern} {p : Pattern} {l : Bytes} (hm : (rowOf (Table.of A).rows l).more = some p) (B : List Pattern) :
    (∀ q ∈ B, ∀ l', l' <+: l → ¬ GoesOn q l') → (rowOf (Table.of (A ++ B)).rows l).more = some p := by
  refine snoc_induction (P := fun B => (∀ q ∈ B, ∀ l', l' <+: l → ¬ GoesOn q l') → (rowOf (Table.of (A ++ B)).rows l).more = some p) ?_ ?_ B
  · intro _; simpa using hm
  · intro B q ih h
    rw [← List.append_assoc]
    exact more_stays (h q (by simp)) (ih fun s hs => h s (by simp [hs]))

theorem effect_more {ps : List Pattern} {q : Pattern} {l : Bytes} (hq : GoesOn q l) (h : TakesEffect ps l) :
    (rowOf (Table.of (ps ++ [q])).rows l).more = some q := by
  rw [table_goesOn hq]
  simp only
  rw [rowOf_rowAt, rowAt_add, if_pos rfl]
  unfold TakesEffect at h
  simp [h]

theorem kept_found {sip : Bytes → UInt64} {A B : List Pattern} {p : Pattern} (hps : Proper sip (A ++ p :: B)) {l : Bytes} (hg : GoesOn p l)
    (hk : TakesEffect A l) (hB : ∀ q ∈ B, ∀ l', l' <+: l → ¬ GoesOn q l') {text : Bytes} (hx : Utf8 text)
    (hleave : LeavesAt (A ++ p :: B) l text) {caps} (hm : MatchesStrict p.pattern text caps) {r : Option MatchResult}
    (hr : (SuffixTree.build sip (A ++ p :: B) >>= fun t => t.parse text) = .ok r) : ∃ res, r = some res ∧ IsResult res p caps := by
  have hne : l ≠ [] := by obtain ⟨rest, _, e⟩ := hg; exact hps.nonempty p (by simp) l (by rw [e]; simp)
  have hmore := more_stays_all (effect_more hg hk) B hB
  rw [show A ++ [p] ++ B = A ++ p :: B by simp] at hmore
  obtain ⟨row, h1, h2, h3⟩ := row_of_more hmore
  exact found_answer hne hg h1 h2 h3 (fun r hr => hleave r.text ((table_rows _).2 r hr)) hm (proper_answer hps hx hr)

/-- C116: a pattern that was kept when it was added stays, as long as no pattern that goes on after its literal or after a beginning of it is added: it is the
answer for every text it matches that follows no leading literal beyond the pattern's own one. -/
theorem C116_stays (sip : Bytes → UInt64) (A B : List Pattern) (p : Pattern) (hps : Proper sip (A ++ p :: B)) (l : Bytes) (hg : GoesOn p l)
    (hA : ¬ LongerLed A l) (hB : ∀ q ∈ B, ∀ l', l' <+: l → ¬ GoesOn q l') (text : Bytes) (hx : Utf8 text) (hleave : LeavesAt (A ++ p :: B) l text) (caps)
    (hm : MatchesStrict p.pattern text caps) (r : Option MatchResult) (hr : (SuffixTree.build sip (A ++ p :: B) >>= fun t => t.parse text) = .ok r) :
    ∃ res, r = some res ∧ IsResult res p caps :=
  kept_found hps hg (takesEffect_of_no_longer hA) hB hx hleave hm hr

/-- What is kept for `l` after more additions was kept for it before them or comes from them. -/
theorem more_from (A : List Pattern) (l : Bytes) (B : List Pattern) : ∀ p, (rowOf (Table.of (A ++ B)).rows l).more = some p →
    (rowOf (Table.of A).rows l).more = some p ∨ p ∈ B := by
  refine snoc_induction (P := fun B => ∀ p, (rowOf (Table.of (A ++ B)).rows l).more = some p → (rowOf (Table.of A).rows l).more = some p ∨ p ∈ B) ?_ ?_ B
  · intro p h; simpa using h
  · intro B q ih p h
    have hold : (rowOf (Table.of (A ++ B)).rows l).more = some p → (rowOf (Table.of A).rows l).more = some p ∨ p ∈ B ++ [q] := fun h =>
      (ih p h).imp id (fun h => by simp [h])
    rw [← List.append_assoc, table_snoc] at h
    unfold Table.add at h
    split at h
    · exact hold h
    · simp only at h
      rw [rowOf_rowAt, rowAt_add] at h
      split at h
      · rename_i e
        subst e
        simp only [Option.getD_some] at h
        split at h
        · exact hold h
        · split at h
          · exact hold h
          · simp only [Option.some.injEq] at h
            exact .inr (by simp [h])
      · split at h
        · simp at h
        · rw [← rowOf_rowAt] at h
          exact hold h
    · exact hold h

/-- C116: a later pattern that goes on after the same literal replaces a pattern for good: unless it is added again, it is the answer for no text, whatever is
added afterwards. -/
theorem C116_replaced (sip : Bytes → UInt64) (A B C : List Pattern) (p q : Pattern) (hps : Proper sip (A ++ p :: B ++ q :: C))
    (hu : UuidsTell (A ++ p :: B ++ q :: C)) (l : Bytes) (hg : GoesOn p l) (hgq : GoesOn q l) (hne : ∀ s ∈ q :: C, s.uuid ≠ p.uuid) (text : Bytes)
    (hx : Utf8 text) (res : MatchResult) (hr : (SuffixTree.build sip (A ++ p :: B ++ q :: C) >>= fun t => t.parse text) = .ok (some res)) :
    res.pattern.uuid ≠ p.uuid := by
  intro hid
  have ha := proper_answer hps hx hr
  rcases answer_origin ha with ⟨row, h1, s, h2, h3⟩ | ⟨row, h1, s, h2, h3, _⟩ | ⟨s, h1, h3⟩
  · obtain ⟨h4, h5⟩ := table_whole _ row h1 s h2
    have := hu s h4 p (by simp) (by rw [← hid, h3])
    obtain ⟨rest, g, g'⟩ := hg
    rw [h5, g'] at this
    simp at this
    exact g this.2
  · obtain ⟨h4, h5⟩ := rowAt_source _ row h1 s h2
    have hsid : s.uuid = p.uuid := by rw [← hid, h3]
    have hpat := hu s h4 p (by simp) hsid
    have hgs : GoesOn s l := by obtain ⟨rest, g, g'⟩ := hg; exact ⟨rest, g, hpat.trans g'⟩
    have ht : row.text = l := goesOn_unique h5 hgs
    have hrow : (rowOf (Table.of ((A ++ p :: B ++ [q]) ++ C)).rows l).more = some s := by
      rw [show A ++ p :: B ++ [q] ++ C = A ++ p :: B ++ q :: C by simp, ← ht, rowOf_mem (table_rows _).1 h1]; exact h2
    rcases more_from _ l C s hrow with hrow | hs
    · by_cases hk : TakesEffect (A ++ p :: B) l
      · rw [effect_more hgq hk] at hrow
        simp only [Option.some.injEq] at hrow
        exact hne q (by simp) (by rw [hrow]; exact hsid)
      · rw [table_goesOn hgq] at hrow
        simp only at hrow
        unfold TakesEffect at hk
        have hk' := Classical.not_not.mp hk
        rw [rowOf_rowAt, rowAt_add, if_pos rfl] at hrow
        simp [hk'] at hrow
    · exact hne s (by simp [hs]) hsid
  · have h4 := table_parserLed _ s h1
    have := hu s h4 p (by simp) (by rw [← hid, h3])
    obtain ⟨rest, g, g'⟩ := hg
    exact parserLed_source _ s h1 l ⟨rest, g, this.trans g'⟩

/-! ### Lists in which no two patterns go on after the same literal -/

theorem distinct_snoc {ps : List Pattern} {q : Pattern} (h : DistinctHeads (ps ++ [q])) : DistinctHeads ps ∧ ∀ p ∈ ps, ∀ l, GoesOn p l → ¬ GoesOn q l := by
  unfold DistinctHeads at h ⊢
  rw [List.pairwise_append] at h
  exact ⟨h.1, fun p hp l h1 h2 => h.2.2 p hp q (by simp) l h1 h2⟩

theorem late_old {ps : List Pattern} {p q : Pattern} (h : DistinctHeads (ps ++ [q])) (hp : p ∈ ps) : Late (ps ++ [q]) p ↔ Late ps p := by
  constructor
  · rintro ⟨A, B, l, e, hl, hlong⟩
    rcases List.eq_nil_or_concat B with rfl | ⟨B', b, rfl⟩
    · have := List.append_inj_right' e rfl
      simp at this
      subst this
      exact absurd hl ((distinct_snoc h).2 q hp l hl)
    · rw [List.concat_eq_append, ← List.cons_append, ← List.append_assoc] at e
      have := List.append_inj_left' e rfl
      exact ⟨A, B', l, this, hl, hlong⟩
  · rintro ⟨A, B, l, e, hl, hlong⟩
    exact ⟨A, B ++ [q], l, by rw [e]; simp, hl, hlong⟩

theorem late_new {ps : List Pattern} {q : Pattern} {l : Bytes} (h : DistinctHeads (ps ++ [q])) (hl : GoesOn q l) : Late (ps ++ [q]) q ↔ LongerLed ps l := by
  constructor
  · rintro ⟨A, B, l', e, hl', hlong⟩
    rcases List.eq_nil_or_concat B with rfl | ⟨B', b, rfl⟩
    · have := List.append_inj_left' e rfl
      subst this
      rw [goesOn_unique hl hl']
      exact hlong
    · rw [List.concat_eq_append, ← List.cons_append, ← List.append_assoc] at e
      have := List.append_inj_left' e rfl
      exact absurd hl ((distinct_snoc h).2 q (by rw [this]; simp) l hl)
  · intro hlong
    exact ⟨ps, [], l, rfl, hl, hlong⟩

/-- The rows of such a list: every leading literal has one, and every pattern that goes on is at its literal, unless it came late. -/
theorem distinct_rows (ps : List Pattern) : DistinctHeads ps →
    (∀ l, rowAt (Table.of ps).rows l ≠ none ↔ Leading ps l) ∧
    ∀ l p, (rowOf (Table.of ps).rows l).more = some p ↔ p ∈ ps ∧ GoesOn p l ∧ ¬ Late ps p := by
  refine snoc_induction (P := fun ps => DistinctHeads ps → (∀ l, rowAt (Table.of ps).rows l ≠ none ↔ Leading ps l) ∧
    ∀ l p, (rowOf (Table.of ps).rows l).more = some p ↔ p ∈ ps ∧ GoesOn p l ∧ ¬ Late ps p) ?_ ?_ ps
  · intro _
    refine ⟨fun l => ?_, fun l p => ?_⟩
    · simp [Table.of, rowAt, Leading]
    · simp [Table.of, rowOf]
  · intro ps q ih hd
    obtain ⟨hd', hq⟩ := distinct_snoc hd
    obtain ⟨ih1, ih2⟩ := ih hd'
    have hmem : ∀ l p, (p ∈ ps ++ [q] ∧ GoesOn p l ∧ ¬ Late (ps ++ [q]) p) ↔
        (p ∈ ps ∧ GoesOn p l ∧ ¬ Late ps p) ∨ (p = q ∧ GoesOn q l ∧ ¬ LongerLed ps l) := by
      intro l p
      simp only [List.mem_append, List.mem_singleton]
      constructor
      · rintro ⟨hp, h1, h2⟩
        by_cases hp' : p ∈ ps
        · exact .inl ⟨hp', h1, fun g => h2 ((late_old hd hp').mpr g)⟩
        · have : p = q := by rcases hp with h | h; exact absurd h hp'; exact h
          subst this
          exact .inr ⟨rfl, h1, fun g => h2 ((late_new hd h1).mpr g)⟩
      · rintro (⟨hp, h1, h2⟩ | ⟨rfl, h1, h2⟩)
        · exact ⟨.inl hp, h1, fun g => h2 ((late_old hd hp).mp g)⟩
        · exact ⟨.inr rfl, h1, fun g => h2 ((late_new hd h1).mp g)⟩
    have hsame : (∀ l rest, q.pattern ≠ .literal l :: rest) → (∀ l, rowAt (Table.of ps).rows l ≠ none ↔ Leading (ps ++ [q]) l) ∧
        ∀ l p, (rowOf (Table.of ps).rows l).more = some p ↔ p ∈ ps ++ [q] ∧ GoesOn p l ∧ ¬ Late (ps ++ [q]) p := by
      intro hn
      refine ⟨fun l => ?_, fun l p => ?_⟩
      · rw [ih1, leading_snoc]
        exact ⟨.inl, fun h => h.elim id (fun ⟨rest, h⟩ => absurd h (hn l rest))⟩
      · rw [ih2, hmem]
        exact ⟨.inl, fun h => h.elim id (fun ⟨_, ⟨rest, _, h⟩, _⟩ => absurd h (hn l rest))⟩
    rw [table_snoc]
    unfold Table.add
    split
    · rename_i e; exact hsame (by rw [e]; simp)
    · rename_i l0 rest0 e
      simp only
      have hext : Extended (Table.of ps).rows l0 ↔ LongerLed ps l0 := by
        rw [extended_rowAt]
        constructor
        · rintro ⟨x, h1, h2, h3⟩; exact ⟨x, (ih1 x).mp h3, h1, h2⟩
        · rintro ⟨x, h1, h2, h3⟩; exact ⟨x, h2, h3, (ih1 x).mpr h1⟩
      have hgo : ∀ l, GoesOn q l ↔ l = l0 ∧ rest0 ≠ [] := by
        intro l
        constructor
        · rintro ⟨rest, h1, h2⟩
          rw [e] at h2
          simp only [List.cons.injEq, Token.literal.injEq] at h2
          exact ⟨h2.1.symm, h2.2 ▸ h1⟩
        · rintro ⟨rfl, h⟩; exact ⟨rest0, h, e⟩
      have hmore0 : rest0 ≠ [] → (rowOf (Table.of ps).rows l0).more = none := by
        intro hr
        cases hm : (rowOf (Table.of ps).rows l0).more with
        | none => rfl
        | some p =>
          obtain ⟨h1, h2, _⟩ := (ih2 l0 p).mp hm
          exact absurd ((hgo l0).mpr ⟨rfl, hr⟩) (hq p h1 l0 h2)
      have hrow : ∀ x, x ≠ l0 → rowAt (addLiteralLed (Table.of ps).rows l0 rest0.isEmpty q) x = rowAt (Table.of ps).rows x := by
        intro x hx
        rw [rowAt_add, if_neg hx]
        split
        · rename_i hc
          obtain ⟨h1, h2, h3⟩ := hc
          have hm := hmore0 (by simpa using h1)
          have hne : ¬ Extended (Table.of ps).rows l0 := fun g => h2 ⟨hm, g⟩
          cases hf : rowAt (Table.of ps).rows x with
          | none => rfl
          | some r => exact absurd (extended_rowAt.mpr ⟨x, h3, hx, by rw [hf]; simp⟩) hne
        · rfl
      refine ⟨fun l => ?_, fun l p => ?_⟩
      · rw [leading_snoc]
        by_cases hl : l = l0
        · subst hl
          refine ⟨fun _ => .inr ⟨rest0, e⟩, fun _ => ?_⟩
          rw [rowAt_add, if_pos rfl]; simp
        · rw [hrow l hl, ih1]
          refine ⟨.inl, fun h => h.elim id ?_⟩
          rintro ⟨rest, h⟩
          rw [e] at h
          simp only [List.cons.injEq, Token.literal.injEq] at h
          exact absurd h.1.symm hl
      · rw [hmem, hgo, ← ih2]
        rw [rowOf_rowAt (addLiteralLed _ _ _ _)]
        by_cases hl : l = l0
        · subst hl
          rw [rowAt_add, if_pos rfl]
          cases hr : rest0 with
          | nil => simp
          | cons b bs =>
            have hm := hmore0 (by rw [hr]; simp)
            simp only [List.isEmpty_cons, Bool.false_eq_true, if_false, hm, true_and, ← hext, Option.getD_some]
            by_cases hx : Extended (Table.of ps).rows l
            · simp [hx, hm]
            · simp [hx]
              exact eq_comm
        · rw [hrow l hl, ← rowOf_rowAt]
          simp [hl]
    · rename_i e; exact hsame (by rw [e]; simp)

/-- C117: in a trie to which no two patterns that go on after the same literal were added, a pattern that was added after a pattern with a longer literal that
begins with its own is the answer for no text. -/
theorem C117_late_never (sip : Bytes → UInt64) (ps : List Pattern) (hps : Proper sip ps) (hd : DistinctHeads ps) (hu : UuidsTell ps) (p : Pattern)
    (hp : p ∈ ps) (hl : Late ps p) (text : Bytes) (hx : Utf8 text) (res : MatchResult)
    (hr : (SuffixTree.build sip ps >>= fun t => t.parse text) = .ok (some res)) : res.pattern.uuid ≠ p.uuid := by
  obtain ⟨A, B, l, e, hg, hlong⟩ := hl
  refine never_answer hu hp hg ?_ (proper_answer hps hx hr)
  intro row hrow ht q hq he
  have hrow' : rowOf (Table.of ps).rows l = row := by rw [← ht]; exact rowOf_mem (table_rows ps).1 hrow
  obtain ⟨h1, h2, h3⟩ := ((distinct_rows ps hd).2 l q).mp (by rw [hrow']; exact hq)
  have : q = p := by
    unfold DistinctHeads at hd
    rw [e] at h1 hd
    rw [List.pairwise_append, List.pairwise_cons] at hd
    rcases List.mem_append.mp h1 with g | g
    · exact absurd hg (hd.2.2 q g p (by simp) l h2)
    · rcases List.mem_cons.mp g with g | g
      · exact g
      · exact absurd h2 (hd.2.1.1 q g l hg)
  subst this
  exact h3 ⟨A, B, l, e, hg, hlong⟩

/-- C117: all others are answers: such a pattern is the answer for every text it matches that follows no leading literal beyond the pattern's own one. -/
theorem C117_found (sip : Bytes → UInt64) (ps : List Pattern) (hps : Proper sip ps) (hd : DistinctHeads ps) (p : Pattern) (hp : p ∈ ps) (l : Bytes)
    (hg : GoesOn p l) (hl : ¬ Late ps p) (text : Bytes) (hx : Utf8 text) (hleave : LeavesAt ps l text) (caps) (hm : MatchesStrict p.pattern text caps)
    (r : Option MatchResult) (hr : (SuffixTree.build sip ps >>= fun t => t.parse text) = .ok r) : ∃ res, r = some res ∧ IsResult res p caps := by
  have hne : l ≠ [] := by obtain ⟨rest, _, e⟩ := hg; exact hps.nonempty p hp l (by rw [e]; simp)
  have hmore := ((distinct_rows ps hd).2 l p).mpr ⟨hp, hg, hl⟩
  obtain ⟨row, h1, h2, h3⟩ : ∃ row ∈ (Table.of ps).rows, row.text = l ∧ row.more = some p := by
    rw [rowOf_rowAt] at hmore
    cases hf : rowAt (Table.of ps).rows l with
    | none => rw [hf] at hmore; simp at hmore
    | some row =>
      rw [hf] at hmore
      exact ⟨row, (rowAt_text hf).1, (rowAt_text hf).2, hmore⟩
  exact found_answer hne hg h1 h2 h3 (fun r hr => hleave r.text ((table_rows ps).2 r hr)) hm (proper_answer hps hx hr)

/-- No addition to such a list removes the row of another literal. -/
theorem distinct_keeps {ps : List Pattern} {q : Pattern} (hd : DistinctHeads (ps ++ [q])) {l0 : Bytes} {rest0 : List Token}
    (e : q.pattern = .literal l0 :: rest0) {x : Bytes} (hx : x ≠ l0) :
    rowAt (addLiteralLed (Table.of ps).rows l0 rest0.isEmpty q) x = rowAt (Table.of ps).rows x := by
  rw [rowAt_add, if_neg hx]
  split
  · rename_i hc
    obtain ⟨h1, h2, h3⟩ := hc
    have hm : (rowOf (Table.of ps).rows l0).more = none := no_more_at fun p hp hg =>
      (distinct_snoc hd).2 p hp l0 hg ⟨rest0, by simpa using h1, e⟩
    cases hf : rowAt (Table.of ps).rows x with
    | none => rfl
    | some r => exact absurd ⟨hm, extended_rowAt.mpr ⟨x, h3, hx, by rw [hf]; simp⟩⟩ h2
  · rfl

theorem lastFor_snoc (ps : List Pattern) (q : Pattern) (l : Bytes) : lastFor (ps ++ [q]) l = if q.pattern = [.literal l] then some q else lastFor ps l := by
  unfold lastFor
  rw [List.reverse_append, List.reverse_singleton, List.singleton_append, List.find?_cons]
  by_cases h : q.pattern = [.literal l] <;> simp [h]

theorem distinct_whole (ps : List Pattern) : DistinctHeads ps → ∀ l, (rowOf (Table.of ps).rows l).whole = lastFor ps l := by
  refine snoc_induction (P := fun ps => DistinctHeads ps → ∀ l, (rowOf (Table.of ps).rows l).whole = lastFor ps l) ?_ ?_ ps
  · intro _ l
    simp [Table.of, rowOf, lastFor]
  · intro ps q ih hd l
    have ih := ih (distinct_snoc hd).1
    rw [table_snoc, lastFor_snoc]
    unfold Table.add
    split
    · rename_i e; rw [e, ih]; simp
    · rename_i l0 rest0 e
      simp only
      rw [rowOf_rowAt (addLiteralLed _ _ _ _)]
      by_cases hl : l = l0
      · subst hl
        rw [rowAt_add, if_pos rfl, e]
        cases rest0 with
        | nil => simp
        | cons b bs =>
          simp only [List.isEmpty_cons, Bool.false_eq_true, if_false, Option.getD_some]
          rw [if_neg (show ¬ (Token.literal l :: b :: bs) = [Token.literal l] by simp)]
          split <;> exact ih l
      · rw [distinct_keeps hd e hl, ← rowOf_rowAt, ih, if_neg]
        rw [e]
        simp only [List.cons.injEq, Token.literal.injEq]
        exact fun h => hl h.1.symm
    · rename_i e; rw [e, ih]; simp

/-- C117: a text that is a leading literal is answered by the last pattern that is this literal alone, whatever else was added; without such a pattern it is not
answered. -/
theorem C117_literals (sip : Bytes → UInt64) (ps : List Pattern) (hps : Proper sip ps) (hd : DistinctHeads ps) (l : Bytes) (hl : Leading ps l)
    (r : Option MatchResult) (hr : (SuffixTree.build sip ps >>= fun t => t.parse l) = .ok r) :
    r = (lastFor ps l).map fun p => { pattern := { p with pattern := [] }, values := [] } := by
  have hx : Utf8 l := by
    obtain ⟨p, hp, rest, e⟩ := hl
    exact hps.utf8 p hp l (by rw [e]; simp)
  have ha := proper_answer hps hx hr
  cases hf : rowAt (Table.of ps).rows l with
  | none => exact absurd hf (((distinct_rows ps hd).1 l).mpr hl)
  | some row =>
    obtain ⟨h1, h2⟩ := rowAt_text hf
    rw [ha.1 row h1 h2, ← distinct_whole ps hd l, rowOf_rowAt, hf]
    rfl

/-! A list that meets the hypotheses: `ab%{INT:x}`, `abc`, `abc%{INT:y}`, `a%{INT:z}`, the last of which is late. -/

def keptSample1 : Pattern := Samples.pat 1 [.literal b!"ab", .parser (Samples.int b!"x")]
def keptSample2 : Pattern := Samples.pat 2 [.literal b!"abc"]
def keptSample3 : Pattern := Samples.pat 3 [.literal b!"abc", .parser (Samples.int b!"y")]
def keptSample4 : Pattern := Samples.pat 4 [.literal b!"a", .parser (Samples.int b!"z")]

theorem keptSample_goesOn {i : Nat} {l0 : Bytes} {a : Parser} {l : Bytes} : GoesOn (Samples.pat i [.literal l0, .parser a]) l ↔ l = l0 := by
  unfold GoesOn Samples.pat
  constructor
  · rintro ⟨rest, _, e⟩
    simp only [List.cons.injEq, Token.literal.injEq] at e
    exact e.1.symm
  · rintro rfl
    exact ⟨_, by simp, rfl⟩

example : DistinctHeads [keptSample1, keptSample2, keptSample3, keptSample4] := by
  have h2 : ∀ l, ¬ GoesOn keptSample2 l := by
    rintro l ⟨rest, h, e⟩
    simp only [keptSample2, Samples.pat, List.cons.injEq] at e
    exact h e.2.symm
  simp only [DistinctHeads, List.pairwise_cons, List.mem_cons, List.not_mem_nil, or_false, forall_eq_or_imp, forall_eq]
  simp [h2, keptSample1, keptSample3, keptSample4, keptSample_goesOn]

example : Late [keptSample1, keptSample2, keptSample3, keptSample4] keptSample4 :=
  ⟨[keptSample1, keptSample2, keptSample3], [], b!"a", rfl, keptSample_goesOn.mpr rfl, b!"ab", ⟨keptSample1, by simp, _, rfl⟩, by decide, by decide⟩

example : (SuffixTree.build Samples.sip [keptSample1, keptSample2, keptSample3, keptSample4] >>= fun t => t.parse b!"a7") = .ok none ∧
    (SuffixTree.build Samples.sip [keptSample4, keptSample1, keptSample2, keptSample3] >>= fun t => t.parse b!"a7") =
      .ok (some ⟨Samples.pat 4 [], [(b!"z", b!"7")]⟩) ∧
    (SuffixTree.build Samples.sip [keptSample1, keptSample2, keptSample3, keptSample4] >>= fun t => t.parse b!"ab7") =
      .ok (some ⟨Samples.pat 1 [], [(b!"x", b!"7")]⟩) ∧
    (SuffixTree.build Samples.sip [keptSample1, keptSample2, keptSample3, keptSample4] >>= fun t => t.parse b!"abc7") =
      .ok (some ⟨Samples.pat 3 [], [(b!"y", b!"7")]⟩) ∧
    (SuffixTree.build Samples.sip [keptSample1, keptSample2, keptSample3, keptSample4] >>= fun t => t.parse b!"abc") =
      .ok (some ⟨Samples.pat 2 [], []⟩) := by decide +kernel

/-! Both cases of `C116_all_or_nothing`. The condition that no two patterns go on after the same literal is needed for C117: here the second
`a%{INT:z}` removes `ab%{INT:x}`, which was not late. -/

example : (SuffixTree.build Samples.sip [keptSample4, keptSample1] >>= fun t => t.parse b!"ab7") = .ok (some ⟨Samples.pat 1 [], [(b!"x", b!"7")]⟩) ∧
    (SuffixTree.build Samples.sip [keptSample4, keptSample1, keptSample4] >>= fun t => t.parse b!"ab7") = .ok none := by decide +kernel

end Verif
