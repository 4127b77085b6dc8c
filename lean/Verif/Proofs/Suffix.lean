import Verif.Model.SuffixTable
import Verif.Proofs.CmpBytes
import Verif.Proofs.Search
import Verif.Proofs.CommonPrefix
import Verif.Proofs.TrieSingle
/-! Structure of reachable suffix tables and what `parse` does on them. -/
namespace Verif
open Spec

/-! ### insertion -/

/-- The table holding one pattern. -/
def ssingle : List Token → Pattern → SuffixTable
  | [], _ => SuffixTable.new
  | .literal l :: rest, q =>
    ⟨[⟨if rest.isEmpty then some q else none, l, if rest.isEmpty then none else some (ssingle rest q)⟩], []⟩
  | .parser a :: rest, q =>
    ⟨[], [⟨if rest.isEmpty then some q else none, a, if rest.isEmpty then none else some (ssingle rest q)⟩]⟩

/-- update of a literal entry -/
def supdL (rest : List Token) (q : Pattern) (e : LiteralE) : LiteralE :=
  if rest.isEmpty then { e with pattern := some q } else { e with child := some (ssingle rest q) }
/-- update of a parser entry -/
def supdP (rest : List Token) (q : Pattern) (e : ParserE) : ParserE :=
  if rest.isEmpty then { e with pattern := some q } else { e with child := some (ssingle rest q) }

theorem supdL_literal (rest q e) : (supdL rest q e).literal = e.literal := by unfold supdL; split <;> rfl
theorem supdP_parser (rest q e) : (supdP rest q e).parser = e.parser := by unfold supdP; split <;> rfl

theorem sbsearch_nil {α : Type} (f : α → M Ordering) : binarySearchBy f [] = .ok (.err 0) := by
  unfold binarySearchBy; rw [binarySearchLoop]
  split
  · rfl
  · rename_i h; simp at h

theorem sinsertLiteral_new (l : Bytes) (f : LiteralE → M LiteralE) :
    SuffixTable.new.insertLiteral l f = (f (LiteralE.new l)).map fun e => ⟨[e], []⟩ := by
  unfold SuffixTable.insertLiteral
  rw [show SuffixTable.new.literalEntries = [] from rfl, sbsearch_nil]
  simp only [bind, Except.bind, vecInsert, List.length_nil, Nat.le_refl, if_true, List.take_nil, List.drop_nil, List.nil_append,
    List.getElem?_cons_zero, unwrap]
  cases f (LiteralE.new l) <;> rfl

theorem sinsertParser_new (sip : Bytes → UInt64) (a : Parser) (f : ParserE → M ParserE) :
    SuffixTable.new.insertParser sip a f = (f (ParserE.new a)).map fun e => ⟨[], [e]⟩ := by
  unfold SuffixTable.insertParser
  simp only [SuffixTable.new, List.findIdx?_nil, bind, Except.bind]
  cases f (ParserE.new a) <;> rfl

theorem strip_tail (p : Pattern) (rest : List Token) : ({ p with pattern := rest } : Pattern).strip = p.strip := rfl

theorem strip_of_nil {p : Pattern} (h : p.pattern = []) : p.strip = p := by
  cases p; simp at h; subst h; rfl

theorem sinsert_new (sip : Bytes → UInt64) (toks : List Token) (p : Pattern) (hp : p.pattern = toks) :
    SuffixTable.new.insert sip p = .ok (ssingle toks p.strip) := by
  induction toks generalizing p with
  | nil =>
    rw [SuffixTable.insert]
    split
    · rfl
    · rename_i h; simp [Pattern.popFirstToken, hp] at h
    · rename_i h; simp [Pattern.popFirstToken, hp] at h
  | cons tok rest ih =>
    rw [SuffixTable.insert]
    have hpop : p.popFirstToken = some (tok, { p with pattern := rest }) := by simp [Pattern.popFirstToken, hp]
    split
    · rename_i h; rw [hpop] at h; simp at h
    · rename_i l p' h
      rw [hpop] at h; simp at h
      obtain ⟨rfl, rfl⟩ := h
      rw [sinsertLiteral_new]
      simp only
      cases rest with
      | nil => rfl
      | cons tok2 rest =>
        rw [ih _ rfl]
        rfl
    · rename_i l p' h
      rw [hpop] at h; simp at h
      obtain ⟨rfl, rfl⟩ := h
      rw [sinsertParser_new]
      simp only
      cases rest with
      | nil => rfl
      | cons tok2 rest =>
        rw [ih _ rfl]
        rfl

theorem sinsert_empty (sip : Bytes → UInt64) (t : SuffixTable) (p : Pattern) (hp : p.pattern = []) : t.insert sip p = .ok t := by
  rw [SuffixTable.insert]
  split
  · rfl
  · rename_i h; simp [Pattern.popFirstToken, hp] at h
  · rename_i h; simp [Pattern.popFirstToken, hp] at h

theorem sinsert_lit (sip : Bytes → UInt64) (t : SuffixTable) (p : Pattern) (l : Bytes) (rest : List Token) (hp : p.pattern = .literal l :: rest) :
    t.insert sip p = t.insertLiteral l fun e => .ok (supdL rest p.strip e) := by
  rw [SuffixTable.insert]
  have hpop : p.popFirstToken = some (.literal l, { p with pattern := rest }) := by simp [Pattern.popFirstToken, hp]
  split
  · rename_i h; rw [hpop] at h; simp at h
  · rename_i l p' h
    rw [hpop] at h; simp at h
    obtain ⟨rfl, rfl⟩ := h
    congr 1
    funext e
    simp only
    cases rest with
    | nil => rfl
    | cons tok rest => rw [sinsert_new sip _ _ rfl]; rfl
  · rename_i l p' h
    rw [hpop] at h; simp at h

theorem sinsert_par (sip : Bytes → UInt64) (t : SuffixTable) (p : Pattern) (a : Parser) (rest : List Token) (hp : p.pattern = .parser a :: rest) :
    t.insert sip p = t.insertParser sip a fun e => .ok (supdP rest p.strip e) := by
  rw [SuffixTable.insert]
  have hpop : p.popFirstToken = some (.parser a, { p with pattern := rest }) := by simp [Pattern.popFirstToken, hp]
  split
  · rename_i h; rw [hpop] at h; simp at h
  · rename_i l p' h
    rw [hpop] at h; simp at h
  · rename_i l p' h
    rw [hpop] at h; simp at h
    obtain ⟨rfl, rfl⟩ := h
    congr 1
    funext e
    simp only
    cases rest with
    | nil => rfl
    | cons tok rest => rw [sinsert_new sip _ _ rfl]; rfl

/-! ### the literal entries -/

/-- strictly ascending literals -/
def SSorted (es : List LiteralE) : Prop := es.Pairwise fun a b => cmpBytes a.literal b.literal = .lt

/-- insertion into the ascending list -/
def putLit (l : Bytes) (f : LiteralE → LiteralE) : List LiteralE → List LiteralE
  | [] => [f (LiteralE.new l)]
  | e :: es => match cmpBytes e.literal l with
    | .lt => e :: putLit l f es
    | .eq => f e :: es
    | .gt => f (LiteralE.new l) :: e :: es

theorem putLit_append {l : Bytes} {f} {A B : List LiteralE} (h : ∀ e ∈ A, cmpBytes e.literal l = .lt) :
    putLit l f (A ++ B) = A ++ putLit l f B := by
  induction A with
  | nil => rfl
  | cons e A ih =>
    simp only [List.cons_append, putLit]
    rw [h e (by simp)]
    simp only
    rw [ih fun e he => h e (by simp [he])]

theorem ssorted_rank {es : List LiteralE} (h : SSorted es) (x : Bytes) :
    es.Pairwise fun a b => rank (cmpBytes a.literal x) ≤ rank (cmpBytes b.literal x) := by
  refine List.Pairwise.imp ?_ h
  intro a b hab
  cases hb : cmpBytes b.literal x with
  | gt => cases cmpBytes a.literal x <;> simp [rank]
  | eq => rw [cmpBytes_eq] at hb; rw [← hb, hab]; simp [rank]
  | lt => rw [cmpBytes_trans hab hb]; simp [rank]

/-- The result of the binary search. -/
theorem ssearch {es : List LiteralE} (h : SSorted es) (x : Bytes) :
    (∃ A e B, es = A ++ e :: B ∧ e.literal = x ∧ (∀ a ∈ A, cmpBytes a.literal x = .lt) ∧ (∀ b ∈ B, cmpBytes b.literal x = .gt) ∧
      binarySearchBy (fun probe : LiteralE => .ok (cmpBytes probe.literal x)) es = .ok (.ok A.length)) ∨
    (∃ A B, es = A ++ B ∧ (∀ a ∈ A, cmpBytes a.literal x = .lt) ∧ (∀ b ∈ B, cmpBytes b.literal x = .gt) ∧
      binarySearchBy (fun probe : LiteralE => .ok (cmpBytes probe.literal x)) es = .ok (.err A.length)) := by
  rcases binarySearchBy_spec (fun probe : LiteralE => .ok (cmpBytes probe.literal x)) (fun e => cmpBytes e.literal x) es
    (fun _ _ => rfl) (ssorted_rank h x) with ⟨i, e, h1, h2, h3⟩ | ⟨i, h1, h2, h3, h4⟩
  · left
    rw [cmpBytes_eq] at h3
    obtain ⟨hi, he⟩ := List.getElem?_eq_some_iff.mp h2
    have hsplit : es = es.take i ++ e :: es.drop (i + 1) := by
      rw [← he, ← List.drop_eq_getElem_cons hi, List.take_append_drop]
    refine ⟨es.take i, e, es.drop (i + 1), hsplit, h3, ?_, ?_, ?_⟩
    · intro a ha
      unfold SSorted at h
      rw [hsplit, List.pairwise_append] at h
      have := h.2.2 a ha e (by simp)
      rw [h3] at this; exact this
    · intro b hb
      unfold SSorted at h
      rw [hsplit, List.pairwise_append, List.pairwise_cons] at h
      have := h.2.1.1 b hb
      rw [h3] at this
      rw [cmpBytes_gt]; exact this
    · rw [h1]; simp; omega
  · right
    refine ⟨es.take i, es.drop i, by simp, h3, h4, ?_⟩
    rw [h1]; simp; omega

theorem sinsertLiteral_run {t : SuffixTable} (h : SSorted t.literalEntries) (l : Bytes) (f : LiteralE → LiteralE) :
    t.insertLiteral l (fun e => .ok (f e)) = .ok { t with literalEntries := putLit l f t.literalEntries } := by
  unfold SuffixTable.insertLiteral
  rcases ssearch h l with ⟨A, e, B, h1, h2, h3, _, h4⟩ | ⟨A, B, h1, h2, h3, h4⟩
  · rw [h4]
    have : t.literalEntries[A.length]? = some e := by rw [h1]; simp
    simp only [bind, Except.bind, this, unwrap, pure, Except.pure]
    congr 2
    rw [h1, putLit_append h3]
    simp only [putLit, cmpBytes_eq.mpr h2]
    simp
  · rw [h4]
    simp only [bind, Except.bind, vecInsert]
    rw [if_pos (by rw [h1]; simp)]
    have e1 : t.literalEntries.take A.length = A := by rw [h1]; simp
    have e2 : t.literalEntries.drop A.length = B := by rw [h1]; simp
    rw [e1, e2]
    have : (A ++ LiteralE.new l :: B)[A.length]? = some (LiteralE.new l) := by simp
    simp only [this, unwrap, pure, Except.pure]
    congr 2
    rw [h1, putLit_append h2]
    cases B with
    | nil => simp [putLit]
    | cons b B => simp [putLit, h3 b (by simp)]

theorem putLit_mem {l : Bytes} {f : LiteralE → LiteralE} (hf : ∀ e, (f e).literal = e.literal) {es : List LiteralE} {e : LiteralE}
    (h : e ∈ putLit l f es) : e ∈ es ∨ e.literal = l := by
  induction es with
  | nil => simp [putLit] at h; right; rw [h, hf]; rfl
  | cons a es ih =>
    unfold putLit at h
    split at h
    · simp at h
      rcases h with rfl | h
      · simp
      · rcases ih h with h | h <;> simp [h]
    · rename_i hc
      rw [cmpBytes_eq] at hc
      simp at h
      rcases h with rfl | h
      · right; rw [hf]; exact hc
      · simp [h]
    · simp at h
      rcases h with rfl | rfl | h
      · right; rw [hf]; rfl
      · simp
      · simp [h]

theorem putLit_sorted {l : Bytes} {f : LiteralE → LiteralE} (hf : ∀ e, (f e).literal = e.literal) {es : List LiteralE} (h : SSorted es) :
    SSorted (putLit l f es) := by
  induction es with
  | nil => simp [putLit, SSorted]
  | cons a es ih =>
    unfold SSorted at h ih ⊢
    rw [List.pairwise_cons] at h
    unfold putLit
    split
    · rename_i hc
      rw [List.pairwise_cons]
      refine ⟨?_, ih h.2⟩
      intro e he
      rcases putLit_mem hf he with he | he
      · exact h.1 e he
      · rw [he]; exact hc
    · rw [List.pairwise_cons]
      refine ⟨?_, h.2⟩
      intro e he; rw [hf]; exact h.1 e he
    · rename_i hc
      rw [cmpBytes_gt] at hc
      rw [List.pairwise_cons, List.pairwise_cons]
      refine ⟨?_, h⟩
      intro e he
      rw [hf]
      simp at he
      rcases he with rfl | he
      · exact hc
      · exact cmpBytes_trans hc (h.1 e he)

/-- The entry of a literal. -/
def findLit (es : List LiteralE) (x : Bytes) : Option LiteralE := es.find? fun e => decide (e.literal = x)

theorem findLit_mem {es : List LiteralE} (h : SSorted es) {e : LiteralE} : e ∈ es ↔ findLit es e.literal = some e := by
  constructor
  · intro he
    induction es with
    | nil => simp at he
    | cons a es ih =>
      unfold SSorted at h
      rw [List.pairwise_cons] at h
      unfold findLit
      rw [List.find?_cons]
      simp at he
      rcases he with rfl | he
      · simp
      · have : a.literal ≠ e.literal := by
          intro h2
          have := h.1 e he
          rw [h2] at this
          exact cmpBytes_irrefl _ this
        simp only [this, decide_false]
        exact ih h.2 he
  · intro h; exact List.mem_of_find?_eq_some h

theorem findLit_literal {es : List LiteralE} {x : Bytes} {e : LiteralE} (h : findLit es x = some e) : e.literal = x := by
  have := List.find?_some h
  simpa using this

theorem findLit_lt {es : List LiteralE} {x : Bytes} (h : ∀ e ∈ es, cmpBytes x e.literal = .lt) : findLit es x = none := by
  unfold findLit
  rw [List.find?_eq_none]
  intro e he
  simp
  rintro rfl
  exact cmpBytes_irrefl _ (h e he)

theorem findLit_put {l : Bytes} {f : LiteralE → LiteralE} (hf : ∀ e, (f e).literal = e.literal) {es : List LiteralE} (h : SSorted es) (x : Bytes) :
    findLit (putLit l f es) x = if x = l then some (f ((findLit es l).getD (LiteralE.new l))) else findLit es x := by
  have hnew : ∀ l, (LiteralE.new l).literal = l := fun _ => rfl
  induction es with
  | nil =>
    simp only [putLit, findLit, List.find?_cons, List.find?_nil, hf, hnew, Option.getD_none]
    by_cases hx : x = l
    · subst hx; simp
    · simp [hx, Ne.symm hx]
  | cons a es ih =>
    unfold SSorted at h
    rw [List.pairwise_cons] at h
    have ih := ih h.2
    unfold putLit
    split
    · rename_i hc
      have hne : a.literal ≠ l := by rintro rfl; exact cmpBytes_irrefl _ hc
      unfold findLit at ih ⊢
      simp only [List.find?_cons, ih]
      by_cases hx : x = l
      · subst hx; simp [hne]
      · simp only [hx, if_false]
    · rename_i hc
      rw [cmpBytes_eq] at hc
      unfold findLit
      simp only [List.find?_cons, hf]
      by_cases hx : x = l
      · subst hx; simp [hc]
      · simp [hc, Ne.symm hx, hx]
    · rename_i hc
      rw [cmpBytes_gt] at hc
      have hl : findLit (a :: es) l = none := findLit_lt (by
        intro e he
        simp at he
        rcases he with rfl | he
        · exact hc
        · exact cmpBytes_trans hc (h.1 e he))
      rw [hl]
      by_cases hx : x = l
      · subst hx; simp [findLit, hf, hnew]
      · simp only [hx, if_false]
        conv => lhs; unfold findLit
        rw [List.find?_cons]
        simp only [hf, hnew, Ne.symm hx, decide_false]
        rfl

end Verif
