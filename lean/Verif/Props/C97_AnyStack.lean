import Verif.Props.C88_Stack
import Verif.Props.C97_StackAdd
/-! C88 and C97 for stacks of any size: what is done with a stack that is not exhausted does not depend on its size; and how many frames are needed. -/
namespace Verif
open Spec

/-- The stack was exhausted, or the result is `x`. -/
def Upto {α : Type} (o : Option α) (x : α) : Prop := o = none ∨ o = some x

theorem upto_none {α : Type} (x : α) : Upto none x := .inl rfl
theorem upto_some {α : Type} (x : α) : Upto (some x) x := .inr rfl

/-! ### Adding to a trie -/

section
variable {fS : LiteralNode → Option (M LiteralNode)} {f : LiteralNode → M LiteralNode} (hf : ∀ n, Upto (fS n) (f n))
include hf

theorem updateLiteral_upto (t : SuffixTree) (pos : Nat) : Upto (t.updateLiteralS pos fS) (t.updateLiteral pos f) := by
  unfold SuffixTree.updateLiteralS SuffixTree.updateLiteral
  cases t.literalChildren[pos]? with
  | none => exact upto_some _
  | some n =>
    simp only [unwrap, bind, Except.bind]
    rcases hf n with h | h <;> rw [h]
    · exact upto_none _
    · cases f n <;> exact upto_some _

end

theorem lookupMut_upto {onOkS onErrS : SuffixTree → Nat → Option (M SuffixTree)} {onOk onErr : SuffixTree → Nat → M SuffixTree}
    (hok : ∀ node pos, Upto (onOkS node pos) (onOk node pos)) (herr : ∀ node n, Upto (onErrS node n) (onErr node n)) (frames : Nat) :
    ∀ (t : SuffixTree) (l : Bytes), Upto (t.lookupLiteralMutS frames l onOkS onErrS) (t.lookupLiteralMut l onOk onErr) := by
  induction frames with
  | zero => intro t l; exact upto_none _
  | succ k ih =>
    intro t l
    unfold SuffixTree.lookupLiteralMutS SuffixTree.lookupLiteralMut
    cases hr : t.search l with
    | error e => exact upto_some _
    | ok r =>
      cases r with
      | found pos => exact hok t pos
      | notFound => exact herr t l.length
      | goDown pos y =>
        simp only
        cases hg : t.literalChildren[pos]? with
        | none => simp; exact upto_some _
        | some n =>
          simp only
          cases hc : n.node with
          | none => simp; exact upto_some _
          | some c =>
            simp only
            rcases ih c y with h | h <;> rw [h]
            · exact upto_none _
            · cases c.lookupLiteralMut y onOk onErr <;> exact upto_some _

section
variable {fS : LiteralNode → Option (M LiteralNode)} {f : LiteralNode → M LiteralNode} (hf : ∀ n, Upto (fS n) (f n))
include hf

theorem fresh_upto (frames : Nat) (t : SuffixTree) (l : Bytes) :
    Upto (t.lookupFreshlyInsertedLiteralS frames l fS) (t.lookupFreshlyInsertedLiteral l f) := by
  cases frames with
  | zero => exact upto_none _
  | succ k => exact lookupMut_upto (fun node pos => updateLiteral_upto hf node pos) (fun _ _ => upto_some _) k t l

theorem tail_upto (frames : Nat) (t : SuffixTree) (l : Bytes) : Upto (t.insertLiteralTailS frames l fS) (t.insertLiteralTail l f) := by
  cases frames with
  | zero => exact upto_none _
  | succ k =>
    unfold SuffixTree.insertLiteralTailS SuffixTree.insertLiteralTail
    simp only [bind, Except.bind]
    cases hb : SortedVec.binarySearchBy (fun p => p.cmpStr l) t.literalChildren with
    | error e => exact upto_some _
    | ok r =>
      cases r with
      | err pos =>
        simp only
        cases t.addLiteralNode { LiteralNode.new l with hasValue := true } with
        | error e => exact upto_some _
        | ok t' => exact updateLiteral_upto hf t' pos
      | ok pos =>
        simp only
        cases hg : t.literalChildren[pos]? with
        | none => exact upto_some _
        | some hit =>
          simp only [unwrap]
          cases hcp : hasCommonPrefix hit.literal l with
          | none => exact upto_some _
          | some cpl =>
            simp only
            cases hsp : hit.split cpl l with
            | error e => exact upto_some _
            | ok m =>
              simp only
              cases hx : ltrunc l cpl with
              | error e => exact upto_some _
              | ok suffix =>
                simp only
                cases hc : m.node with
                | none => exact upto_some _
                | some c =>
                  simp only
                  rcases fresh_upto hf k c suffix with h | h <;> rw [h]
                  · exact upto_none _
                  · cases c.lookupFreshlyInsertedLiteral suffix f <;> exact upto_some _

theorem insertLiteral_upto (frames : Nat) (t : SuffixTree) (l : Bytes) : Upto (t.insertLiteralS frames l fS) (t.insertLiteral l f) := by
  cases frames with
  | zero => exact upto_none _
  | succ k =>
    refine lookupMut_upto (fun node pos => updateLiteral_upto hf node pos) (fun node n => ?_) k t l
    simp only [bind, Except.bind]
    cases checkedSub l.length n with
    | error e => exact upto_some _
    | ok off =>
      simp only
      cases ltrunc l off with
      | error e => exact upto_some _
      | ok tail => exact tail_upto hf k node tail

end

theorem insertParser_upto (sip : Bytes → UInt64) {fS : ParserNode → Option (M ParserNode)} {f : ParserNode → M ParserNode}
    (hf : ∀ n, Upto (fS n) (f n)) (frames : Nat) (t : SuffixTree) (q : Parser) : Upto (t.insertParserS sip frames q fS) (t.insertParser sip q f) := by
  cases frames with
  | zero => exact upto_none _
  | succ k =>
    simp only [SuffixTree.insertParserS, SuffixTree.insertParser]
    cases hlook : t.lookupParser sip q with
    | none =>
      simp only [bind, Except.bind]
      rcases hf (ParserNode.new q) with h | h <;> rw [h]
      · exact upto_none _
      · cases f (ParserNode.new q) <;> exact upto_some _
    | some item =>
      simp only [bind, Except.bind]
      cases t.parserChildren[item]? with
      | none => exact upto_some _
      | some n =>
        simp only [unwrap]
        rcases hf n with h | h <;> rw [h]
        · exact upto_none _
        · cases f n <;> exact upto_some _

theorem insert_upto (sip : Bytes → UInt64) (frames : Nat) : ∀ (t : SuffixTree) (p : Pattern), Upto (t.insertS sip frames p) (t.insert sip p) := by
  induction frames using Nat.strongRecOn with
  | _ frames ih =>
    intro t p
    cases frames with
    | zero => unfold SuffixTree.insertS; exact upto_none _
    | succ k =>
      unfold SuffixTree.insertS SuffixTree.insert
      cases hp : p.popFirstToken with
      | none => simp; exact upto_some _
      | some tp =>
        obtain ⟨tok, q⟩ := tp
        have hentry : Upto (SuffixTree.entryInsertS sip k q) (if q.pattern.isEmpty then .ok none else
            match SuffixTree.new.insert sip q with | .error e => .error e | .ok sa => .ok (some sa)) := by
          unfold SuffixTree.entryInsertS
          cases k with
          | zero => exact upto_none _
          | succ j =>
            simp only
            split
            · exact upto_some _
            · rcases ih j (by omega) SuffixTree.new q with h | h <;> rw [h]
              · exact upto_none _
              · cases SuffixTree.new.insert sip q <;> exact upto_some _
        cases tok with
        | literal l =>
          refine insertLiteral_upto ?_ k t l
          intro n
          rcases hentry with h | h <;> rw [h]
          · exact upto_none _
          · cases q.pattern.isEmpty with
            | true => exact upto_some _
            | false =>
              simp only [Bool.false_eq_true, if_false]
              cases SuffixTree.new.insert sip q <;> exact upto_some _
        | parser r =>
          refine insertParser_upto sip ?_ k t r
          intro n
          rcases hentry with h | h <;> rw [h]
          · exact upto_none _
          · cases q.pattern.isEmpty with
            | true => exact upto_some _
            | false =>
              simp only [Bool.false_eq_true, if_false]
              cases SuffixTree.new.insert sip q <;> exact upto_some _

/-- C97: whatever the size of the stack and whatever the trie: if the stack is not exhausted, the result is that of an unbounded one. -/
theorem C97_trie_same (sip : Bytes → UInt64) (t : SuffixTree) (p : Pattern) (frames : Nat) (r : M SuffixTree) (h : t.addPatternS sip frames p = some r) :
    r = t.addPattern sip p := by
  cases frames with
  | zero => simp [SuffixTree.addPatternS] at h
  | succ k =>
    have h : t.insertS sip k p = some r := h
    rcases insert_upto sip k t p with h' | h' <;> rw [h'] at h
    · cases h
    · exact (Option.some.inj h).symm

/-! ### Adding to a suffix array -/

theorem sinsertLiteral_upto {fS : LiteralE → Option (M LiteralE)} {f : LiteralE → M LiteralE} (hf : ∀ n, Upto (fS n) (f n)) (frames : Nat)
    (t : SuffixTable) (l : Bytes) : Upto (t.insertLiteralS frames l fS) (t.insertLiteral l f) := by
  cases frames with
  | zero => exact upto_none _
  | succ k =>
    simp only [SuffixTable.insertLiteralS, SuffixTable.insertLiteral, bind, Except.bind]
    cases binarySearchBy (fun probe : LiteralE => .ok (cmpBytes probe.literal l)) t.literalEntries with
    | error e => exact upto_some _
    | ok r =>
      cases r with
      | ok pos =>
        simp only
        cases t.literalEntries[pos]? with
        | none => exact upto_some _
        | some e =>
          simp only [unwrap]
          rcases hf e with h | h <;> rw [h]
          · exact upto_none _
          · cases f e <;> exact upto_some _
      | err pos =>
        simp only
        cases vecInsert t.literalEntries pos (LiteralE.new l) with
        | error e => exact upto_some _
        | ok ls =>
          simp only
          cases ls[pos]? with
          | none => exact upto_some _
          | some e =>
            simp only [unwrap]
            rcases hf e with h | h <;> rw [h]
            · exact upto_none _
            · cases f e <;> exact upto_some _

theorem sinsertParser_upto (sip : Bytes → UInt64) {fS : ParserE → Option (M ParserE)} {f : ParserE → M ParserE} (hf : ∀ n, Upto (fS n) (f n))
    (frames : Nat) (t : SuffixTable) (q : Parser) : Upto (t.insertParserS sip frames q fS) (t.insertParser sip q f) := by
  cases frames with
  | zero => exact upto_none _
  | succ k =>
    simp only [SuffixTable.insertParserS, SuffixTable.insertParser]
    cases hl : t.parserEntries.findIdx? (fun x => x.parser.hashOs sip == q.hashOs sip) with
    | none =>
      simp only [bind, Except.bind]
      rcases hf (ParserE.new q) with h | h <;> rw [h]
      · exact upto_none _
      · cases f (ParserE.new q) <;> exact upto_some _
    | some item =>
      simp only [bind, Except.bind]
      cases t.parserEntries[item]? with
      | none => exact upto_some _
      | some n =>
        simp only [unwrap]
        rcases hf n with h | h <;> rw [h]
        · exact upto_none _
        · cases f n <;> exact upto_some _

theorem sinsert_upto (sip : Bytes → UInt64) (frames : Nat) : ∀ (t : SuffixTable) (p : Pattern), Upto (t.insertS sip frames p) (t.insert sip p) := by
  induction frames using Nat.strongRecOn with
  | _ frames ih =>
    intro t p
    cases frames with
    | zero => unfold SuffixTable.insertS; exact upto_none _
    | succ k =>
      unfold SuffixTable.insertS SuffixTable.insert
      cases hp : p.popFirstToken with
      | none => simp; exact upto_some _
      | some tp =>
        obtain ⟨tok, q⟩ := tp
        have hentry : Upto (SuffixTable.entryInsertS sip k q) (if q.pattern.isEmpty then .ok none else
            match SuffixTable.new.insert sip q with | .error e => .error e | .ok sa => .ok (some sa)) := by
          unfold SuffixTable.entryInsertS
          cases k with
          | zero => exact upto_none _
          | succ j =>
            simp only
            split
            · exact upto_some _
            · rcases ih j (by omega) SuffixTable.new q with h | h <;> rw [h]
              · exact upto_none _
              · cases SuffixTable.new.insert sip q <;> exact upto_some _
        cases tok with
        | literal l =>
          refine sinsertLiteral_upto ?_ k t l
          intro n
          rcases hentry with h | h <;> rw [h]
          · exact upto_none _
          · cases q.pattern.isEmpty with
            | true => exact upto_some _
            | false =>
              simp only [Bool.false_eq_true, if_false]
              cases SuffixTable.new.insert sip q <;> exact upto_some _
        | parser r =>
          refine sinsertParser_upto sip ?_ k t r
          intro n
          rcases hentry with h | h <;> rw [h]
          · exact upto_none _
          · cases q.pattern.isEmpty with
            | true => exact upto_some _
            | false =>
              simp only [Bool.false_eq_true, if_false]
              cases SuffixTable.new.insert sip q <;> exact upto_some _

/-- C97: the same for the suffix array. -/
theorem C97_suffix_same (sip : Bytes → UInt64) (t : SuffixTable) (p : Pattern) (frames : Nat) (r : M SuffixTable)
    (h : t.addPatternS sip frames p = some r) : r = t.addPattern sip p := by
  cases frames with
  | zero => simp [SuffixTable.addPatternS] at h
  | succ k =>
    have h : t.insertS sip k p = some r := h
    rcases sinsert_upto sip k t p with h' | h' <;> rw [h'] at h
    · cases h
    · exact (Option.some.inj h).symm

/-! ### Parsing -/

theorem lookup_upto (frames : Nat) : ∀ (t : SuffixTree) (l : Bytes), Upto (t.lookupLiteralS frames l) (t.lookupLiteral l) := by
  induction frames with
  | zero => intro t l; exact upto_none _
  | succ k ih =>
    intro t l
    unfold SuffixTree.lookupLiteralS SuffixTree.lookupLiteral
    cases hr : t.search l with
    | error e => exact upto_some _
    | ok r =>
      cases r with
      | found pos => exact upto_some _
      | notFound => exact upto_some _
      | goDown pos y =>
        simp only
        cases hg : t.literalChildren[pos]? with
        | none => simp; exact upto_some _
        | some n =>
          simp only
          cases hc : n.node with
          | none => simp; exact upto_some _
          | some c => simp only; exact ih c y

theorem first_upto {text : Bytes} {parse : ParserNode → Option (M (Option MatchResult))} (h : ∀ p : ParserNode, Upto (parse p) (p.parse text)) (ps : List ParserNode) :
    Upto (firstResult parse ps) (parseWithParsers ps text) := by
  induction ps with
  | nil => unfold parseWithParsers; exact upto_some _
  | cons p ps ih =>
    unfold parseWithParsers firstResult
    rcases h p with e | e <;> rw [e]
    · exact upto_none _
    · cases p.parse text with
      | error e => exact upto_some _
      | ok r =>
        cases r with
        | some r => exact upto_some _
        | none => exact ih

theorem parse_upto (frames : Nat) :
    (∀ (t : SuffixTree) (text : Bytes), Upto (t.parseS frames text) (t.parse text)) ∧
    (∀ (ps : List ParserNode) (text : Bytes), Upto (parseWithParsersS frames ps text) (parseWithParsers ps text)) ∧
    (∀ (p : ParserNode) (text : Bytes), Upto (p.parseS frames text) (p.parse text)) ∧
    (∀ (t : SuffixTree) (text : Bytes) (q : Parser) (v : Bytes), Upto (parseThenPushKvpairS frames t text q v) (parseThenPushKvpair t text q v)) := by
  induction frames with
  | zero =>
    refine ⟨fun t text => ?_, fun ps text => ?_, fun p text => ?_, fun t text q v => ?_⟩
    · unfold SuffixTree.parseS; exact upto_none _
    · unfold parseWithParsersS; exact upto_none _
    · unfold ParserNode.parseS; exact upto_none _
    · unfold parseThenPushKvpairS; exact upto_none _
  | succ k ih =>
    obtain ⟨ih1, ih2, ih3, ih4⟩ := ih
    refine ⟨fun t text => ?_, fun ps text => ?_, fun p text => ?_, fun t text q v => ?_⟩
    · unfold SuffixTree.parseS SuffixTree.parse
      rcases lookup_upto k t text with h | h <;> rw [h]
      · exact upto_none _
      · cases hl : t.lookupLiteral text with
        | error e => simp; exact upto_some _
        | ok r =>
          cases r with
          | ok node pos =>
            simp only
            cases node.literalChildren[pos]? <;> exact upto_some _
          | err node n =>
            simp only
            cases checkedSub text.length n with
            | error e => exact upto_some _
            | ok off =>
              simp only
              cases ltrunc text off with
              | error e => exact upto_some _
              | ok y => exact ih2 _ _
    · unfold parseWithParsersS
      exact first_upto (fun p => ih3 p text) ps
    · unfold ParserNode.parseS ParserNode.parse
      cases p.parser.parse text with
      | error e => exact upto_some _
      | ok r =>
        cases r with
        | none => exact upto_some _
        | some v =>
          simp only
          cases ltrunc text v.length with
          | error e => exact upto_some _
          | ok y =>
            simp only
            cases hc : p.node with
            | none => simp; exact upto_some _
            | some c => simp only; exact ih4 _ _ _ _
    · unfold parseThenPushKvpairS parseThenPushKvpair
      rcases ih1 t text with h | h <;> rw [h]
      · exact upto_none _
      · cases t.parse text with
        | error e => exact upto_some _
        | ok r => cases r <;> exact upto_some _

/-- C88: whatever the size of the stack and whatever the trie: if the stack is not exhausted, the answer is that of an unbounded one. -/
theorem C88_trie_same (t : SuffixTree) (text : Bytes) (frames : Nat) (r : M (Option MatchResult)) (h : t.parseS frames text = some r) :
    r = t.parse text := by
  rcases (parse_upto frames).1 t text with h' | h' <;> rw [h'] at h
  · cases h
  · exact (Option.some.inj h).symm

theorem sfirst_upto {text : Bytes} {parse : ParserE → Option (M (Option MatchResult))} (h : ∀ p : ParserE, Upto (parse p) (p.parse text)) (ps : List ParserE) :
    Upto (firstResult parse ps) (sparseWithParsers ps text) := by
  induction ps with
  | nil => unfold sparseWithParsers; exact upto_some _
  | cons p ps ih =>
    unfold sparseWithParsers firstResult
    rcases h p with e | e <;> rw [e]
    · exact upto_none _
    · cases p.parse text with
      | error e => exact upto_some _
      | ok r =>
        cases r with
        | some r => exact upto_some _
        | none => exact ih

theorem sparse_upto (frames : Nat) :
    (∀ (t : SuffixTable) (text : Bytes), Upto (t.parseS frames text) (t.parse text)) ∧
    (∀ (ps : List ParserE) (text : Bytes), Upto (sparseWithParsersS frames ps text) (sparseWithParsers ps text)) ∧
    (∀ (p : ParserE) (text : Bytes), Upto (p.parseS frames text) (p.parse text)) := by
  induction frames with
  | zero =>
    refine ⟨fun t text => ?_, fun ps text => ?_, fun p text => ?_⟩
    · unfold SuffixTable.parseS; exact upto_none _
    · unfold sparseWithParsersS; exact upto_none _
    · unfold ParserE.parseS; exact upto_none _
  | succ k ih =>
    obtain ⟨ih1, ih2, ih3⟩ := ih
    refine ⟨fun t text => ?_, fun ps text => ?_, fun p text => ?_⟩
    · unfold SuffixTable.parseS SuffixTable.parse
      cases hl : t.longestCommonPrefix text with
      | error e => simp; exact upto_some _
      | ok r =>
        cases r with
        | none => simp only; exact ih2 _ _
        | some child =>
          simp only
          split
          · exact upto_some _
          · split
            · cases ltrunc text (commonPrefixLen child.literal text) with
              | error e => exact upto_some _
              | ok y =>
                simp only
                cases hc : child.child with
                | none => simp; exact upto_some _
                | some c => simp only; exact ih1 _ _
            · exact upto_some _
    · unfold sparseWithParsersS
      exact sfirst_upto (fun p => ih3 p text) ps
    · unfold ParserE.parseS ParserE.parse
      cases p.parser.parse text with
      | error e => exact upto_some _
      | ok r =>
        cases r with
        | none => exact upto_some _
        | some v =>
          simp only
          cases ltrunc text v.length with
          | error e => exact upto_some _
          | ok y =>
            simp only
            cases hc : p.child with
            | none => simp only; exact upto_some _
            | some c =>
              simp only
              rcases ih1 c y with h | h <;> rw [h]
              · exact upto_none _
              · cases c.parse y with
                | error e => exact upto_some _
                | ok r => cases r <;> exact upto_some _

/-- C88: the same for the suffix array. -/
theorem C88_suffix_array_same (t : SuffixTable) (text : Bytes) (frames : Nat) (r : M (Option MatchResult)) (h : t.parseS frames text = some r) :
    r = t.parse text := by
  rcases (sparse_upto frames).1 t text with h' | h' <;> rw [h'] at h
  · cases h
  · exact (Option.some.inj h).symm

/-! ### How many frames are needed -/

section
variable {fS : LiteralNode → Option (M LiteralNode)}

theorem updateLiteral_used {t t' : SuffixTree} {pos : Nat} (h : t.updateLiteralS pos fS = some (.ok t')) : ∃ n n', fS n = some (.ok n') := by
  unfold SuffixTree.updateLiteralS at h
  split at h
  · simp at h
  · split at h
    · cases h
    · simp at h
    · rename_i h'; exact ⟨_, _, h'⟩

theorem lookupMut_used {onOk onErr : SuffixTree → Nat → Option (M SuffixTree)} (frames : Nat) : ∀ (t t' : SuffixTree) (l : Bytes),
    t.lookupLiteralMutS frames l onOk onErr = some (.ok t') → ∃ node n node', onOk node n = some (.ok node') ∨ onErr node n = some (.ok node') := by
  induction frames with
  | zero => intro t t' l h; simp [SuffixTree.lookupLiteralMutS] at h
  | succ k ih =>
    intro t t' l h
    simp only [SuffixTree.lookupLiteralMutS] at h
    split at h
    · simp at h
    · exact ⟨_, _, _, .inl h⟩
    · exact ⟨_, _, _, .inr h⟩
    · split at h
      · simp at h
      · split at h
        · simp at h
        · split at h
          · cases h
          · simp at h
          · rename_i h'; exact ih _ _ _ h'

theorem tail_used {frames : Nat} {t t' : SuffixTree} {l : Bytes} (h : t.insertLiteralTailS frames l fS = some (.ok t')) : ∃ n n', fS n = some (.ok n') := by
  cases frames with
  | zero => simp [SuffixTree.insertLiteralTailS] at h
  | succ k =>
    simp only [SuffixTree.insertLiteralTailS] at h
    split at h
    · simp at h
    · split at h
      · simp at h
      · split at h
        · simp at h
        · split at h
          · simp at h
          · split at h
            · simp at h
            · split at h
              · simp at h
              · split at h
                · cases h
                · simp at h
                · rename_i h'
                  cases k with
                  | zero => simp [SuffixTree.lookupFreshlyInsertedLiteralS] at h'
                  | succ j =>
                    obtain ⟨_, _, _, h' | h'⟩ := lookupMut_used _ _ _ _ h'
                    · exact updateLiteral_used h'
                    · simp at h'
    · split at h
      · simp at h
      · exact updateLiteral_used h

theorem insertLiteral_used {frames : Nat} {t t' : SuffixTree} {l : Bytes} (h : t.insertLiteralS frames l fS = some (.ok t')) :
    ∃ n n', fS n = some (.ok n') := by
  cases frames with
  | zero => simp [SuffixTree.insertLiteralS] at h
  | succ k =>
    obtain ⟨_, _, _, h' | h'⟩ := lookupMut_used _ _ _ _ h
    · exact updateLiteral_used h'
    · split at h'
      · simp at h'
      · split at h'
        · simp at h'
        · exact tail_used h'

end

theorem insertParser_used {sip : Bytes → UInt64} {fS : ParserNode → Option (M ParserNode)} {frames : Nat} {t t' : SuffixTree} {q : Parser}
    (h : t.insertParserS sip frames q fS = some (.ok t')) : ∃ n n', fS n = some (.ok n') := by
  cases frames with
  | zero => simp [SuffixTree.insertParserS] at h
  | succ k =>
    simp only [SuffixTree.insertParserS] at h
    split at h
    · split at h
      · simp at h
      · split at h
        · cases h
        · simp at h
        · rename_i h'; exact ⟨_, _, h'⟩
    · split at h
      · cases h
      · simp at h
      · rename_i h'; exact ⟨_, _, h'⟩

theorem insert_needs (sip : Bytes → UInt64) (frames : Nat) : ∀ (t t' : SuffixTree) (p : Pattern), t.insertS sip frames p = some (.ok t') →
    2 * p.pattern.length ≤ frames := by
  induction frames using Nat.strongRecOn with
  | _ frames ih =>
    intro t t' p h
    cases frames with
    | zero => unfold SuffixTree.insertS at h; cases h
    | succ k =>
      unfold SuffixTree.insertS at h
      cases hp : p.popFirstToken with
      | none =>
        unfold Pattern.popFirstToken at hp
        split at hp
        · rename_i e; simp [e]
        · simp at hp
      | some tp =>
        obtain ⟨tok, q⟩ := tp
        have hq : p.pattern = tok :: q.pattern := by
          unfold Pattern.popFirstToken at hp
          split at hp <;> simp at hp
          rename_i h
          rw [h, hp.1, ← hp.2]
        have hentry : ∀ o, SuffixTree.entryInsertS sip k q = some (.ok o) → 2 * q.pattern.length + 1 ≤ k := by
          intro o ho
          cases k with
          | zero => unfold SuffixTree.entryInsertS at ho; cases ho
          | succ j =>
            simp only [SuffixTree.entryInsertS] at ho
            split at ho
            · rename_i he
              simp at he
              simp [he]
            · split at ho
              · cases ho
              · simp at ho
              · rename_i h'
                have := ih j (by omega) _ _ _ h'
                omega
        rw [hp] at h
        rw [hq, List.length_cons]
        cases tok with
        | literal l =>
          obtain ⟨n, n', h'⟩ := insertLiteral_used h
          split at h'
          · cases h'
          · simp at h'
          · rename_i e; have := hentry _ e; omega
          · rename_i e; have := hentry _ e; omega
        | parser r =>
          obtain ⟨n, n', h'⟩ := insertParser_used h
          split at h'
          · cases h'
          · simp at h'
          · rename_i e; have := hentry _ e; omega
          · rename_i e; have := hentry _ e; omega

/-- C97: the bound cannot be much better: a pattern is never added with fewer than two frames for each of its tokens and one more, whatever the trie is. -/
theorem C97_trie_needed (sip : Bytes → UInt64) (t t' : SuffixTree) (p : Pattern) (frames : Nat) (h : t.addPatternS sip frames p = some (.ok t')) :
    2 * p.pattern.length + 1 ≤ frames := by
  cases frames with
  | zero => simp [SuffixTree.addPatternS] at h
  | succ k => have := insert_needs sip k t t' p h; omega

theorem sinsertLiteral_used {fS : LiteralE → Option (M LiteralE)} {frames : Nat} {t t' : SuffixTable} {l : Bytes}
    (h : t.insertLiteralS frames l fS = some (.ok t')) : ∃ n n', fS n = some (.ok n') := by
  cases frames with
  | zero => simp [SuffixTable.insertLiteralS] at h
  | succ k =>
    simp only [SuffixTable.insertLiteralS] at h
    split at h
    · simp at h
    · split at h
      · simp at h
      · split at h
        · cases h
        · simp at h
        · rename_i h'; exact ⟨_, _, h'⟩
    · split at h
      · simp at h
      · split at h
        · simp at h
        · split at h
          · cases h
          · simp at h
          · rename_i h'; exact ⟨_, _, h'⟩

theorem sinsertParser_used {sip : Bytes → UInt64} {fS : ParserE → Option (M ParserE)} {frames : Nat} {t t' : SuffixTable} {q : Parser}
    (h : t.insertParserS sip frames q fS = some (.ok t')) : ∃ n n', fS n = some (.ok n') := by
  cases frames with
  | zero => simp [SuffixTable.insertParserS] at h
  | succ k =>
    simp only [SuffixTable.insertParserS] at h
    split at h
    · split at h
      · simp at h
      · split at h
        · cases h
        · simp at h
        · rename_i h'; exact ⟨_, _, h'⟩
    · split at h
      · cases h
      · simp at h
      · rename_i h'; exact ⟨_, _, h'⟩

theorem sinsert_needs (sip : Bytes → UInt64) (frames : Nat) : ∀ (t t' : SuffixTable) (p : Pattern), t.insertS sip frames p = some (.ok t') →
    2 * p.pattern.length ≤ frames := by
  induction frames using Nat.strongRecOn with
  | _ frames ih =>
    intro t t' p h
    cases frames with
    | zero => unfold SuffixTable.insertS at h; cases h
    | succ k =>
      unfold SuffixTable.insertS at h
      cases hp : p.popFirstToken with
      | none =>
        unfold Pattern.popFirstToken at hp
        split at hp
        · rename_i e; simp [e]
        · simp at hp
      | some tp =>
        obtain ⟨tok, q⟩ := tp
        have hq : p.pattern = tok :: q.pattern := by
          unfold Pattern.popFirstToken at hp
          split at hp <;> simp at hp
          rename_i h
          rw [h, hp.1, ← hp.2]
        have hentry : ∀ o, SuffixTable.entryInsertS sip k q = some (.ok o) → 2 * q.pattern.length + 1 ≤ k := by
          intro o ho
          cases k with
          | zero => unfold SuffixTable.entryInsertS at ho; cases ho
          | succ j =>
            simp only [SuffixTable.entryInsertS] at ho
            split at ho
            · rename_i he
              simp at he
              simp [he]
            · split at ho
              · cases ho
              · simp at ho
              · rename_i h'
                have := ih j (by omega) _ _ _ h'
                omega
        rw [hp] at h
        rw [hq, List.length_cons]
        cases tok with
        | literal l =>
          obtain ⟨n, n', h'⟩ := sinsertLiteral_used h
          split at h'
          · cases h'
          · simp at h'
          · rename_i e; have := hentry _ e; omega
          · rename_i e; have := hentry _ e; omega
        | parser r =>
          obtain ⟨n, n', h'⟩ := sinsertParser_used h
          split at h'
          · cases h'
          · simp at h'
          · rename_i e; have := hentry _ e; omega
          · rename_i e; have := hentry _ e; omega

/-- C97: the same for the suffix array. -/
theorem C97_suffix_needed (sip : Bytes → UInt64) (t t' : SuffixTable) (p : Pattern) (frames : Nat) (h : t.addPatternS sip frames p = some (.ok t')) :
    2 * p.pattern.length + 1 ≤ frames := by
  cases frames with
  | zero => simp [SuffixTable.addPatternS] at h
  | succ k => have := sinsert_needs sip k t t' p h; omega

/-- Too small, just enough for an array, and enough for a trie. -/
example : (match SuffixTable.build Samples.sip Samples.chain with
    | .ok t => decide ((t.addPatternS Samples.sip 4 Samples.chainLast).isNone ∧ (t.addPatternS Samples.sip 5 Samples.chainLast).isSome)
    | .error _ => false) = true := by decide +kernel
example : Samples.addsWith [] Samples.chainLast 4 = some false ∧ Samples.addsWith [] Samples.chainLast 5 = some true := by decide +kernel

end Verif
