import Verif.Spec.Pieces
import Verif.Proofs.TrieSound
import Verif.Proofs.SuffixParse
import Verif.Props.C95_Cost
/-! C106: the values of an answer are separate pieces of the message, whatever the matcher holds. -/
namespace Verif
open Spec

theorem pieces_before {x : Bytes} {caps : List (Parser × Bytes)} (h : Pieces x caps) (pre : Bytes) : Pieces (pre ++ x) caps := by
  cases h with
  | nil => exact .nil _
  | cons gap v rest a caps h1 h2 =>
    have := Pieces.cons (pre ++ gap) v rest a caps h1 h2
    simpa using this

theorem pieces_suffix {x y : Bytes} {caps : List (Parser × Bytes)} (h : Pieces x caps) (hs : x <:+ y) : Pieces y caps := by
  obtain ⟨pre, rfl⟩ := hs
  exact pieces_before h pre

theorem pieces_length {x : Bytes} {caps : List (Parser × Bytes)} (h : Pieces x caps) : (caps.map fun c => c.2.length).sum ≤ x.length := by
  induction h with
  | nil => simp
  | cons gap v rest a caps _ _ ih => simp; omega

theorem bmap_insert_length (m : BMap) (k v : Bytes) : totalLength (m.insert k v) ≤ v.length + totalLength m := by
  induction m with
  | nil => simp [BMap.insert, totalLength]
  | cons e m ih =>
    obtain ⟨k', v'⟩ := e
    unfold BMap.insert
    unfold totalLength at *
    split <;> simp at * <;> omega

theorem bmap_insert_mem {m : BMap} {k v : Bytes} {kv : Bytes × Bytes} (h : kv ∈ m.insert k v) : kv = (k, v) ∨ kv ∈ m := by
  induction m with
  | nil => simpa [BMap.insert] using h
  | cons e m ih =>
    unfold BMap.insert at h
    split at h
    · simpa using h
    · simp at h ⊢; rcases h with h | h <;> simp [h]
    · simp at h ⊢
      rcases h with h | h
      · simp [h]
      · rcases ih h with h | h <;> simp [h]

/-- The answer `r` can be explained by separate pieces of `x`. -/
structure Explained (x : Bytes) (r : MatchResult) : Prop where
  utf8 : Utf8 x → ∀ kv ∈ r.values, Utf8 kv.2
  pieces : ∃ caps, Pieces x caps ∧ HasCaptures r.values caps ∧ totalLength r.values ≤ (caps.map fun c => c.2.length).sum

theorem explained_new (x : Bytes) (q : Pattern) : Explained x (MatchResult.new q) :=
  ⟨by simp [MatchResult.new], [], .nil x, hasCaptures_nil q, by simp [MatchResult.new, totalLength]⟩

theorem explained_suffix {x y : Bytes} {n : Nat} {r : MatchResult} (h : Explained x r) (hs : ltrunc y n = .ok x) : Explained y r := by
  obtain ⟨h0, caps, h1, h2⟩ := h
  exact ⟨fun hu => h0 (ltrunc_utf8 hu hs), caps, pieces_suffix h1 (ltrunc_suffix hs), h2⟩

theorem explained_insert {x rest v : Bytes} {r : MatchResult} {a : Parser} (hv : a.parse x = .ok (some v))
    (ht : ltrunc x v.length = .ok rest) (h : Explained rest r) : Explained x (r.insert a v) := by
  obtain ⟨hpm, hb⟩ := (parse_some a x v).mp hv
  obtain ⟨y, rfl⟩ := parserMatch_prefix hpm
  have he : rest = y := by
    rw [ltrunc, sliceFrom_ok hb] at ht
    simpa using ht.symm
  subst he
  obtain ⟨h0, caps, h1, h2, h3⟩ := h
  refine ⟨?_, (a, v) :: caps, by simpa using Pieces.cons [] v rest a caps hpm h1, hasCaptures_insert h2 a v, ?_⟩
  · intro hu kv hkv
    obtain ⟨u1, u2⟩ := boundary_split hu hb
    simp at u1 u2
    unfold MatchResult.insert at hkv
    split at hkv
    · rcases bmap_insert_mem hkv with rfl | hkv
      · exact u1
      · exact h0 u2 kv hkv
    · exact h0 u2 kv hkv
  unfold MatchResult.insert
  split
  · have := bmap_insert_length r.values (by assumption) v
    simp at *; omega
  · simp; omega

theorem trie_explained (n : Nat) :
    (∀ t : SuffixTree, 2 * sizeOf t < n → ∀ text r, t.parse text = .ok (some r) → Explained text r) ∧
    (∀ ps : List ParserNode, 2 * sizeOf ps < n → ∀ text r, parseWithParsers ps text = .ok (some r) → Explained text r) ∧
    (∀ p : ParserNode, 2 * sizeOf p < n → ∀ text r, p.parse text = .ok (some r) → Explained text r) := by
  induction n with
  | zero => exact ⟨fun _ h => absurd h (by omega), fun _ h => absurd h (by omega), fun _ h => absurd h (by omega)⟩
  | succ n ih =>
    obtain ⟨ih1, ih2, ih3⟩ := ih
    refine ⟨?_, ?_, ?_⟩
    · intro t ht text r h
      unfold SuffixTree.parse at h
      split at h
      · simp at h
      · split at h
        · simp at h
        · rename_i child _
          simp at h
          unfold SuffixTree.createMatchResultIfChildIsLeaf at h
          split at h
          · simp at h; rw [← h]; exact explained_new _ _
          · simp at h
      · rename_i node rem hl
        split at h
        · simp at h
        · split at h
          · simp at h
          · rename_i x hx
            have h3 := SuffixTree.lookupLiteral_err_size hl
            have h4 := SuffixTree.sizeOf_parserChildren node
            exact explained_suffix (ih2 _ (by omega) x r h) hx
    · intro ps hps text r h
      unfold parseWithParsers at h
      cases ps with
      | nil => simp at h
      | cons i rest =>
        simp at hps
        simp only [] at h
        split at h
        · simp at h
        · rename_i res hres
          simp at h; subst h
          exact ih3 i (by omega) text _ hres
        · exact ih2 rest (by omega) text r h
    · intro p hp text r h
      unfold ParserNode.parse at h
      split at h
      · simp at h
      · simp at h
      · rename_i v hv
        split at h
        · simp at h
        · rename_i x hx
          split at h
          · rename_i node hn
            have e2 : sizeOf p = 1 + sizeOf p.parser + sizeOf p.pattern + sizeOf p.node := by cases p; simp
            rw [hn] at e2; simp at e2
            unfold parseThenPushKvpair at h
            split at h
            · simp at h
            · rename_i r0 hr0
              simp at h; subst h
              exact explained_insert hv hx (ih1 node (by omega) x r0 hr0)
            · simp at h
          · unfold ParserNode.pushLastKvpair at h
            split at h
            · cases hq : p.pattern with
              | none => rw [hq] at h; simp [unwrap, bind, Except.bind] at h
              | some q =>
                rw [hq] at h
                simp [unwrap, bind, Except.bind, pure, Except.pure] at h
                subst h
                exact explained_insert hv hx (explained_new _ _)
            · simp [pure, Except.pure] at h

theorem table_explained (n : Nat) :
    (∀ t : SuffixTable, sizeOf t < n → ∀ text r, t.parse text = .ok (some r) → Explained text r) ∧
    (∀ ps : List ParserE, sizeOf ps < n → ∀ text r, sparseWithParsers ps text = .ok (some r) → Explained text r) ∧
    (∀ p : ParserE, sizeOf p < n → ∀ text r, p.parse text = .ok (some r) → Explained text r) := by
  induction n with
  | zero => exact ⟨fun _ h => absurd h (by omega), fun _ h => absurd h (by omega), fun _ h => absurd h (by omega)⟩
  | succ n ih =>
    obtain ⟨ih1, ih2, ih3⟩ := ih
    refine ⟨?_, ?_, ?_⟩
    · intro t ht text r h
      have e1 : sizeOf t = 1 + sizeOf t.literalEntries + sizeOf t.parserEntries := by cases t; simp
      unfold SuffixTable.parse at h
      split at h
      · simp at h
      · rename_i child hl
        simp only [] at h
        split at h
        · simp at h
          obtain ⟨q, _, rfl⟩ := h
          exact explained_new _ _
        · split at h
          · split at h
            · simp at h
            · rename_i x hx
              split at h
              · simp at h
              · rename_i c hc
                have h0 := List.sizeOf_lt_of_mem (SuffixTable.lcp_mem hl)
                have e2 : sizeOf child = 1 + sizeOf child.pattern + sizeOf child.literal + sizeOf child.child := by cases child; simp
                rw [hc] at e2; simp at e2
                exact explained_suffix (ih1 c (by omega) x r h) hx
          · simp at h
      · exact ih2 _ (by omega) text r h
    · intro ps hps text r h
      unfold sparseWithParsers at h
      cases ps with
      | nil => simp at h
      | cons i rest =>
        simp at hps
        simp only [] at h
        split at h
        · simp at h
        · rename_i res hres
          simp at h; subst h
          exact ih3 i (by omega) text _ hres
        · exact ih2 rest (by omega) text r h
    · intro p hp text r h
      unfold ParserE.parse at h
      split at h
      · simp at h
      · simp at h
      · rename_i v hv
        split at h
        · simp at h
        · rename_i x hx
          split at h
          · rename_i node hn
            have e2 : sizeOf p = 1 + sizeOf p.pattern + sizeOf p.parser + sizeOf p.child := by cases p; simp
            rw [hn] at e2; simp at e2
            split at h
            · simp at h
            · rename_i r0 hr0
              simp at h; subst h
              exact explained_insert hv hx (ih1 node (by omega) x r0 hr0)
            · simp at h
          · split at h
            · simp at h
              unfold ParserE.createMatchResult at h
              split at h
              · simp at h; subst h
                exact explained_insert hv hx (explained_new _ _)
              · simp at h
            · simp at h

/-- C106, trie: whatever the matcher holds and whatever the message is, the values of an answer are pieces that stand in the message one after
the other without overlapping, each of them what its parser takes at its position; where two have the same name, the answer shows the leftmost. -/
theorem C106_trie (t : SuffixTree) (text : Bytes) (r : MatchResult) (h : t.parse text = .ok (some r)) :
    ∃ caps, Pieces text caps ∧ HasCaptures r.values caps := by
  obtain ⟨_, caps, h1, h2, _⟩ := (trie_explained (2 * sizeOf t + 1)).1 t (by omega) text r h
  exact ⟨caps, h1, h2⟩

/-- C106, suffix array: the same. -/
theorem C106_suffix (t : SuffixTable) (text : Bytes) (r : MatchResult) (h : t.parse text = .ok (some r)) :
    ∃ caps, Pieces text caps ∧ HasCaptures r.values caps := by
  obtain ⟨_, caps, h1, h2, _⟩ := (table_explained (sizeOf t + 1)).1 t (by omega) text r h
  exact ⟨caps, h1, h2⟩

/-- C106: hence no answer of either matcher holds more bytes of values than the message has. -/
theorem C106_size (text : Bytes) (r : MatchResult)
    (h : (∃ t : SuffixTree, t.parse text = .ok (some r)) ∨ ∃ t : SuffixTable, t.parse text = .ok (some r)) :
    totalLength r.values ≤ text.length := by
  have : Explained text r := by
    rcases h with ⟨t, h⟩ | ⟨t, h⟩
    · exact (trie_explained (2 * sizeOf t + 1)).1 t (by omega) text r h
    · exact (table_explained (sizeOf t + 1)).1 t (by omega) text r h
  obtain ⟨_, caps, h1, _, h3⟩ := this
  exact Nat.le_trans h3 (pieces_length h1)

/-- C106: the values of an answer to a string are strings, not cut in the middle of a character. -/
theorem C106_utf8 (text : Bytes) (hu : Utf8 text) (r : MatchResult)
    (h : (∃ t : SuffixTree, t.parse text = .ok (some r)) ∨ ∃ t : SuffixTable, t.parse text = .ok (some r)) :
    ∀ kv ∈ r.values, Utf8 kv.2 := by
  rcases h with ⟨t, h⟩ | ⟨t, h⟩
  · exact ((trie_explained (2 * sizeOf t + 1)).1 t (by omega) text r h).utf8 hu
  · exact ((table_explained (sizeOf t + 1)).1 t (by omega) text r h).utf8 hu

/-! ### Cases -/

/-- A pattern that takes three values, two of them under the same name. -/
def pieceSample : List Pattern :=
  [Samples.pat 1 [.literal b!"a", .parser (Samples.int b!"i"), .literal b!" b", .parser (Samples.set b!"s" b!"xyz"), .parser (Samples.int b!"i")]]

/-- Both matchers answer `a12 bxy7`; of the two values named `i` the answer shows the left one. -/
example : (match SuffixTree.build Samples.sip pieceSample with
    | .ok t => (match t.parse b!"a12 bxy7" with | .ok (some r) => decide (r.values = [(b!"i", b!"12"), (b!"s", b!"xy")]) | _ => false)
    | .error _ => false) = true := by decide +kernel

/-- The suffix array answers it too, and also `a12 xy7`, which lacks a part of the pattern's text: the values are still pieces of it. -/
example : (match SuffixTable.build Samples.sip pieceSample with
    | .ok t => (match t.parse b!"a12 bxy7", t.parse b!"a12 xy7" with
      | .ok (some r), .ok (some r') => decide (r.values = [(b!"i", b!"12"), (b!"s", b!"xy")]) && decide (r'.values = r.values)
      | _, _ => false)
    | .error _ => false) = true := by decide +kernel

end Verif
