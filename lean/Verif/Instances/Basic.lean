import Verif.Props.C79_Change
import Verif.Props.C20_Order
import Verif.Props.C25_C31_SuffixArray
import Verif.Spec.Kept
/-! Means to show that a concrete case meets the hypotheses of a theorem. The other files in this directory apply the theorems of `Verif/Props`
to concrete cases; the value of each `example` is the theorem with all its hypotheses supplied. -/
namespace Verif.Instances
open Verif.Spec

/-! ### Deciding the hypotheses -/

def literalsOf (ts : List Token) : List Bytes := ts.filterMap fun | .literal l => some l | .parser _ => none

theorem mem_literalsOf {ts : List Token} {l : Bytes} : l ∈ literalsOf ts ↔ Token.literal l ∈ ts := by
  simp only [literalsOf, List.mem_filterMap]
  constructor
  · rintro ⟨t, h, e⟩
    cases t with
    | literal l' => simp only [Option.some.injEq] at e; exact e ▸ h
    | parser _ => cases e
  · intro h
    exact ⟨_, h, rfl⟩

instance (p : Pattern) : Decidable (AsciiLits p) :=
  decidable_of_iff (∀ l ∈ literalsOf p.pattern, Ascii l) (by simp only [mem_literalsOf]; rfl)

instance (p : Pattern) : Decidable (NonemptyLits p) :=
  decidable_of_iff (∀ l ∈ literalsOf p.pattern, l ≠ []) (by simp only [mem_literalsOf]; rfl)

instance (priority := low) literalFirst (ts : List Token) (P : Bytes → List Token → Prop) [∀ l rest, Decidable (P l rest)] :
    Decidable (∀ l rest, ts = .literal l :: rest → P l rest) :=
  match ts with
  | .literal l :: rest => decidable_of_iff (P l rest) (by
      constructor
      · intro h l' rest' e; cases e; exact h
      · intro h; exact h _ _ rfl)
  | .parser _ :: _ => .isTrue (by intro _ _ h; cases h)
  | [] => .isTrue (by intro _ _ h; cases h)

instance (priority := low) someLiteralFirst (ts : List Token) (P : Bytes → List Token → Prop) [∀ l rest, Decidable (P l rest)] :
    Decidable (∃ l rest, ts = .literal l :: rest ∧ P l rest) :=
  match ts with
  | .literal l :: rest => decidable_of_iff (P l rest) (by
      constructor
      · intro h; exact ⟨_, _, rfl, h⟩
      · rintro ⟨l', rest', e, h⟩; cases e; exact h)
  | .parser _ :: _ => .isFalse (by rintro ⟨_, _, h, _⟩; cases h)
  | [] => .isFalse (by rintro ⟨_, _, h, _⟩; cases h)

def startsLiteral : List Token → Bool
  | .literal _ :: _ => true
  | _ => false

instance (p : Pattern) : Decidable (SplitLiterals p) :=
  decidable_of_iff (∀ l rest, p.pattern = .literal l :: rest → startsLiteral rest = false) (by
    constructor
    · intro h l rest e l' h'
      have := h l rest e
      cases rest with
      | nil => cases h'
      | cons t rest => simp only [List.head?_cons, Option.some.injEq] at h'; subst h'; cases this
    · intro h l rest e
      have := h l rest e
      cases rest with
      | nil => rfl
      | cons t rest =>
        cases t with
        | literal l' => exact absurd rfl (this l')
        | parser _ => rfl)

def firstParser (p : Pattern) : Option Parser :=
  match p.pattern with
  | .parser a :: _ => some a
  | _ => none

theorem firstParser_iff {p : Pattern} {a : Parser} : firstParser p = some a ↔ p.pattern.head? = some (.parser a) := by
  unfold firstParser
  cases h : p.pattern with
  | nil => simp
  | cons t ts => cases t <;> simp

instance (sip : Bytes → UInt64) (ps : List Pattern) : Decidable (NoCollision sip ps) :=
  decidable_of_iff (∀ a ∈ ps.filterMap firstParser, ∀ b ∈ ps.filterMap firstParser, a.hashOs sip = b.hashOs sip → a = b) (by
    simp only [NoCollision, List.mem_filterMap, firstParser_iff]
    constructor
    · intro h a b ha hb; exact h a ha b hb
    · intro h a ha b hb; exact h a b ha hb)

theorem utf8Lits {ps : List Pattern} (h : ∀ p ∈ ps, AsciiLits p) : ∀ p ∈ ps, Utf8Lits p := fun p hp l hl => ascii_utf8 (h p hp l hl)

theorem plain {sip : Bytes → UInt64} {ps : List Pattern} (h : (∀ p ∈ ps, AsciiLits p ∧ NonemptyLits p ∧ SplitLiterals p) ∧ NoCollision sip ps) : Plain sip ps :=
  ⟨fun p hp => (h.1 p hp).1, fun p hp => (h.1 p hp).2.1, fun p hp => (h.1 p hp).2.2, h.2⟩

theorem proper {sip : Bytes → UInt64} {ps : List Pattern} (h : (∀ p ∈ ps, AsciiLits p ∧ NonemptyLits p ∧ SplitLiterals p) ∧ NoCollision sip ps) :
    Proper sip ps := (plain h).proper

theorem utf8 (s : String) {b : Bytes} (h : b = s.toList.flatMap String.utf8EncodeChar) : Utf8 b := ⟨_, h⟩

/-- `u8!"text"` proves that the bytes of the text are UTF-8. -/
macro:max "u8!" s:str : term => `(utf8 $s (by decide +kernel))

instance (b : UInt8) : Decidable (IsDigit b) := by unfold IsDigit; infer_instance

theorem prefixes {text : Bytes} {P : Bytes → Prop} (h : ∀ n ∈ List.range (text.length + 1), P (text.take n)) : ∀ w, w <+: text → P w := by
  intro w hw
  rw [List.prefix_iff_eq_take.mp hw]
  exact h _ (by have := hw.length_le; simp; omega)

instance (p : Pattern) (l : Bytes) : Decidable (GoesOn p l) :=
  decidable_of_iff (∃ l' rest, p.pattern = .literal l' :: rest ∧ (rest ≠ [] ∧ l' = l)) (by
    constructor
    · rintro ⟨l', rest, e, h, rfl⟩; exact ⟨rest, h, e⟩
    · rintro ⟨rest, h, e⟩; exact ⟨l, rest, e, h, rfl⟩)

def firstLiteral (p : Pattern) : Option Bytes :=
  match p.pattern with
  | .literal l :: _ => some l
  | _ => none

theorem firstLiteral_iff {p : Pattern} {l : Bytes} : firstLiteral p = some l ↔ ∃ rest, p.pattern = .literal l :: rest := by
  unfold firstLiteral
  cases h : p.pattern with
  | nil => simp
  | cons t ts => cases t <;> simp

theorem leading_iff {ps : List Pattern} {l : Bytes} : Leading ps l ↔ l ∈ ps.filterMap firstLiteral := by
  simp only [Leading, List.mem_filterMap, firstLiteral_iff]

instance (ps : List Pattern) (l : Bytes) : Decidable (Leading ps l) := decidable_of_iff _ leading_iff.symm

instance (ps : List Pattern) (l : Bytes) : Decidable (LongerLed ps l) :=
  decidable_of_iff (∃ l' ∈ ps.filterMap firstLiteral, l <+: l' ∧ l' ≠ l) (by simp only [LongerLed, leading_iff])

theorem goesOn_first {p : Pattern} {l : Bytes} (h : GoesOn p l) : firstLiteral p = some l := by
  obtain ⟨rest, _, e⟩ := h
  exact firstLiteral_iff.mpr ⟨rest, e⟩

instance (ps : List Pattern) : Decidable (DistinctHeads ps) :=
  decidable_of_iff (ps.Pairwise fun p q => ∀ l ∈ (firstLiteral p).toList, GoesOn p l → ¬ GoesOn q l) (by
    unfold DistinctHeads
    constructor
    · intro h; exact h.imp fun h l hl => h l (by simp [goesOn_first hl]) hl
    · intro h; exact h.imp fun h l _ hl => h l hl)

/-- The common prefixes of two texts are those of the prefixes of one of them. -/
instance (ps : List Pattern) (l text : Bytes) : Decidable (LeavesAt ps l text) :=
  decidable_of_iff (((ps.filterMap firstLiteral).all fun l' => (List.range (l'.length + 1)).all fun n => decide (¬ (l <+: l' ∧ l'.take n <+: text ∧ l.length < (l'.take n).length))) = true) (by
    simp only [LeavesAt, leading_iff, List.all_eq_true, decide_eq_true_eq]
    constructor
    · intro h l' hl' hp c hc ht
      have e := List.prefix_iff_eq_take.mp hc
      rw [e]
      have := h l' hl' c.length (by have := hc.length_le; simp; omega)
      have h2 : ¬ l.length < (l'.take c.length).length := fun hlt => this ⟨hp, e ▸ ht, hlt⟩
      omega
    · rintro h l' hl' n _ ⟨hp, ht, hlt⟩
      have := h l' hl' hp _ (List.take_prefix n l') ht
      omega)

theorem utf8LitsOf (strs : List String) {ps : List Pattern}
    (h : (ps.all fun p => (literalsOf p.pattern).all fun l => strs.any fun s => decide (l = s.toList.flatMap String.utf8EncodeChar)) = true) :
    ∀ p ∈ ps, Utf8Lits p := by
  intro p hp l hl
  simp only [List.all_eq_true, List.any_eq_true, decide_eq_true_eq] at h
  obtain ⟨s, _, e⟩ := h p hp l (mem_literalsOf.mpr hl)
  exact ⟨_, e⟩

theorem properOf (strs : List String) {sip : Bytes → UInt64} {ps : List Pattern}
    (h : (ps.all fun p => (literalsOf p.pattern).all fun l => strs.any fun s => decide (l = s.toList.flatMap String.utf8EncodeChar)) = true)
    (h' : (∀ p ∈ ps, NonemptyLits p ∧ SplitLiterals p) ∧ NoCollision sip ps) : Proper sip ps :=
  ⟨utf8LitsOf strs h, fun p hp => (h'.1 p hp).1, fun p hp => (h'.1 p hp).2, h'.2⟩

instance (L : Bytes) (p : Pattern) : Decidable (Harmless L p) := by unfold Harmless; infer_instance

instance (ps : List Pattern) : Decidable (Incomparable ps) :=
  decidable_of_iff ((∀ p ∈ ps, firstLiteral p ≠ none) ∧
      ps.Pairwise fun p q => ∀ l ∈ (firstLiteral p).toList, ∀ l' ∈ (firstLiteral q).toList, ¬ l <+: l' ∧ ¬ l' <+: l) (by
    unfold Incomparable
    constructor
    · rintro ⟨h1, h2⟩
      refine ⟨fun p hp => ?_, h2.imp ?_⟩
      · obtain ⟨l, e⟩ := Option.ne_none_iff_exists'.mp (h1 p hp)
        obtain ⟨rest, e⟩ := firstLiteral_iff.mp e
        exact ⟨l, rest, e⟩
      · intro p q h l rest l' rest' e e'
        exact h l (by simp [firstLiteral_iff.mpr ⟨rest, e⟩]) l' (by simp [firstLiteral_iff.mpr ⟨rest', e'⟩])
    · rintro ⟨h1, h2⟩
      refine ⟨fun p hp => ?_, h2.imp ?_⟩
      · obtain ⟨l, rest, e⟩ := h1 p hp
        simp [firstLiteral_iff.mpr ⟨rest, e⟩]
      · intro p q h l hl l' hl'
        simp only [Option.mem_toList, Option.mem_def] at hl hl'
        obtain ⟨rest, e⟩ := firstLiteral_iff.mp hl
        obtain ⟨rest', e'⟩ := firstLiteral_iff.mp hl'
        exact h _ _ _ _ e e')

theorem firstParser_cons {p : Pattern} {a : Parser} : firstParser p = some a ↔ ∃ rest, p.pattern = .parser a :: rest := by
  unfold firstParser
  cases h : p.pattern with
  | nil => simp
  | cons t ts => cases t <;> simp

instance (ps : List Pattern) : Decidable (DistinctParserLed ps) :=
  decidable_of_iff ((∀ p ∈ ps, firstParser p ≠ none) ∧ ps.Pairwise fun p q => firstParser p ≠ firstParser q) (by
    unfold DistinctParserLed
    constructor
    · rintro ⟨h1, h2⟩
      refine ⟨fun p hp => ?_, h2.imp ?_⟩
      · obtain ⟨a, e⟩ := Option.ne_none_iff_exists'.mp (h1 p hp)
        obtain ⟨rest, e⟩ := firstParser_cons.mp e
        exact ⟨a, rest, e⟩
      · rintro p q h a rest b rest' e e' rfl
        exact h ((firstParser_cons.mpr ⟨_, e⟩).trans (firstParser_cons.mpr ⟨_, e'⟩).symm)
    · rintro ⟨h1, h2⟩
      have h3 : ∀ p ∈ ps, firstParser p ≠ none := by
        intro p hp
        obtain ⟨a, rest, e⟩ := h1 p hp
        simp [firstParser_cons.mpr ⟨rest, e⟩]
      refine ⟨h3, List.Pairwise.imp_of_mem ?_ h2⟩
      intro p q hp hq h e
      obtain ⟨a, ha⟩ := Option.ne_none_iff_exists'.mp (h3 p hp)
      obtain ⟨rest, e1⟩ := firstParser_cons.mp ha
      obtain ⟨rest', e2⟩ := firstParser_cons.mp (e ▸ ha)
      exact h _ _ _ _ e1 e2 rfl)

instance (p q : Pattern) : Decidable (OrderMatters p q) := by unfold OrderMatters; split <;> infer_instance
instance (p q : Pattern) : Decidable (SuffixOrderMatters p q) := by unfold SuffixOrderMatters; split <;> infer_instance
instance (p q : Pattern) : Decidable (ToldApart p q) := by unfold ToldApart; infer_instance

def pair (p q : Pattern) : Bool :=
  match p.pattern, q.pattern with
  | .literal l :: rest, .literal l' :: rest' => decide ((l' = l → (rest = [] ↔ rest' ≠ [])) ∧ (rest' ≠ [] → l' <+: l → l' = l))
  | .parser a :: _, .parser b :: _ => decide (a ≠ b)
  | _, _ => true

theorem undisturbed {ps : List Pattern} (h : ps.Pairwise fun p q => pair p q = true) : Undisturbed ps := by
  refine h.imp ?_
  intro p q h
  refine ⟨fun l rest l' rest' e e' => ?_, fun a rest b rest' e e' => ?_⟩
  · simp only [pair, e, e'] at h; exact of_decide_eq_true h
  · simp only [pair, e, e'] at h; exact of_decide_eq_true h

def parsersOf (ts : List Token) : List Parser := ts.filterMap fun | .literal _ => none | .parser a => some a

theorem mem_parsersOf {ts : List Token} {a : Parser} : a ∈ parsersOf ts ↔ Token.parser a ∈ ts := by
  simp only [parsersOf, List.mem_filterMap]
  constructor
  · rintro ⟨t, h, e⟩
    cases t with
    | parser b => simp only [Option.some.injEq] at e; exact e ▸ h
    | literal _ => cases e
  · intro h
    exact ⟨_, h, rfl⟩

instance (a : Parser) : Decidable (AsciiParser a) := by cases a <;> unfold AsciiParser <;> infer_instance

/-- the strings of the parser are ASCII -/
def asciiStrings : Parser → Bool
  | .greedy g => decide (∀ e ∈ g.endString.toList, Ascii e)
  | _ => true

theorem utf8Parser {a : Parser} (h : asciiStrings a = true) : Utf8Parser a := by
  cases a with
  | greedy g =>
    intro e he
    simp only [asciiStrings, decide_eq_true_eq] at h
    exact ascii_utf8 (h e (by simp [he]))
  | set _ => trivial
  | int _ => trivial

theorem supported {ps : List Pattern} (h : ∀ p ∈ ps, AsciiLits p ∧ ∀ a ∈ parsersOf p.pattern, AsciiParser a ∧ asciiStrings a = true) :
    ∀ p ∈ ps, Supported p :=
  fun p hp => ⟨fun l hl => ascii_utf8 ((h p hp).1 l hl), fun a ha => ⟨((h p hp).2 a (mem_parsersOf.mpr ha)).1, utf8Parser ((h p hp).2 a (mem_parsersOf.mpr ha)).2⟩⟩

/-! ### Matchers that were built, and texts that match -/

def isOk {α : Type} : M α → Bool
  | .ok _ => true
  | .error _ => false

/-- the value of a computation that does not panic -/
def okOf {α : Type} : (m : M α) → isOk m = true → α
  | .ok a, _ => a

theorem okOf_eq {α : Type} (m : M α) (h : isOk m = true) : m = .ok (okOf m h) := by
  cases m with
  | ok a => rfl
  | error e => cases h

theorem okOf_bind {α β : Type} {m : M α} {f : α → M β} {r : β} (h : isOk m = true) (e : (m >>= f) = .ok r) : f (okOf m h) = .ok r := by
  cases m with
  | ok a => exact e
  | error _ => cases h

/-- the list has been added to an empty trie -/
abbrev Builds (ps : List Pattern) : Prop := isOk (SuffixTree.build Samples.sip ps) = true

/-- the trie that comes of it -/
abbrev trie (ps : List Pattern) (h : Builds ps) : SuffixTree := okOf (SuffixTree.build Samples.sip ps) h

/-- the suffix array for the list -/
abbrev table (ps : List Pattern) (h : isOk (SuffixTable.build Samples.sip ps) = true) : SuffixTable := okOf (SuffixTable.build Samples.sip ps) h

theorem answers {ps : List Pattern} (h : Builds ps) (text : Bytes) (r : Option MatchResult)
    (e : (SuffixTree.build Samples.sip ps >>= fun t => t.parse text) = .ok r) : (trie ps h).parse text = .ok r := okOf_bind (f := fun t : SuffixTree => t.parse text) h e

theorem tableAnswers {ps : List Pattern} (h : isOk (SuffixTable.build Samples.sip ps) = true) (text : Bytes) (r : Option MatchResult)
    (e : (SuffixTable.build Samples.sip ps >>= fun t => t.parse text) = .ok r) : (table ps h).parse text = .ok r :=
  okOf_bind (f := fun t : SuffixTable => t.parse text) h e

/-- `MatchesStrict` by computation -/
def strict? : List Token → Bytes → Option (List (Parser × Bytes))
  | [], x => if x = [] then some [] else none
  | .literal l :: ts, x =>
    if l <+: x ∧ (ts ≠ [] → x.drop l.length ≠ []) then strict? ts (x.drop l.length) else none
  | .parser a :: ts, x =>
    match a.parse x with
    | .ok (some v) => if v <+: x then (strict? ts (x.drop v.length)).map ((a, v) :: ·) else none
    | _ => none

theorem strict {ts : List Token} {x : Bytes} {caps : List (Parser × Bytes)} (h : strict? ts x = some caps) : MatchesStrict ts x caps := by
  induction ts generalizing x caps with
  | nil =>
    simp only [strict?] at h
    split at h
    · rename_i e; cases h; subst e; exact .nil
    · cases h
  | cons t ts ih =>
    cases t with
    | literal l =>
      simp only [strict?] at h
      split at h
      · rename_i e
        obtain ⟨⟨y, rfl⟩, e⟩ := e
        simp only [List.drop_left] at h e
        exact .literal l ts y caps e (ih h)
      · cases h
    | parser a =>
      simp only [strict?] at h
      split at h
      · rename_i v hv
        split at h
        · rename_i e
          obtain ⟨y, rfl⟩ := e
          simp only [List.drop_left] at h
          rw [Option.map_eq_some_iff] at h
          obtain ⟨c, h, rfl⟩ := h
          exact .parser a ts v y c ((parse_some a (v ++ y) v).mp hv).1 (ih h)
        · cases h
      · cases h

end Verif.Instances
