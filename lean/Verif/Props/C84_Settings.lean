import Verif.Model.ParserApi
import Verif.Props.C05_C10_Parsers
/-! C84: parsers configured by any sequence of calls. -/
namespace Verif
open Spec

/-- The argument of the last of the calls that `f` picks, or `d` if there is none. -/
def lastArg {C α : Type} (f : C → Option α) (d : α) (calls : List C) : α := (calls.reverse.findSome? f).getD d

theorem lastArg_nil {C α : Type} (f : C → Option α) (d : α) : lastArg f d [] = d := rfl

theorem lastArg_cons {C α : Type} (f : C → Option α) (d : α) (c : C) (calls : List C) :
    lastArg f d (c :: calls) = lastArg f ((f c).getD d) calls := by
  unfold lastArg
  rw [List.reverse_cons, List.findSome?_append]
  cases List.findSome? f calls.reverse with
  | some x => rfl
  | none => cases h : f c <;> simp [List.findSome?, h]

/-- The arguments of the calls. -/
def SetCall.name? : SetCall → Option (Option Bytes) | .name n => some n | _ => none
def SetCall.set? : SetCall → Option Bytes | .characterSet s => some s | _ => none
def SetCall.min? : SetCall → Option (Option Nat) | .minLength n => some n | _ => none
def SetCall.max? : SetCall → Option (Option Nat) | .maxLength n => some n | _ => none
def IntCall.name? : IntCall → Option (Option Bytes) | .name n => some n | _ => none
def IntCall.min? : IntCall → Option (Option Nat) | .minLength n => some n | _ => none
def IntCall.max? : IntCall → Option (Option Nat) | .maxLength n => some n | _ => none
def GreedyCall.name? : GreedyCall → Option (Option Bytes) | .name n => some n | _ => none
def GreedyCall.end? : GreedyCall → Option (Option Bytes) | .endString e => some e | _ => none

theorem set_calls (calls : List SetCall) (name : Option Bytes) (set : Bytes) (mn mx : Option Nat) :
    calls.foldl SetParser.call (mkSet name set mn mx) =
      mkSet (lastArg SetCall.name? name calls) (lastArg SetCall.set? set calls) (lastArg SetCall.min? mn calls) (lastArg SetCall.max? mx calls) := by
  induction calls generalizing name set mn mx with
  | nil => rfl
  | cons c calls ih =>
    rw [List.foldl_cons, lastArg_cons, lastArg_cons, lastArg_cons, lastArg_cons, ← ih]
    cases c <;> rfl

/-- C84: a SET parser made by `new`, `with_name` or `from_str` and then configured by any calls of its setters parses according to the last
argument of each kind. -/
theorem C84_set (name : Option Bytes) (set : Bytes) (calls : List SetCall) (text : Bytes) :
    let p := calls.foldl SetParser.call (SetParser.new name set)
    (∀ v, p.parse text = .ok (some v) ↔
      SetMatch (lastArg SetCall.set? set calls) (lastArg SetCall.min? none calls) (lastArg SetCall.max? none calls) text v ∧
        isCharBoundary text v.length = true) ∧
    (p.parse text = .ok none ↔
      ¬ ∃ v, SetMatch (lastArg SetCall.set? set calls) (lastArg SetCall.min? none calls) (lastArg SetCall.max? none calls) text v) ∧
    (Parser.set p).name = lastArg SetCall.name? name calls := by
  have h := set_calls calls name set none none
  have e : SetParser.new name set = mkSet name set none none := rfl
  simp only [e, h]
  exact ⟨(C05_set_parser _ _ _ _ text).1, (C05_set_parser _ _ _ _ text).2, rfl⟩

/-- C84: the same for INT parsers. -/
theorem C84_int (name : Option Bytes) (calls : List IntCall) (text : Bytes) (ht : Utf8 text) :
    let p := Parser.int (calls.foldl IntParser.call (IntParser.new name)).delegate
    (∃ r, p.parse text = .ok r ∧
      ∀ v, r = some v ↔
        (v <+: text ∧ v ≠ [] ∧ (∀ b ∈ v, IsDigit b) ∧ (∀ b rest, text = v ++ b :: rest → ¬IsDigit b) ∧
          (∀ n, lastArg IntCall.min? none calls = some n → n ≤ v.length) ∧ (∀ n, lastArg IntCall.max? none calls = some n → v.length ≤ n))) ∧
    p.name = lastArg IntCall.name? name calls := by
  have h : ∀ (calls : List IntCall) (name : Option Bytes) (mn mx : Option Nat),
      Parser.int (calls.foldl IntParser.call { delegate := { intDelegate name with minLength := mn, maxLength := mx } }).delegate =
      mkInt (lastArg IntCall.name? name calls) (lastArg IntCall.min? mn calls) (lastArg IntCall.max? mx calls) := by
    intro calls
    induction calls with
    | nil => intro name mn mx; rfl
    | cons c calls ih =>
      intro name mn mx
      rw [List.foldl_cons, lastArg_cons, lastArg_cons, lastArg_cons, ← ih]
      cases c <;> rfl
  have h := h calls name none none
  have e : (IntParser.new name) = { delegate := { intDelegate name with minLength := none, maxLength := none } } := rfl
  simp only [e, h]
  exact ⟨C06_int_parser _ _ _ text ht, rfl⟩

theorem greedy_calls (calls : List GreedyCall) (name e : Option Bytes) : calls.foldl GreedyParser.call { name, endString := e } =
    { name := lastArg GreedyCall.name? name calls, endString := lastArg GreedyCall.end? e calls } := by
  induction calls generalizing name e with
  | nil => rfl
  | cons c calls ih =>
    rw [List.foldl_cons, lastArg_cons, lastArg_cons, ← ih]
    cases c <;> rfl

/-- C84: the same for GREEDY parsers. -/
theorem C84_greedy (name : Option Bytes) (calls : List GreedyCall) (text : Bytes) (ht : Utf8 text)
    (he : ∀ e, lastArg GreedyCall.end? none calls = some e → Utf8 e) :
    let p := calls.foldl GreedyParser.call (GreedyParser.new name)
    (lastArg GreedyCall.end? none calls = none → p.parse text = .ok (some text)) ∧
    (∀ e, lastArg GreedyCall.end? none calls = some e → ∃ r, p.parse text = .ok r ∧
      (∀ v, r = some v ↔ (∃ rest, text = v ++ e ++ rest) ∧ ∀ v' rest', text = v' ++ e ++ rest' → v.length ≤ v'.length) ∧
      (r = none ↔ ∀ v rest, text ≠ v ++ e ++ rest)) ∧
    (Parser.greedy p).name = lastArg GreedyCall.name? name calls := by
  have h := greedy_calls calls name none
  simp only [GreedyParser.new, h]
  refine ⟨?_, ?_, rfl⟩
  · intro e; rw [e]; rfl
  · intro e hee
    rw [hee]
    exact C07_greedy_with_end (lastArg GreedyCall.name? name calls) e text (he e hee) ht

/-- C84: a GREEDY parser made by `from_str` has the given name and end string until they are changed. -/
theorem C84_greedy_from_str (name endString : Bytes) (calls : List GreedyCall) (text : Bytes) (ht : Utf8 text)
    (he : ∀ e, lastArg GreedyCall.end? (some endString) calls = some e → Utf8 e) :
    let p := calls.foldl GreedyParser.call (GreedyParser.fromStr name endString)
    (lastArg GreedyCall.end? (some endString) calls = none → p.parse text = .ok (some text)) ∧
    (∀ e, lastArg GreedyCall.end? (some endString) calls = some e → ∃ r, p.parse text = .ok r ∧
      (∀ v, r = some v ↔ (∃ rest, text = v ++ e ++ rest) ∧ ∀ v' rest', text = v' ++ e ++ rest' → v.length ≤ v'.length) ∧
      (r = none ↔ ∀ v rest, text ≠ v ++ e ++ rest)) ∧
    (Parser.greedy p).name = lastArg GreedyCall.name? (some name) calls := by
  have h := greedy_calls calls (some name) (some endString)
  have e : GreedyParser.fromStr name endString = { name := some name, endString := some endString } := rfl
  simp only [e, h]
  refine ⟨?_, ?_, rfl⟩
  · intro e; rw [e]; rfl
  · intro e hee
    rw [hee]
    exact C07_greedy_with_end (lastArg GreedyCall.name? (some name) calls) e text (he e hee) ht

/-- A SET parser whose settings were changed twice: only the last character set, the last minimum and the last maximum count. -/
example : ([SetCall.minLength (some 5), .characterSet b!"01", .maxLength (some 3), .name (some b!"bits"), .characterSet b!"abc", .minLength (some 2)].foldl
    SetParser.call (SetParser.new none b!"xyz")).parse b!"abba" = .ok none := by decide +kernel
example : ([SetCall.minLength (some 5), .characterSet b!"01", .maxLength (some 3), .characterSet b!"abc", .minLength (some 2), .maxLength none].foldl
    SetParser.call (SetParser.new none b!"xyz")).parse b!"abba01" = .ok (some b!"abba") := by decide +kernel
example : lastArg SetCall.set? b!"xyz" [.characterSet b!"01", .name none, .characterSet b!"abc", .minLength none] = b!"abc" := by decide +kernel
example : ([GreedyCall.endString (some b!"x"), .name (some b!"n"), .endString (some b!"-")].foldl GreedyParser.call (GreedyParser.new none)).parse b!"axb-c" =
    .ok (some b!"axb") := by decide +kernel
example : (GreedyParser.fromStr b!"n" b!"-").parse b!"an-b-c" = .ok (some b!"an") := by decide +kernel

end Verif
