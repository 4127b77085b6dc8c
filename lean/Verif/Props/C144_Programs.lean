import Verif.Props.C140_Histories
import Verif.Props.C111_Satisfiable
import Verif.Props.C11_C14_TrieSound
import Verif.Props.C65_Table
/-! C144: programs that never panic. -/
namespace Verif
open Spec
namespace Programs

/-- What may be added to a matcher of this kind. -/
def Fine : Kind → Pattern → Prop
  | .trie, p => AsciiLits p
  | .suffixArray, p => Supported p

/-- What may be parsed by a matcher of this kind. -/
def FineText : Kind → Bytes → Prop
  | .trie, text => Ascii text
  | .suffixArray, text => Utf8 text

def AllFine (h : Holdings) : Prop := ∀ (i : Nat) (kind : Kind) (ps : List Pattern), h[i]? = some (some (kind, ps)) → ∀ p ∈ ps, Fine kind p

theorem allFine_append {h : Holdings} (hh : AllFine h) {x : Option (Kind × List Pattern)} (hx : ∀ kind ps, x = some (kind, ps) → ∀ p ∈ ps, Fine kind p) :
    AllFine (h ++ [x]) := by
  intro i kind ps e
  rw [List.getElem?_append] at e
  split at e
  · exact hh i kind ps e
  · rw [List.getElem?_singleton] at e
    split at e
    · exact hx kind ps (by simpa using e)
    · simp at e

theorem allFine_set {h : Holdings} (hh : AllFine h) {j : Nat} {x : Option (Kind × List Pattern)} (hx : ∀ kind ps, x = some (kind, ps) → ∀ p ∈ ps, Fine kind p) :
    AllFine (h.set j x) := by
  intro i kind ps e
  rw [List.getElem?_set] at e
  split at e
  · split at e
    · exact hx kind ps (by simpa using e)
    · simp at e
  · exact hh i kind ps e

theorem allFine_after {h : Holdings} (hh : AllFine h) {c : MatcherCall}
    (hc : ∀ i p kind ps, c = .add i p → h[i]? = some (some (kind, ps)) → Fine kind p) : AllFine (after h c) := by
  cases c with
  | create kind => exact allFine_append hh (by rintro k ps e; simp at e; simp [e.2])
  | add i p =>
    simp only [after]
    split
    · rename_i kind ps e
      refine allFine_set hh ?_
      rintro k qs e' q hq
      simp at e'
      obtain ⟨rfl, rfl⟩ := e'
      rcases List.mem_append.mp hq with hq | hq
      · exact hh i _ ps e q hq
      · simp at hq
        subst hq
        exact hc i _ _ ps rfl e
    · exact hh
  | parse i text => exact hh
  | clone i =>
    simp only [after]
    split
    · rename_i x e
      exact allFine_append hh (by rintro k qs e'; simp at e'; subst e'; exact hh i k qs e)
    · exact hh
  | drop i => exact allFine_set hh (by simp)

theorem allFine_held (calls : List MatcherCall)
    (hc : ∀ pre post i p kind ps, calls = pre ++ .add i p :: post → (held pre)[i]? = some (some (kind, ps)) → Fine kind p) : AllFine (held calls) := by
  induction hn : calls.length generalizing calls with
  | zero =>
    obtain rfl := List.length_eq_zero_iff.mp hn
    intro i kind ps e
    simp [held] at e
  | succ n ih =>
    rcases List.eq_nil_or_concat calls with rfl | ⟨init, c, rfl⟩
    · simp at hn
    · have h1 := ih init (fun pre post i p kind ps e => hc pre (post ++ [c]) i p kind ps (by simp [e])) (by simpa using hn)
      simp only [held, List.concat_eq_append, List.foldl_append, List.foldl_cons, List.foldl_nil]
      exact allFine_after h1 fun i p kind ps e => hc init [] i p kind ps (by simp [e])

theorem fresh_answers (sip : Bytes → UInt64) (kind : Kind) (ps : List Pattern) (hp : ∀ p ∈ ps, Fine kind p) :
    (∀ e, ¬ FreshPanics sip kind ps e) ∧ ∀ text, FineText kind text → ∀ e, freshAnswer sip kind ps text ≠ .error e := by
  cases kind with
  | trie =>
    obtain ⟨t, h1, _, h3⟩ := C13_ascii_never_panics sip ps hp
    refine ⟨fun e he => ?_, fun text hx e he => ?_⟩
    · simp [FreshPanics, h1] at he
    · obtain ⟨r, hr⟩ := h3 text hx
      simp [freshAnswer, h1, bind, Except.bind, hr] at he
  | suffixArray =>
    obtain ⟨t, h1, h3⟩ := C26_never_panics sip ps
    refine ⟨fun e he => ?_, fun text hx e he => ?_⟩
    · simp [FreshPanics, h1] at he
    · obtain ⟨r, hr⟩ := h3 hp text hx
      simp [freshAnswer, h1, bind, Except.bind, hr] at he

theorem run_fine (sip : Bytes → UInt64) (calls : List MatcherCall)
    (hc : ∀ pre post i p kind ps, calls = pre ++ .add i p :: post → (held pre)[i]? = some (some (kind, ps)) → Fine kind p)
    (ht : ∀ pre post i text kind ps, calls = pre ++ .parse i text :: post → (held pre)[i]? = some (some (kind, ps)) → FineText kind text) :
    ∃ s as, runCalls sip [] calls = .ok (s, as) := by
  cases hr : runCalls sip [] calls with
  | ok r => exact ⟨r.1, r.2, rfl⟩
  | error e =>
    obtain ⟨pre, c, post, rfl, -, h⟩ := (C140_panics sip calls e).mp hr
    have hh := allFine_held pre fun pre' post' i p kind ps e' => hc pre' (post' ++ c :: post) i p kind ps (by simp [e'])
    cases h with
    | add i p kind ps e h1 h2 =>
      refine ((fresh_answers sip kind (ps ++ [p]) fun q hq => ?_).1 e h2).elim
      rcases List.mem_append.mp hq with hq | hq
      · exact hh i kind ps h1 q hq
      · simp at hq
        subst hq
        exact hc pre post i _ kind ps rfl h1
    | parse i text kind ps e h1 h2 =>
      exact ((fresh_answers sip kind ps (hh i kind ps h1)).2 text (ht pre post i text kind ps rfl h1) e h2).elim

theorem compiled_supported {p : Pattern} (h : CompiledAscii p) : Supported p := by
  obtain ⟨s, hs, hc⟩ := h
  have h1 := compiled_utf8 (ascii_utf8 hs) hc
  refine ⟨h1.1, fun a ha => ⟨?_, h1.2 a ha⟩⟩
  have h2 := (compiled_plainSets hs hc).sets
  cases a with
  | set q => exact (h2 q (.inl ha)).1
  | int q => exact (h2 q (.inr ha)).1
  | greedy q => trivial

theorem panics_of {sip : Bytes → UInt64} {calls : List MatcherCall} (h : (match runCalls sip [] calls with | .error _ => true | .ok _ => false) = true) :
    ∃ e, runCalls sip [] calls = .error e := by
  split at h
  · rename_i e he; exact ⟨e, he⟩
  · simp at h

end Programs

/-- C144: a program that adds only patterns with ASCII literals to its tries and parses only ASCII texts with them, and adds to its suffix arrays only
patterns whose SETs are ASCII (the literals may be any UTF-8) and parses UTF-8 texts with them, runs to its end, whatever else it does. -/
theorem C144_by_kind (sip : Bytes → UInt64) (calls : List MatcherCall)
    (add_trie : ∀ pre post i p ps, calls = pre ++ .add i p :: post → (held pre)[i]? = some (some (.trie, ps)) → AsciiLits p)
    (add_suffix : ∀ pre post i p ps, calls = pre ++ .add i p :: post → (held pre)[i]? = some (some (.suffixArray, ps)) → Supported p)
    (text_trie : ∀ pre post i text ps, calls = pre ++ .parse i text :: post → (held pre)[i]? = some (some (.trie, ps)) → Ascii text)
    (text_suffix : ∀ pre post i text ps, calls = pre ++ .parse i text :: post → (held pre)[i]? = some (some (.suffixArray, ps)) → Utf8 text) :
    ∃ s as, runCalls sip [] calls = .ok (s, as) := by
  refine Programs.run_fine sip calls (fun pre post i p kind ps e h => ?_) (fun pre post i text kind ps e h => ?_)
  · cases kind with
    | trie => exact add_trie pre post i p ps e h
    | suffixArray => exact add_suffix pre post i p ps e h
  · cases kind with
    | trie => exact text_trie pre post i text ps e h
    | suffixArray => exact text_suffix pre post i text ps e h

/-- C144: every program all of whose patterns are compiled from ASCII pattern strings and all of whose texts are ASCII runs to its end, and each `parse`
of a matcher that exists has an answer. -/
theorem C144_ascii (sip : Bytes → UInt64) (calls : List MatcherCall) (hp : ∀ i p, .add i p ∈ calls → CompiledAscii p)
    (hx : ∀ i text, .parse i text ∈ calls → Ascii text) :
    ∃ s as, runCalls sip [] calls = .ok (s, as) ∧
      ∀ pre post i text kind ps, calls = pre ++ .parse i text :: post → (held pre)[i]? = some (some (kind, ps)) → ∃ a, as[pre.length]? = some (some a) := by
  obtain ⟨s, as, h⟩ := C144_by_kind sip calls
    (fun pre post i p ps e _ => (compiledAscii_lits (hp i p (by simp [e]))).1)
    (fun pre post i p ps e _ => Programs.compiled_supported (hp i p (by simp [e])))
    (fun pre post i text ps e _ => hx i text (by simp [e]))
    (fun pre post i text ps e _ => ascii_utf8 (hx i text (by simp [e])))
  refine ⟨s, as, h, fun pre post i text kind ps e hh => ?_⟩
  obtain ⟨a, h1, _⟩ := C140_answers sip calls s as h pre post i text e kind ps hh
  exact ⟨a, h1⟩

/-- C144: the conditions are needed.  These programs panic: a trie gets two literals that are different from a character on that has several bytes, a trie
of ASCII patterns gets a text that is not ASCII, and a suffix array with a SET that is not ASCII gets such a text. -/
theorem C144_conditions_count :
    (∃ e, runCalls Samples.sip [] [.create .trie, .add 0 (Samples.pat 1 [.literal b!"né"]), .add 0 (Samples.pat 2 [.literal b!"nx"])] = .error e) ∧
    (∃ e, runCalls Samples.sip [] [.create .trie, .add 0 (Samples.pat 1 [.literal b!"nx"]), .parse 0 b!"é"] = .error e) ∧
    (∃ e, runCalls Samples.sip [] [.create .suffixArray, .add 0 (Samples.pat 1 [.parser (Samples.set b!"s" b!"é")]), .parse 0 b!"Ã"] = .error e) :=
  ⟨Programs.panics_of (by decide +kernel), Programs.panics_of (by decide +kernel), Programs.panics_of (by decide +kernel)⟩

namespace Programs

/-! Concrete cases. -/
def n1 : Pattern := Samples.pat 1 [.literal b!"n=", .parser (intParser [] b!"a")]
def n2 : Pattern := Samples.pat 2 [.literal b!"x"]

def program : List MatcherCall :=
  [.create .trie, .add 0 n1, .create .suffixArray, .clone 0, .add 2 n2, .add 1 n2, .parse 0 b!"x", .drop 0, .parse 2 b!"n=7", .parse 1 b!"x", .clone 1, .add 3 n1]

theorem n_compiled : ∀ p ∈ [n1, n2], CompiledAscii p := by
  intro p hp
  simp at hp
  rcases hp with rfl | rfl
  · exact ⟨b!"n=%{INT:a}", by decide, by decide +kernel⟩
  · exact ⟨b!"x", by decide, by decide +kernel⟩

/-- C144_ascii applies to this program. -/
example : (∀ i p, .add i p ∈ program → CompiledAscii p) ∧ ∀ i text, .parse i text ∈ program → Ascii text := by
  refine ⟨fun i p h => n_compiled p ?_, fun i text h => ?_⟩
  · simp [program] at h
    rcases h with ⟨-, rfl⟩ | ⟨-, rfl⟩ | ⟨-, rfl⟩ | ⟨-, rfl⟩ <;> simp
  · simp [program] at h
    rcases h with ⟨-, rfl⟩ | ⟨-, rfl⟩ | ⟨-, rfl⟩ <;> decide

/-- C144_by_kind applies to a program with literals and texts that are not ASCII in a suffix array. -/
def foreign : List MatcherCall := [.create .suffixArray, .add 0 (Samples.pat 1 [.literal b!"é"]), .parse 0 b!"é"]

example : ∃ s as, runCalls Samples.sip [] foreign = .ok (s, as) := by
  have hu : Utf8 b!"é" := ⟨['é'], by decide⟩
  have hk : ∀ pre c post, foreign = pre ++ c :: post → ∀ (i : Nat) ps, (held pre)[i]? ≠ some (some (.trie, ps)) := by
    intro pre c post e i ps hh
    have h3 : pre.length < 3 := by have := congrArg List.length e; simp [foreign] at this; omega
    have h4 : pre = foreign.take pre.length := by rw [e]; simp
    have h5 : ∀ n < 3, ∀ x ∈ held (foreign.take n), x.map Prod.fst ≠ some .trie := by decide +kernel
    refine h5 pre.length h3 (some (.trie, ps)) ?_ rfl
    rw [← h4]
    exact List.mem_of_getElem? hh
  refine C144_by_kind Samples.sip foreign (fun pre post i p ps e h => (hk _ _ _ e i ps h).elim) (fun pre post i p ps e _ => ?_)
    (fun pre post i text ps e h => (hk _ _ _ e i ps h).elim) (fun pre post i text ps e _ => ?_)
  · have h : MatcherCall.add i p ∈ foreign := by simp [e]
    simp [foreign] at h
    obtain ⟨-, rfl⟩ := h
    exact ⟨by intro l hl; simp [Samples.pat] at hl; subst hl; exact hu, by intro a ha; simp [Samples.pat] at ha⟩
  · have h : MatcherCall.parse i text ∈ foreign := by simp [e]
    simp [foreign] at h
    obtain ⟨-, rfl⟩ := h
    exact hu

end Programs
end Verif
