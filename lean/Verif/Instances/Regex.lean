import Verif.Instances.Kept
import Verif.Instances.Trie
import Verif.Props.C130_Regex
/-! The theorems about regular expressions, applied to concrete cases. -/
namespace Verif.Instances
open Verif.Spec Samples

instance (a b : Token) : Decidable (Apart a b) :=
  match a, b with
  | .literal _, _ => isTrue trivial
  | .parser (.set _), .parser (.greedy _) | .parser (.int _), .parser (.greedy _) => isFalse (fun h => h)
  | .parser (.set p), .literal l | .parser (.int p), .literal l => inferInstanceAs (Decidable (∀ c ∈ l.head?, c ∉ p.characterSet))
  | .parser (.set p), .parser (.set q) | .parser (.set p), .parser (.int q) | .parser (.int p), .parser (.set q) | .parser (.int p), .parser (.int q) =>
    inferInstanceAs (Decidable (∀ c ∈ q.characterSet, c ∉ p.characterSet))
  | .parser (.greedy _), .literal l => isTrue ⟨l, rfl⟩
  | .parser (.greedy _), .parser _ => isFalse (fun ⟨_, h⟩ => by cases h)

/-- The same, for a program. -/
def apartAll : List Token → Bool
  | a :: b :: ts => decide (Apart a b) && apartAll (b :: ts)
  | _ => true

theorem apartAll_iff {ts : List Token} : apartAll ts = true ↔ AllApart ts := by
  induction ts with
  | nil => simp [apartAll, AllApart]
  | cons t ts ih =>
    cases ts with
    | nil =>
      simp only [apartAll, true_iff]
      intro before a b after e
      have := congrArg List.length e
      simp at this; omega
    | cons u ts =>
      simp only [apartAll, Bool.and_eq_true, decide_eq_true_eq, ih]
      constructor
      · rintro ⟨h1, h2⟩ before a b after e
        cases before with
        | nil => simp at e; obtain ⟨rfl, rfl, -⟩ := e; exact h1
        | cons c before => simp at e; exact h2 before a b after e.2
      · intro h
        exact ⟨h [] t u ts rfl, Regex.AllApart.tail h⟩

instance (ts : List Token) : Decidable (AllApart ts) := decidable_of_iff _ apartAll_iff

/-- `e` begins at one position at most. -/
theorem onlyOnce_of {e x : Bytes} (h : ∀ i, i < x.length + 1 → ∀ j, j < x.length + 1 → e <+: x.drop i → e <+: x.drop j → i = j) : OnlyOnce e x := by
  intro u v u' v' h1 h2
  have l1 := congrArg List.length h1
  have l2 := congrArg List.length h2
  simp at l1 l2
  have := h u.length (by omega) u'.length (by omega) ⟨v, by rw [h1]; simp⟩ ⟨v', by rw [h2]; simp⟩
  have e := h1.symm.trans h2
  simp only [List.append_assoc] at e
  exact (List.append_inj e this).1

def endStrings (ts : List Token) : List Bytes := ts.filterMap fun t => match t with
  | .literal l => some l
  | _ => none

theorem endsOnce_of {ts : List Token} {x : Bytes} (h : ∀ e ∈ endStrings ts, ∀ i, i < x.length + 1 → ∀ j, j < x.length + 1 → e <+: x.drop i → e <+: x.drop j → i = j) :
    EndsOnce ts x := by
  rintro before g e after rfl
  exact onlyOnce_of (h e (by simp [endStrings]))

/-- `né%{GREEDY:g}; %{INT:i}%{SET("abc"):s}` -/
def regexString : Bytes := b!"né%{GREEDY:g}; %{INT:i}%{SET(\"abc\"):s}"
def regexSample : Pattern := pat 1 [.literal b!"né", .parser (greedy b!"g" (some b!"; ")), .literal b!"; ", .parser (int b!"i"), .parser (set b!"s" b!"abc")]

theorem regexSample_compiles : compile regexString = .ok (.ok regexSample.pattern) := by decide +kernel
theorem regexSample_apart : AllApart regexSample.pattern := by decide +kernel
theorem regexSample_once : EndsOnce regexSample.pattern b!"né!; 12ab" := endsOnce_of (by decide +kernel)

example (t : SuffixTree) (hb : SuffixTree.build sip [regexSample] = .ok t) (r : Option MatchResult) (hr : t.parse b!"né!; 12ab" = .ok r) :=
  C130_same_partial sip regexString u8!"né%{GREEDY:g}; %{INT:i}%{SET(\"abc\"):s}" regexSample regexSample_compiles regexSample_apart t hb b!"né!; 12ab"
    u8!"né!; 12ab" regexSample_once r hr
/-- Trie and answer of this example exist. -/
example : (SuffixTree.build sip [regexSample] >>= fun t => t.parse b!"né!; 12ab") =
    .ok (some ⟨pat 1 [], [(b!"g", b!"!"), (b!"i", b!"12"), (b!"s", b!"ab")]⟩) := by decide +kernel
/-- The regular expression reads the text. -/
example : RegexReads regexSample.pattern b!"né!; 12ab" [(greedy b!"g" (some b!"; "), b!"!"), (int b!"i", b!"12"), (set b!"s" b!"abc", b!"ab")] :=
  .literal _ b!"né" _ _ _ rfl (.parser _ b!"!" _ _ _ trivial (.literal _ b!"; " _ _ _ rfl
    (Regex.reads_append (Regex.parser_reads (a := int b!"i") (v := b!"12") ⟨by decide, by decide, fun n h => by simp [intDelegate, SetParser.new] at h⟩)
      (Regex.parser_reads (a := set b!"s" b!"abc") (v := b!"ab") ⟨by decide, by decide, fun n h => by simp [SetParser.new] at h⟩))))

/-- `a%{INT:i}b%{GREEDY:g}`: the same as its regular expression. -/
def plainSample : Pattern := pat 1 [.literal b!"a", .parser (int b!"i"), .literal b!"b", .parser (greedy b!"g" none)]
theorem plainSample_last : GreedyLast plainSample.pattern := by
  intro before g after e
  match before, e with
  | [], e => simp [plainSample, pat] at e
  | [_], e => simp [plainSample, pat, int] at e
  | [_, _], e => simp [plainSample, pat] at e
  | [_, _, _], e => simp [plainSample, pat] at e; exact e.2.2.2.2
  | _ :: _ :: _ :: _ :: b, e => have := congrArg List.length e; simp [plainSample, pat] at this
example : ∀ text caps, Ascii text → (RegexReads plainSample.pattern text caps ↔ Matches plainSample.pattern text caps) :=
  (C130_exactly b!"a%{INT:i}b%{GREEDY:g}" (by decide) plainSample (by decide +kernel) (by decide)).mpr ⟨by decide, plainSample_last⟩
/-- `%{INT:a}5`: not the same. -/
example : ¬ ∀ text caps, Ascii text → (RegexReads [.parser (int b!"a"), .literal b!"5"] text caps ↔ Matches [.parser (int b!"a"), .literal b!"5"] text caps) :=
  fun h => absurd ((C130_exactly b!"%{INT:a}5" (by decide) (pat 1 [.parser (int b!"a"), .literal b!"5"]) (by decide +kernel) (by decide)).mp h).1 (by decide)

example := C130_reads sip tableSample table_lits table_hashes _ (okOf_eq _ table_built) b!"xé" u8!"xé" _ table_xé

end Verif.Instances
