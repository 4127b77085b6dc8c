import Verif.Props.C133_Front
import Verif.Instances.Basic
/-! C133, applied to concrete patterns. -/
namespace Verif.Instances.Front
open Verif Spec

/-- `user %{INT:x} in` and `user`. -/
def sample : List Pattern :=
  [Samples.pat 1 [.literal b!"user ", .parser (Samples.int b!"x"), .literal b!" in"], Samples.pat 2 [.literal b!"user"]]

theorem led : ∀ p ∈ sample, StartsLiteral p := by
  intro p hp
  simp [sample] at hp
  rcases hp with rfl | rfl <;> simp [StartsLiteral, Samples.pat]

theorem ascii : ∀ p ∈ sample, AsciiLits p := by
  intro p hp l hl
  simp [sample] at hp
  rcases hp with rfl | rfl <;> simp [Samples.pat] at hl
  · rcases hl with rfl | rfl <;> decide
  · subst hl; decide

theorem nonempty : ∀ p ∈ sample, NonemptyLits p := by
  intro p hp l hl
  simp [sample] at hp
  rcases hp with rfl | rfl <;> simp [Samples.pat] at hl
  · rcases hl with rfl | rfl <;> decide
  · subst hl; decide

theorem split : ∀ p ∈ sample, SplitLiterals p := by
  intro p hp l rest e l'
  simp [sample] at hp
  rcases hp with rfl | rfl <;> (simp only [Samples.pat, List.cons.injEq] at e; simp [← e.2])

/-- What the trie answers for the patterns and texts as they are. -/
theorem plain : (SuffixTree.build Samples.sip sample >>= fun t => t.parse b!"user 7 in") = .ok (some ⟨Samples.pat 1 [], [(b!"x", b!"7")]⟩) := by decide +kernel

theorem plain_array : (SuffixTable.build Samples.sip sample >>= fun t => t.parse b!"user 7 in") = .ok (some ⟨Samples.pat 1 [], [(b!"x", b!"7")]⟩) := by
  decide +kernel

/-- With `sshd: ` in front. -/
example : (SuffixTree.build Samples.sip (sample.map (front b!"sshd: ")) >>= fun t => t.parse (b!"sshd: " ++ b!"user 7 in")) =
    .ok (some ⟨Samples.pat 1 [], [(b!"x", b!"7")]⟩) := by
  rw [C133_ascii Samples.sip sample led ascii nonempty split b!"sshd: " (by decide) b!"user 7 in" (by decide), plain]

/-- With `né ` in front. -/
example (r : Option MatchResult) (hr : (SuffixTree.build Samples.sip (sample.map (front b!"né ")) >>= fun t => t.parse (b!"né " ++ b!"user 7 in")) = .ok r) :
    r = some ⟨Samples.pat 1 [], [(b!"x", b!"7")]⟩ :=
  C133_trie Samples.sip sample led (fun p hp => asciiLits_utf8 (ascii p hp)) nonempty split _ u8!"né " b!"user 7 in"
    (ascii_utf8 (by decide)) _ r plain hr

example : (SuffixTree.build Samples.sip (sample.map (front b!"né ")) >>= fun t => t.parse (b!"né " ++ b!"user 7 in")) =
    .ok (some ⟨Samples.pat 1 [], [(b!"x", b!"7")]⟩) := by decide +kernel

example : (SuffixTable.build Samples.sip (sample.map (front b!"né ")) >>= fun t => t.parse (b!"né " ++ b!"user 7 in")) =
    .ok (some ⟨Samples.pat 1 [], [(b!"x", b!"7")]⟩) := by
  rw [C133_suffix_array Samples.sip sample led (fun p hp => asciiLits_utf8 (ascii p hp)) _ u8!"né " b!"user 7 in"
    (ascii_utf8 (by decide)), plain_array]

/-- Without the text in front, the message is not answered any more. -/
example (r : Option MatchResult) (hr : (SuffixTree.build Samples.sip (sample.map (front b!"sshd: ")) >>= fun t => t.parse b!"user 7 in") = .ok r) : r = none :=
  C133_other Samples.sip sample led (fun p hp => asciiLits_utf8 (ascii p hp)) b!"sshd: " (ascii_utf8 (by decide)) b!"user 7 in" (ascii_utf8 (by decide))
    (by decide) r hr

end Verif.Instances.Front
