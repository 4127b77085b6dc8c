import Verif.Props.C135_Rename
import Verif.Instances.Basic
/-! C135, applied to concrete patterns. -/
namespace Verif.Instances.Rename
open Verif Spec

/-- `al%{SET("ac"):x}b` and `%{INT:y}a`. -/
def sample : List Pattern :=
  [Samples.pat 1 [.literal b!"al", .parser (Samples.set b!"x" b!"ac"), .literal b!"b"], Samples.pat 2 [.parser (Samples.int b!"y"), .literal b!"a"]]

/-- The same with `a` and `c` exchanged. -/
example : sample.map (Pattern.rename swapAC) =
    [Samples.pat 1 [.literal b!"cl", .parser (Samples.set b!"x" b!"ac"), .literal b!"b"], Samples.pat 2 [.parser (Samples.int b!"y"), .literal b!"c"]] := by
  decide +kernel

theorem compiled : ∀ p ∈ sample, CompiledAscii p := by
  intro p hp
  simp [sample] at hp
  rcases hp with rfl | rfl
  · exact ⟨b!"al%{SET(\"ac\"):x}b", by decide, by decide +kernel⟩
  · exact ⟨b!"%{INT:y}a", by decide, by decide +kernel⟩

/-- The theorem for the message `alacab`, which is `clcacb` in the new characters. -/
example : ∃ r, (SuffixTree.build Samples.sip sample >>= fun t => t.parse b!"alacab") = .ok r ∧
    (SuffixTree.build Samples.sip (sample.map (Pattern.rename swapAC)) >>= fun t => t.parse b!"clcacb") = .ok (r.map (MatchResult.rename swapAC)) :=
  C135_compiled Samples.sip swapAC swapAC_renaming sample compiled (by decide +kernel) (by decide +kernel) b!"alacab" (by decide)

/-- What is answered. -/
example : (SuffixTree.build Samples.sip sample >>= fun t => t.parse b!"alacab") = .ok (some ⟨Samples.pat 1 [], [(b!"x", b!"aca")]⟩) ∧
    (SuffixTree.build Samples.sip (sample.map (Pattern.rename swapAC)) >>= fun t => t.parse b!"clcacb") = .ok (some ⟨Samples.pat 1 [], [(b!"x", b!"cac")]⟩) := by
  decide +kernel

end Verif.Instances.Rename
