import Verif.Instances.Files
import Verif.Props.C141_CompiledSize
/-! Concrete cases for C141. -/
namespace Verif
open Spec
namespace CompiledSize

def sources : List (Bytes × Pattern) :=
  [(b!"n=%{INT:a};", Samples.pat 1 [.literal b!"n=", .parser (Samples.int b!"a"), .literal b!";"]),
   (b!"x", Samples.pat 2 [.literal b!"x"])]

example : ∀ c ∈ sources, compile c.1 = .ok (.ok c.2.pattern) := by decide +kernel
example : ∀ c ∈ sources, Utf8 c.1 := fun c hc => ascii_utf8 (by revert c; decide)
example : (match SuffixTree.build Samples.sip (sources.map (·.2)) with | .ok t => some (t.nodes, t.labelBytes) | .error _ => none) = some (4, 4) := by decide +kernel
example : (match SuffixTable.build Samples.sip (sources.map (·.2)) with | .ok t => some (t.entries, t.labelBytes) | .error _ => none) = some (4, 4) := by
  decide +kernel

end CompiledSize
end Verif
