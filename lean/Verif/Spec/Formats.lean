import Verif.Model.Deser
/-! The two formats of pattern files. -/
namespace Verif.Spec

/-- The error that a YAML file gives where a JSON file with the same contents gives `e`: only errors about the contents are marked differently. -/
def asYaml : BuildError → BuildError
  | .deserJson e => .deserYaml e
  | e => e

/-- The outcome `x` of loading a JSON file, as it is for a YAML file: a panic and a success stay as they are. -/
def likeYaml {T : Type} (x : M (Except BuildError T)) : M (Except BuildError T) :=
  match x with
  | .error p => .error p
  | .ok (.error e) => .ok (.error (asYaml e))
  | .ok (.ok a) => .ok (.ok a)

end Verif.Spec
