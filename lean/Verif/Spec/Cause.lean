import Verif.Model.Cause
/-! Walking from an error to its causes. -/
namespace Verif.Spec

/-- `ds` are the descriptions one sees who starts at the error and goes on to the cause as long as there is one. -/
inductive Walk (F : ErrorCauses) : AnyError → List Bytes → Prop
  | last (e : AnyError) : e.cause F = none → Walk F e [e.description F]
  | next (e c : AnyError) (ds : List Bytes) : e.cause F = some c → Walk F c ds → Walk F e (e.description F :: ds)

/-- The error that a build error passes on. -/
inductive PassesOn : BuildError → AnyError → Prop
  | test (e : TestError) : PassesOn (.testMessage e) (.test e)
  | io (code : Nat) : PassesOn (.io code) (.io code)
  | json (e : DeError) : PassesOn (.deserJson e) (.json e)
  | yaml (e : DeError) : PassesOn (.deserYaml e) (.yaml e)

end Verif.Spec
