import Verif.Model.Description
/-! Model of the causes of errors: /repo/src/matcher/pattern_source/error.rs:70-78 (`cause` of a build error).  The other error type of the library,
/repo/src/matcher/pattern/testmessage/error.rs:129-149, does not define `cause`, so that it has the default of std: no cause. -/
namespace Verif

/-- An error as seen through `std::error::Error`: one of the library's own, one of the errors of other libraries that it passes on, or some other error that
is the cause of such a one (a number stands for it). -/
inductive AnyError where
  | build (e : BuildError)
  | test (e : TestError)
  | io (code : Nat)
  | json (e : DeError)
  | yaml (e : DeError)
  | other (n : Nat)

/-- What the errors of other libraries say about themselves. -/
structure ErrorCauses extends ErrorFacts where
  otherDescription : Nat → Bytes
  ioCause : Nat → Option AnyError
  jsonCause : DeError → Option AnyError
  yamlCause : DeError → Option AnyError
  otherCause : Nat → Option AnyError

/-- `cause` of a test message error: the default of `std::error::Error`, as /repo/src/matcher/pattern/testmessage/error.rs:129-149 does not define it -/
def TestError.cause : TestError → Option AnyError
  | _ => none

/-- `cause` of a build error, /repo/src/matcher/pattern_source/error.rs:70-78 -/
def BuildError.cause (F : ErrorCauses) : BuildError → Option AnyError
  | .testMessage e => e.cause
  | .io e => F.ioCause e
  | .deserJson e => F.jsonCause e
  | .deserYaml e => F.yamlCause e
  | .unsupportedFileExtension | .notUtf8FileName => none

/-- `cause` of any error: /repo/src/matcher/pattern_source/error.rs:70-78 for build errors, the default for test message errors, a parameter for the others -/
def AnyError.cause (F : ErrorCauses) : AnyError → Option AnyError
  | .build e => e.cause F
  | .test e => e.cause
  | .io e => F.ioCause e
  | .json e => F.jsonCause e
  | .yaml e => F.yamlCause e
  | .other n => F.otherCause n

/-- `description` of any error: /repo/src/matcher/pattern_source/error.rs:59-68, /repo/src/matcher/pattern/testmessage/error.rs:130-148, a parameter for the
others -/
def AnyError.description (F : ErrorCauses) : AnyError → Bytes
  | .build e => e.description F.toErrorFacts
  | .test e => e.description
  | .io e => F.ioDescription e
  | .json e => F.jsonDescription e
  | .yaml e => F.yamlDescription e
  | .other n => F.otherDescription n

end Verif
