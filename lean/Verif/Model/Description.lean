import Verif.Model.Display
/-! Model of the descriptions of errors: /repo/src/matcher/pattern/testmessage/error.rs:129-150, /repo/src/matcher/pattern_source/error.rs:58-68. -/
namespace Verif

/-- `description` of a test message error, /repo/src/matcher/pattern/testmessage/error.rs:130-148 -/
def TestError.description : TestError → Bytes
  | .valueNotMatch .. => b!"A parsed value does not equal to its expected value"
  | .keyNotFound .. => b!"A parsed key in not found among the expected ones"
  | .testMessageDoesntMatch .. => b!"A test message cannot be parsed but its pattern is inserted"
  | .matchedToOtherPattern .. => b!"The test message matched to an other pattern"
  | .unexpectedTags .. => b!"Unexpected tags found either in the parse result or among the expected ones"

/-- The descriptions of the errors of the libraries. -/
structure ErrorFacts where
  ioDescription : Nat → Bytes
  jsonDescription : DeError → Bytes
  yamlDescription : DeError → Bytes

/-- `description` of a build error, /repo/src/matcher/pattern_source/error.rs:59-68 -/
def BuildError.description (F : ErrorFacts) : BuildError → Bytes
  | .testMessage e => e.description
  | .io e => F.ioDescription e
  | .deserJson e => F.jsonDescription e
  | .deserYaml e => F.yamlDescription e
  | .unsupportedFileExtension => b!"The given file extension is not supported"
  | .notUtf8FileName => b!"The given filename contains non Utf-8 characters"

end Verif
