import Verif.Model.Loader
import Verif.Model.Grammar
import Verif.Rust.Path
/-! Model of the deserializers /repo/src/matcher/pattern/deser.rs, /repo/src/matcher/pattern/file/deser.rs and
/repo/src/matcher/pattern/testmessage/deser.rs, and of /repo/src/matcher/pattern_loader.rs.

The libraries serde_json, serde_yaml, serde and uuid are not part of the repository.  A document is a tree of values (`Val`); reading text into a
tree and the library deserializers of strings, sequences, maps and uuids are parameters (`Deps`).  (Simplification: serde reads the text and calls
the visitors at the same time, so if a document has both a syntax error and a wrong field, the code reports the one that comes first.) -/
namespace Verif

/-- A JSON or YAML document. -/
inductive Val where
  | null
  | bool (b : Bool)
  | num (n : Int)
  | str (s : Bytes)
  | arr (l : List Val)
  | obj (l : List (Val × Val))

/-- What the libraries do. -/
structure Deps where
  /-- `String::deserialize` -/
  string : Val → Except DeError Bytes
  /-- the elements `Vec::deserialize` visits -/
  seq : Val → Except DeError (List Val)
  /-- the entries `BTreeMap::deserialize` visits -/
  entries : Val → Except DeError (List (Val × Val))
  /-- `Uuid::deserialize` -/
  uuid : Val → Except DeError Nat
  /-- the error of a visitor that does not expect this kind of value -/
  wrongType : Val → DeError
  /-- the text as a document, for `serde_json::from_str` -/
  json : Bytes → Except DeError Val
  /-- the text as a document, for `serde_yaml::from_str` -/
  yaml : Bytes → Except DeError Val
  /-- opening a file: the bytes that can be read from it, or the error -/
  openFile : Bytes → Except Nat Bytes

variable (d : Deps)

/-- The loop of `Vec<T>::deserialize`: the elements are deserialized one after the other. -/
def deserAll {α : Type} (f : Val → Except DeError α) : List Val → Except DeError (List α)
  | [] => .ok []
  | v :: vs => do
    let a ← f v
    let as ← deserAll f vs
    .ok (a :: as)

/-- `Vec<T>::deserialize` -/
def deserVec {α : Type} (f : Val → Except DeError α) (v : Val) : Except DeError (List α) := do
  let l ← d.seq v
  deserAll f l

/-- The loop of `BTreeMap<String, String>::deserialize`: later entries replace earlier ones with the same key. -/
def deserMapLoop : List (Val × Val) → BMap → Except DeError BMap
  | [], m => .ok m
  | (k, v) :: rest, m => do
    let k ← d.string k
    let v ← d.string v
    deserMapLoop rest (m.insert k v)

/-- `BTreeMap<String, String>::deserialize` -/
def deserMap (v : Val) : Except DeError BMap := do
  let l ← d.entries v
  deserMapLoop d l []

/-- `deserializer.deserialize_struct`: a visitor that only has `visit_map` accepts only objects. -/
def structEntries (v : Val) : Except DeError (List (Val × Val)) :=
  match v with
  | .obj l => .ok l
  | v => .error (d.wrongType v)

/-- the error for an unknown key, /repo/src/matcher/pattern/deser.rs:45, /repo/src/matcher/pattern/file/deser.rs:32,
/repo/src/matcher/pattern/testmessage/deser.rs:36 -/
def unexpectedField (name : Bytes) : DeError := .custom (b!"Unexpected field: " ++ name)

/-! ### Test messages -/

/-- `Field`, /repo/src/matcher/pattern/testmessage/deser.rs:12-16 -/
inductive MsgField where
  | message
  | values
  | tags
  deriving DecidableEq, Repr

/-- `Field::deserialize`, /repo/src/matcher/pattern/testmessage/deser.rs:18-42 -/
def msgField (k : Val) : Except DeError MsgField :=
  match k with
  | .str s =>
    if s = b!"message" then .ok .message
    else if s = b!"values" then .ok .values
    else if s = b!"tags" then .ok .tags
    else .error (unexpectedField s)
  | k => .error (d.wrongType k)

/-- the local variables of `TestMessageVisitor::visit_map`, /repo/src/matcher/pattern/testmessage/deser.rs:53-55 -/
structure MsgVars where
  message : Option Bytes := none
  values : Option BMap := none
  tags : Option (List Bytes) := none

/-- the loop of `TestMessageVisitor::visit_map`, /repo/src/matcher/pattern/testmessage/deser.rs:57-63 -/
def msgLoop : List (Val × Val) → MsgVars → Except DeError MsgVars
  | [], vars => .ok vars
  | (k, v) :: rest, vars => do
    match ← msgField d k with
    | .message => let x ← d.string v; msgLoop rest { vars with message := some x }
    | .values => let x ← deserMap d v; msgLoop rest { vars with values := some x }
    | .tags => let x ← deserVec d d.string v; msgLoop rest { vars with tags := some x }

/-- `TestMessage::deserialize`, /repo/src/matcher/pattern/testmessage/deser.rs:4-10 and 47-75 -/
def deserTestMessage (v : Val) : Except DeError TestMessage := do
  let l ← structEntries d v
  let vars ← msgLoop d l {}
  match vars.message with
  | none => .error (.missingField b!"message")
  | some message => .ok { message, values := vars.values.getD [], tags := vars.tags }

/-! ### Patterns -/

/-- `Field`, /repo/src/matcher/pattern/deser.rs:17-24 -/
inductive PatField where
  | name
  | uuid
  | pattern
  | values
  | tags
  | testMessages
  deriving DecidableEq, Repr

/-- `Field::deserialize`, /repo/src/matcher/pattern/deser.rs:26-52 -/
def patField (k : Val) : Except DeError PatField :=
  match k with
  | .str s =>
    if s = b!"name" then .ok .name
    else if s = b!"uuid" then .ok .uuid
    else if s = b!"pattern" then .ok .pattern
    else if s = b!"values" then .ok .values
    else if s = b!"tags" then .ok .tags
    else if s = b!"test_messages" then .ok .testMessages
    else .error (unexpectedField s)
  | k => .error (d.wrongType k)

/-- the local variables of `PatternVisitor::visit_map`, /repo/src/matcher/pattern/deser.rs:63-68 -/
structure PatVars where
  name : Option Bytes := none
  uuid : Option Nat := none
  pattern : Option Bytes := none
  values : Option BMap := none
  tags : Option (List Bytes) := none
  testMessages : Option (List TestMessage) := none

/-- the loop of `PatternVisitor::visit_map`, /repo/src/matcher/pattern/deser.rs:70-79 -/
def patLoop : List (Val × Val) → PatVars → Except DeError PatVars
  | [], vars => .ok vars
  | (k, v) :: rest, vars => do
    match ← patField d k with
    | .name => let x ← d.string v; patLoop rest { vars with name := some x }
    | .uuid => let x ← d.uuid v; patLoop rest { vars with uuid := some x }
    | .pattern => let x ← d.string v; patLoop rest { vars with pattern := some x }
    | .values => let x ← deserMap d v; patLoop rest { vars with values := some x }
    | .tags => let x ← deserVec d d.string v; patLoop rest { vars with tags := some x }
    | .testMessages => let x ← deserVec d (deserTestMessage d) v; patLoop rest { vars with testMessages := some x }

/-- the rest of `PatternVisitor::visit_map`, /repo/src/matcher/pattern/deser.rs:81-106; compiling the pattern may panic. -/
def patFinish (vars : PatVars) : M (Except DeError Pattern) :=
  match vars.pattern with
  | none => .ok (.error (.missingField b!"pattern"))
  | some s =>
    match compile s with
    | .error e => .error e
    | .ok (.error _) => .ok (.error (.custom b!"Invalid field 'pattern'"))
    | .ok (.ok pattern) =>
      match vars.uuid with
      | none => .ok (.error (.missingField b!"pattern"))
      | some uuid => .ok (.ok { name := vars.name, uuid, pattern, values := vars.values, tags := vars.tags, testMessages := vars.testMessages })

/-- `Pattern::deserialize`, /repo/src/matcher/pattern/deser.rs:9-15 and 55-107 -/
def deserPattern (v : Val) : M (Except DeError Pattern) :=
  match structEntries d v with
  | .error e => .ok (.error e)
  | .ok l =>
    match patLoop d l {} with
    | .error e => .ok (.error e)
    | .ok vars => patFinish vars

/-! ### Pattern files -/

/-- The loop of `Vec<Pattern>::deserialize`: the elements are deserialized one after the other. -/
def deserPatterns : List Val → M (Except DeError (List Pattern))
  | [] => .ok (.ok [])
  | v :: vs =>
    match deserPattern d v with
    | .error e => .error e
    | .ok (.error e) => .ok (.error e)
    | .ok (.ok p) =>
      match deserPatterns vs with
      | .error e => .error e
      | .ok (.error e) => .ok (.error e)
      | .ok (.ok ps) => .ok (.ok (p :: ps))

/-- `Field::deserialize`, /repo/src/matcher/pattern/file/deser.rs:14-39 -/
def fileField (k : Val) : Except DeError Unit :=
  match k with
  | .str s => if s = b!"patterns" then .ok () else .error (unexpectedField s)
  | k => .error (d.wrongType k)

/-- the loop of `FileVisitor::visit_map`, /repo/src/matcher/pattern/file/deser.rs:51-55 -/
def fileLoop : List (Val × Val) → Option (List Pattern) → M (Except DeError (Option (List Pattern)))
  | [], patterns => .ok (.ok patterns)
  | (k, v) :: rest, _ =>
    match fileField d k with
    | .error e => .ok (.error e)
    | .ok () =>
      match d.seq v with
      | .error e => .ok (.error e)
      | .ok l =>
        match deserPatterns d l with
        | .error e => .error e
        | .ok (.error e) => .ok (.error e)
        | .ok (.ok ps) => fileLoop rest (some ps)

/-- `PatternFile::deserialize`, /repo/src/matcher/pattern/file/deser.rs:6-12 and 43-66 -/
def deserFile (v : Val) : M (Except DeError PatternFile) :=
  match structEntries d v with
  | .error e => .ok (.error e)
  | .ok l =>
    match fileLoop d l none with
    | .error e => .error e
    | .ok (.error e) => .ok (.error e)
    | .ok (.ok none) => .ok (.error (.missingField b!"patterns"))
    | .ok (.ok (some patterns)) => .ok (.ok { patterns })

/-! ### Loading files -/

open Classical in
/-- `PatternLoader::read`, /repo/src/matcher/pattern_loader.rs:16-22.  The result of `read_to_string` is ignored: if the contents are not valid
UTF-8, the buffer stays empty. -/
noncomputable def readFile (path : Bytes) : Except BuildError Bytes :=
  match d.openFile path with
  | .error e => .error (.io e)
  | .ok contents => .ok (if Utf8 contents then contents else [])

/-- `serde_json::from_str::<PatternFile>` or `serde_yaml::from_str::<PatternFile>`, `err` being the conversion of the error by `try!`. -/
def parseFile (read : Bytes → Except DeError Val) (err : DeError → BuildError) (content : Bytes) : M (Except BuildError PatternFile) :=
  match read content with
  | .error e => .ok (.error (err e))
  | .ok v =>
    match deserFile d v with
    | .error e => .error e
    | .ok (.error e) => .ok (.error (err e))
    | .ok (.ok file) => .ok (.ok file)

open Classical in
/-- `extension.to_str()` -/
noncomputable def toStr (s : Bytes) : Option Bytes := if Utf8 s then some s else none

/-- `PatternLoader::load_file`, /repo/src/matcher/pattern_loader.rs:38-59 -/
noncomputable def loadFile (path : Bytes) : M (Except BuildError PatternFile) :=
  match pathExtension path with
  | none => .ok (.error .unsupportedFileExtension)
  | some extension =>
    match toStr extension with
    | none => .ok (.error .notUtf8FileName)
    | some extension =>
      if extension = b!"json" then
        match readFile d path with
        | .error e => .ok (.error e)
        | .ok content => parseFile d d.json .deserJson content
      else if extension = b!"yaml" ∨ extension = b!"yml" ∨ extension = b!"YAML" ∨ extension = b!"YML" then
        match readFile d path with
        | .error e => .ok (.error e)
        | .ok content => parseFile d d.yaml .deserYaml content
      else .ok (.error .unsupportedFileExtension)

/-- `PatternLoader::from_file`, /repo/src/matcher/pattern_loader.rs:31-36 -/
noncomputable def fromFile {T : Type} (I : MatcherImpl T) (path : Bytes) : M (Except BuildError T) :=
  match loadFile d path with
  | .error e => .error e
  | .ok (.error e) => .ok (.error e)
  | .ok (.ok file) =>
    match fromSource I (fileItems file.patterns) with
    | .error e => .error e
    | .ok (r, _) => .ok r

/-- `PatternLoader::from_file_ignore_errors`, /repo/src/matcher/pattern_loader.rs:24-29 -/
noncomputable def fromFileIgnoreErrors {T : Type} (I : MatcherImpl T) (path : Bytes) : M (Except BuildError T) :=
  match loadFile d path with
  | .error e => .error e
  | .ok (.error e) => .ok (.error e)
  | .ok (.ok file) =>
    match fromSourceIgnoreErrors I (fileItems file.patterns) with
    | .error e => .error e
    | .ok m => .ok (.ok m)

/-- `Pattern::from_json`, /repo/src/matcher/pattern/pattern.rs:66-68 -/
def fromJson (doc : Bytes) : M (Except DeError Pattern) :=
  match d.json doc with
  | .error e => .ok (.error e)
  | .ok v => deserPattern d v

end Verif
