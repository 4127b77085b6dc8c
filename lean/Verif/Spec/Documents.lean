import Verif.Model.Deser
import Verif.Spec.Matching
/-! Which documents describe test messages, patterns and pattern files.  `Deps` says what the libraries accept as a string, list, map and uuid. -/
namespace Verif.Spec

/-- The lists have the same length, and their elements are related one by one. -/
inductive Each {α β : Type} (R : α → β → Prop) : List α → List β → Prop
  | nil : Each R [] []
  | cons (a : α) (b : β) (as : List α) (bs : List β) : R a b → Each R as bs → Each R (a :: as) (b :: bs)

/-- The last entry of an object with the key `k`. -/
def LastEntry (l : List (Val × Val)) (k : Bytes) (v : Val) : Prop := ∃ A B, l = A ++ (.str k, v) :: B ∧ ∀ e ∈ B, e.1 ≠ .str k

/-- The field `k` of an object: `none` if there is no such key, and else the meaning of the last entry with this key. -/
def Field {α : Type} (l : List (Val × Val)) (k : Bytes) (R : Val → α → Prop) (o : Option α) : Prop :=
  match o with
  | none => ∀ e ∈ l, e.1 ≠ .str k
  | some x => ∃ v, LastEntry l k v ∧ R v x

/-- A string. -/
def IsString (d : Deps) (v : Val) (s : Bytes) : Prop := d.string v = .ok s

/-- A list. -/
def IsList (d : Deps) {α : Type} (R : Val → α → Prop) (v : Val) (xs : List α) : Prop := ∃ l, d.seq v = .ok l ∧ Each R l xs

/-- A map from strings to strings; if a key is given more than once, its last value counts. -/
def IsMap (d : Deps) (v : Val) (m : BMap) : Prop :=
  ∃ l, ∃ kvs : List (Bytes × Bytes), d.entries v = .ok l ∧ Each (fun e kv => IsString d e.1 kv.1 ∧ IsString d e.2 kv.2) l kvs ∧
    OrderedMap m ∧ ∀ k x, (k, x) ∈ m ↔ (kvs.reverse.find? fun kv => decide (kv.1 = k)).map (·.2) = some x

/-- The entry of an object is one a test message may have. -/
def MessageEntry (d : Deps) (k w : Val) : Prop :=
  (k = .str b!"message" ∧ ∃ s, IsString d w s) ∨ (k = .str b!"values" ∧ ∃ m, IsMap d w m) ∨ (k = .str b!"tags" ∧ ∃ ts, IsList d (IsString d) w ts)

/-- An object with the fields of a test message, all of the right types (also those that are overridden by a later entry). -/
def IsMessage (d : Deps) (v : Val) (msg : TestMessage) : Prop :=
  ∃ l, v = .obj l ∧ (∀ k w, (k, w) ∈ l → MessageEntry d k w) ∧
    Field l b!"message" (IsString d) (some msg.message) ∧
    Field l b!"tags" (IsList d (IsString d)) msg.tags ∧
    ∃ values, Field l b!"values" (IsMap d) values ∧ msg.values = values.getD []

/-- The entry of an object is one a pattern may have. -/
def PatternEntry (d : Deps) (k w : Val) : Prop :=
  (k = .str b!"name" ∧ ∃ s, IsString d w s) ∨ (k = .str b!"uuid" ∧ ∃ u, d.uuid w = .ok u) ∨
    (k = .str b!"pattern" ∧ ∃ s, IsString d w s) ∨ (k = .str b!"values" ∧ ∃ m, IsMap d w m) ∨
    (k = .str b!"tags" ∧ ∃ ts, IsList d (IsString d) w ts) ∨ (k = .str b!"test_messages" ∧ ∃ ms, IsList d (IsMessage d) w ms)

/-- An object with the fields of a pattern, all of the right types, whose pattern string compiles. -/
def IsPattern (d : Deps) (v : Val) (p : Pattern) : Prop :=
  ∃ l, v = .obj l ∧ (∀ k w, (k, w) ∈ l → PatternEntry d k w) ∧
    (∃ s, Field l b!"pattern" (IsString d) (some s) ∧ compile s = .ok (.ok p.pattern)) ∧
    Field l b!"uuid" (fun w u => d.uuid w = .ok u) (some p.uuid) ∧
    Field l b!"name" (IsString d) p.name ∧
    Field l b!"values" (IsMap d) p.values ∧
    Field l b!"tags" (IsList d (IsString d)) p.tags ∧
    Field l b!"test_messages" (IsList d (IsMessage d)) p.testMessages

/-- An object whose only key is `patterns`, with lists of patterns as values. -/
def IsFile (d : Deps) (v : Val) (file : PatternFile) : Prop :=
  ∃ l, v = .obj l ∧ (∀ k w, (k, w) ∈ l → k = .str b!"patterns" ∧ ∃ ps, IsList d (IsPattern d) w ps) ∧
    Field l b!"patterns" (IsList d (IsPattern d)) (some file.patterns)

/-! What is reported for a document that is none of these: always the first thing that is wrong, in the order of the document. -/

/-- `e` is the error of the first element of a list that is wrong; those before it are right. -/
def FirstWrong {α ε : Type} (right : α → Prop) (wrong : α → ε → Prop) (l : List α) (e : ε) : Prop :=
  ∃ A x B, l = A ++ x :: B ∧ (∀ a ∈ A, right a) ∧ wrong x e

/-- The error for something that should be a list: it is none, or an element of it is wrong. -/
def ListError (d : Deps) (right : Val → Prop) (wrong : Val → DeError → Prop) (v : Val) (e : DeError) : Prop :=
  d.seq v = .error e ∨ ∃ l, d.seq v = .ok l ∧ FirstWrong right wrong l e

/-- The error for something that should be a list of strings. -/
def StringsError (d : Deps) : Val → DeError → Prop := ListError d (fun w => ∃ s, IsString d w s) fun w e => d.string w = .error e

/-- The error for something that should be a map from strings to strings: it is none, or a key or value of it is no string. -/
def MapError (d : Deps) (v : Val) (e : DeError) : Prop :=
  d.entries v = .error e ∨ ∃ l, d.entries v = .ok l ∧
    FirstWrong (fun x => (∃ s, IsString d x.1 s) ∧ ∃ s, IsString d x.2 s)
      (fun x e => d.string x.1 = .error e ∨ (∃ s, IsString d x.1 s) ∧ d.string x.2 = .error e) l e

/-- The error for an entry that a test message must not have: the key is no string, or an unknown one, or the value has not the type the key
requires. -/
inductive MessageEntryError (d : Deps) : Val → Val → DeError → Prop
  | key (k w : Val) : (∀ s, k ≠ .str s) → MessageEntryError d k w (d.wrongType k)
  | unknown (s : Bytes) (w : Val) : s ∉ [b!"message", b!"values", b!"tags"] → MessageEntryError d (.str s) w (.custom (b!"Unexpected field: " ++ s))
  | message (w : Val) (e : DeError) : d.string w = .error e → MessageEntryError d (.str b!"message") w e
  | values (w : Val) (e : DeError) : MapError d w e → MessageEntryError d (.str b!"values") w e
  | tags (w : Val) (e : DeError) : StringsError d w e → MessageEntryError d (.str b!"tags") w e

/-- The error for something that should be a test message: it is no object, or an entry of it is wrong, or the message is missing. -/
def MessageError (d : Deps) (v : Val) (e : DeError) : Prop :=
  ((∀ l, v ≠ .obj l) ∧ e = d.wrongType v) ∨
  ∃ l, v = .obj l ∧
    (FirstWrong (fun x => MessageEntry d x.1 x.2) (fun x => MessageEntryError d x.1 x.2) l e ∨
     (∀ k w, (k, w) ∈ l → MessageEntry d k w) ∧ Field l b!"message" (IsString d) none ∧ e = .missingField b!"message")

/-- The error for an entry that a pattern must not have: the key is no string, or an unknown one, or the value has not the type the key
requires. -/
inductive PatternEntryError (d : Deps) : Val → Val → DeError → Prop
  | key (k w : Val) : (∀ s, k ≠ .str s) → PatternEntryError d k w (d.wrongType k)
  | unknown (s : Bytes) (w : Val) : s ∉ [b!"name", b!"uuid", b!"pattern", b!"values", b!"tags", b!"test_messages"] →
      PatternEntryError d (.str s) w (.custom (b!"Unexpected field: " ++ s))
  | string (s : Bytes) (w : Val) (e : DeError) : s ∈ [b!"name", b!"pattern"] → d.string w = .error e → PatternEntryError d (.str s) w e
  | uuid (w : Val) (e : DeError) : d.uuid w = .error e → PatternEntryError d (.str b!"uuid") w e
  | values (w : Val) (e : DeError) : MapError d w e → PatternEntryError d (.str b!"values") w e
  | tags (w : Val) (e : DeError) : StringsError d w e → PatternEntryError d (.str b!"tags") w e
  | messages (w : Val) (e : DeError) : ListError d (fun v => ∃ m, IsMessage d v m) (MessageError d) w e → PatternEntryError d (.str b!"test_messages") w e

/-- The error for something that should be a pattern: it is no object, or an entry of it is wrong, or the pattern string is missing or does not compile,
or the uuid is missing (which is reported as if the pattern string were). -/
def PatternError (d : Deps) (v : Val) (e : DeError) : Prop :=
  ((∀ l, v ≠ .obj l) ∧ e = d.wrongType v) ∨
  ∃ l, v = .obj l ∧
    (FirstWrong (fun x => PatternEntry d x.1 x.2) (fun x => PatternEntryError d x.1 x.2) l e ∨
     (∀ k w, (k, w) ∈ l → PatternEntry d k w) ∧
      ((Field l b!"pattern" (IsString d) none ∧ e = .missingField b!"pattern") ∨
       ∃ s, Field l b!"pattern" (IsString d) (some s) ∧
         (((∃ pe, compile s = .ok (.error pe)) ∧ e = .custom b!"Invalid field 'pattern'") ∨
          ((∃ toks, compile s = .ok (.ok toks)) ∧ Field l b!"uuid" (fun w u => d.uuid w = .ok u) none ∧ e = .missingField b!"pattern"))))

/-- The error for something that should be a pattern file: it is no object, or the first entry with another key than `patterns` or with something else
than a list of patterns is wrong, or there are no entries. -/
def FileError (d : Deps) (v : Val) (e : DeError) : Prop :=
  ((∀ l, v ≠ .obj l) ∧ e = d.wrongType v) ∨ (v = .obj [] ∧ e = .missingField b!"patterns") ∨
  ∃ l, v = .obj l ∧
    FirstWrong (fun x => x.1 = .str b!"patterns" ∧ ∃ ps, IsList d (IsPattern d) x.2 ps)
      (fun x e => ((∀ s, x.1 ≠ .str s) ∧ e = d.wrongType x.1) ∨
        (∃ s, x.1 = .str s ∧ s ≠ b!"patterns" ∧ e = .custom (b!"Unexpected field: " ++ s)) ∨
        (x.1 = .str b!"patterns" ∧ ListError d (fun w => ∃ p, IsPattern d w p) (PatternError d) x.2 e)) l e

/-! Documents that make the program panic: nothing is wrong with them up to a pattern string whose compilation panics. -/

/-- A pattern document that makes deserialization panic. -/
def PatternPanics (d : Deps) (v : Val) (e : Panic) : Prop :=
  ∃ l s, v = .obj l ∧ (∀ k w, (k, w) ∈ l → PatternEntry d k w) ∧ Field l b!"pattern" (IsString d) (some s) ∧ compile s = .error e

/-- A document of a pattern file that makes deserialization panic. -/
def FilePanics (d : Deps) (v : Val) (e : Panic) : Prop :=
  ∃ l, v = .obj l ∧
    FirstWrong (fun x : Val × Val => x.1 = .str b!"patterns" ∧ ∃ ps, IsList d (IsPattern d) x.2 ps)
      (fun x e => x.1 = .str b!"patterns" ∧ ∃ vs, d.seq x.2 = .ok vs ∧ FirstWrong (fun w => ∃ p, IsPattern d w p) (PatternPanics d) vs e) l e

end Verif.Spec
