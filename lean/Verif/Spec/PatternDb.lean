import Verif.Spec.Grammar
import Verif.Spec.Strings
import Verif.Spec.Documents
/-! Patterns of syslog-ng's patterndb, as far as the script /repo/utils/pdb2adb knows them, and the actiondb patterns they stand for. -/
namespace Verif.Spec

/-- A patterndb pattern is a list of pieces of text and parsers `@TYPE:name:argument@`. -/
inductive PdbPiece where
  | text (s : List Char)
  | parser (type : List Char) (args : List (List Char))

/-- How a piece is written. -/
def PdbPiece.source : PdbPiece → List Char
  | .text s => s
  | .parser type args => '@' :: (type ++ args.flatMap (fun a => ':' :: a)) ++ ['@']

/-- How a pattern is written. -/
def pdbSource (ps : List PdbPiece) : List Char := ps.flatMap PdbPiece.source

/-- The actiondb name for a parser: the first argument, which must be an actiondb name, or a name for values nobody asked for. -/
def PdbName (args : List (List Char)) (name : Bytes) : Prop :=
  (∃ k, args.head? = some k ∧ Name (encode k) ∧ name = encode k) ∨ ((args.head? = none ∨ args.head? = some []) ∧ name = b!"pdb2adb2ignore")

/-- The letters and digits. -/
def pdbAlnum : Bytes := b!"AZERTYUIOPQSDFGHJKLMWXCVBNazertyuiopqsdfghjklmwxcvbn1234567890"

/-- The elements of an actiondb pattern that stand for a patterndb parser. -/
inductive PdbMeans : List Char → List (List Char) → List Elem → Prop
  | number (args : List (List Char)) (n : Bytes) : PdbName args n → PdbMeans "NUMBER".toList args [.int [] (some n)]
  | rest (type : List Char) (args : List (List Char)) (n : Bytes) : PdbName args n →
      type ∈ ["ANYSTRING".toList, "IPvANY".toList, "MACADDR".toList, "IPv4".toList, "LLADDR".toList] →
      PdbMeans type args [.greedy (some n)]
  | estring (key stop : List Char) (n : Bytes) : PdbName [key] n → stop ≠ [] →
      PdbMeans "ESTRING".toList [key, stop] [.greedy (some n), .literal (encode stop)]
  | colon (key : List Char) (n : Bytes) : PdbName [key] n → PdbMeans "ESTRING".toList [key, [], []] [.greedy (some n), .literal b!":"]
  | quoted (key : List Char) (q : Char) (n : Bytes) : PdbName [key] n →
      PdbMeans "QSTRING".toList [key, [q]] [.literal (encode [q]), .greedy (some n), .literal (encode [q])]
  | bracketed (key : List Char) (q r : Char) (n : Bytes) : PdbName [key] n →
      PdbMeans "QSTRING".toList [key, [q, r]] [.literal (encode [q]), .greedy (some n), .literal (encode [r])]
  | hostname (args : List (List Char)) (n : Bytes) : PdbName args n → PdbMeans "HOSTNAME".toList args [.set (pdbAlnum ++ b!"-.") [] (some n)]
  | float (type : List Char) (args : List (List Char)) (n : Bytes) : PdbName args n → type ∈ ["FLOAT".toList, "DOUBLE".toList] →
      PdbMeans type args [.set b!"1234567890." [] (some n)]
  | string (args : List (List Char)) (n : Bytes) : PdbName args n → args.length ≤ 1 → PdbMeans "STRING".toList args [.set pdbAlnum [] (some n)]
  | stringWith (key more : List Char) (n : Bytes) : PdbName [key] n → '"' ∉ more → more ≠ ['0'] →
      PdbMeans "STRING".toList [key, more] [.set (pdbAlnum ++ encode more) [] (some n)]
  /-- `0` is one of the digits -/
  | stringZero (key : List Char) (n : Bytes) : PdbName [key] n → PdbMeans "STRING".toList [key, ['0']] [.set pdbAlnum [] (some n)]
  | set (key chars : List Char) (n : Bytes) : PdbName [key] n → '"' ∉ chars → chars ≠ [] →
      PdbMeans "SET".toList [key, chars] [.set (encode chars) [] (some n)]

/-- The elements that stand for a piece; `@` and `:` have their meaning everywhere. -/
inductive PdbPieceMeans : PdbPiece → List Elem → Prop
  | text (s : List Char) : '@' ∉ s → PdbPieceMeans (.text s) [.literal (encode s)]
  | parser (type : List Char) (args : List (List Char)) (es : List Elem) : PdbMeans type args es → (∀ a ∈ args, '@' ∉ a ∧ ':' ∉ a) →
      PdbPieceMeans (.parser type args) es

/-- Adjacent pieces of literal text are one; empty text is nothing. -/
def joinLiterals : List Elem → List Elem
  | [] => []
  | .literal a :: es =>
    match joinLiterals es with
    | .literal b :: r => .literal (a ++ b) :: r
    | r => if a = [] then r else .literal a :: r
  | e :: es => e :: joinLiterals es

/-- The pattern `ps` stands for the elements `es`. -/
def PdbPattern (ps : List PdbPiece) (es : List Elem) : Prop := ∃ ess, Each PdbPieceMeans ps ess ∧ es = joinLiterals ess.flatten

/-- The tokens the elements stand for, with literal text taken as it is: patterndb has no escape for `%{`. -/
def meant : List Elem → List Token
  | [] => []
  | .greedy n :: .literal raw :: es => .parser (.greedy { name := n, endString := some raw }) :: .literal raw :: meant es
  | .greedy n :: es => .parser (.greedy { name := n, endString := none }) :: meant es
  | .literal raw :: es => .literal raw :: meant es
  | .int os n :: es => .parser (intParser os n) :: meant es
  | .set cs os n :: es => .parser (setParser cs os n) :: meant es

/-- No literal text looks like the start of an actiondb parser or, unless it is the end of a `GREEDY` and taken as it is, like its escaped form. -/
def CleanLiterals : List Elem → Prop
  | [] => True
  | .greedy _ :: .literal raw :: es => ¬ b!"%{" <:+: raw ∧ CleanLiterals es
  | .literal raw :: es => ¬ b!"%{" <:+: raw ∧ ¬ b!"\\%\\{" <:+: raw ∧ CleanLiterals es
  | _ :: es => CleanLiterals es

/-- In patterndb text `@` is written `@@`. -/
def pdbEscape (s : List Char) : List Char := s.flatMap fun c => if c = '@' then ['@', '@'] else [c]

/-- The names of parsers the script converts: a few words, which a line feed may follow, and all the names that have certain words at the beginning, at the
end or anywhere. -/
def PdbKnown (type : List Char) : Prop :=
  (∃ w ∈ ["ESTRING".toList, "NUMBER".toList, "HOSTNAME".toList, "STRING".toList, "ANYSTRING".toList, "SET".toList], type = w ∨ type = w ++ ['\n']) ∨
  (∃ w ∈ ["FLOAT".toList, "IPvANY".toList, "MACADDR".toList, "IPv4".toList, "LLADDR".toList], w <+: type) ∨
  "DOUBLE".toList <:+ type ∨ "DOUBLE\n".toList <:+ type ∨ "QSTRING".toList <:+: type

instance (type : List Char) : Decidable (PdbKnown type) := by unfold PdbKnown; infer_instance

/-- All other parsers are those of patterndb that actiondb has nothing for. -/
def PdbUnsupported (type : List Char) : Prop := '@' ∉ type ∧ ':' ∉ type ∧ ¬ PdbKnown type

instance (type : List Char) : Decidable (PdbUnsupported type) := by unfold PdbUnsupported; infer_instance

/-- The `@` of a piece are those around a parser. -/
def PdbPiece.Plain : PdbPiece → Prop
  | .text s => '@' ∉ s
  | .parser type args => '@' ∉ type ∧ ∀ a ∈ args, '@' ∉ a

end Verif.Spec
