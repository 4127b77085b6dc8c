import Verif.Model.PdbXml
/-! Text between the elements of a patterndb file. -/
namespace Verif.Spec
open Perl

/-- The elements of a patterndb whose text matters. -/
def textElements : List (List Char) := ["pattern".toList, "tag".toList, "value".toList, "test_message".toList, "test_value".toList]

mutual
/-- The tree without the text between elements: only the elements whose text matters keep it. -/
def withoutText : Xml → Xml
  | .text s => .text s
  | .elem n a cs => .elem n a (if n ∈ textElements then cs else elementsOnly cs)
/-- The elements among these, without the text in them. -/
def elementsOnly : List Xml → List Xml
  | [] => []
  | .text _ :: xs => elementsOnly xs
  | .elem n a cs :: xs => withoutText (.elem n a cs) :: elementsOnly xs
end

end Verif.Spec
