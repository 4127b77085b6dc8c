import Verif.Model.PdbXml
/-! Text that comes in pieces: XML parsers may deliver the text of an element in several pieces, for instance where it contains a CDATA section, a comment
or a character reference. -/
namespace Verif.Spec
open Perl

/-- One more piece of text in front of these; empty pieces are left out. -/
def addText (s : List Char) : List Xml → List Xml
  | .text t :: xs => .text (s ++ t) :: xs
  | xs => if s = [] then xs else .text s :: xs

mutual
/-- The tree with neighbouring pieces of text put together. -/
def joined : Xml → Xml
  | .text s => .text s
  | .elem n a cs => .elem n a (joinedIn cs)
/-- The same for the children of an element. -/
def joinedIn : List Xml → List Xml
  | [] => []
  | .text s :: xs => addText s (joinedIn xs)
  | .elem n a cs :: xs => joined (.elem n a cs) :: joinedIn xs
end

end Verif.Spec
