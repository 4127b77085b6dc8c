import Verif.Model.Pattern
/-! Parsers that cannot be told apart by their hashes. -/
namespace Verif.Spec

/-- The first parser that starts a pattern of the list and has the hash of `a`; `a` itself if there is none. -/
def firstWithHash (sip : Bytes → UInt64) (a : Parser) : List Pattern → Parser
  | [] => a
  | p :: ps =>
    match p.pattern with
    | .parser b :: _ => if b.hashOs sip = a.hashOs sip then b else firstWithHash sip a ps
    | _ => firstWithHash sip a ps

/-- The pattern with the parser it starts with replaced by the first one of the list with the same hash. -/
def withFirstParser (sip : Bytes → UInt64) (ps : List Pattern) (p : Pattern) : Pattern :=
  match p.pattern with
  | .parser a :: rest => { p with pattern := .parser (firstWithHash sip a ps) :: rest }
  | _ => p

end Verif.Spec
