import Verif.Model.Clone
import Verif.Model.SuffixTable
/-! Model of the `Clone` implementations behind `Matcher::boxed_clone` of the suffix-array matcher:
/repo/src/matcher/suffix_array/impls.rs:267-269. -/
namespace Verif

mutual
/-- derived `Clone` of `SuffixTable`, /repo/src/matcher/suffix_array/impls.rs:19 -/
def SuffixTable.clone : SuffixTable → SuffixTable
  | ⟨ls, ps⟩ => ⟨scloneLits ls, sclonePars ps⟩
/-- derived `Clone` of `Vec<LiteralE>` -/
def scloneLits : List LiteralE → List LiteralE
  | [] => []
  | n :: ls => n.clone :: scloneLits ls
/-- derived `Clone` of `Vec<ParserE>` -/
def sclonePars : List ParserE → List ParserE
  | [] => []
  | n :: ls => n.clone :: sclonePars ls
/-- derived `Clone` of `LiteralE`, /repo/src/matcher/suffix_array/impls.rs:206 -/
def LiteralE.clone : LiteralE → LiteralE
  | ⟨p, l, n⟩ => ⟨p.map Pattern.clone, l, scloneOpt n⟩
/-- `Clone for ParserE`, /repo/src/matcher/suffix_array/impls.rs:133-141 -/
def ParserE.clone : ParserE → ParserE
  | ⟨p, a, n⟩ => ⟨p.map Pattern.clone, a.boxedClone, scloneOpt n⟩
/-- derived `Clone` of `Option<SuffixTable>` -/
def scloneOpt : Option SuffixTable → Option SuffixTable
  | none => none
  | some t => some t.clone
end

end Verif
