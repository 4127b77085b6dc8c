import Verif.Spec.Documents
/-! Documents with the same data: the order of the entries of an object does not count. -/
namespace Verif.Spec

/-- Somewhere in the document two neighbouring entries of an object, with different keys, change places. -/
inductive Swapped : Val → Val → Prop
  | here (A B : List (Val × Val)) (k k' : Bytes) (v v' : Val) : k ≠ k' →
      Swapped (.obj (A ++ (.str k, v) :: (.str k', v') :: B)) (.obj (A ++ (.str k', v') :: (.str k, v) :: B))
  | entry (A B : List (Val × Val)) (k v w : Val) : Swapped v w → Swapped (.obj (A ++ (k, v) :: B)) (.obj (A ++ (k, w) :: B))
  | element (A B : List Val) (v w : Val) : Swapped v w → Swapped (.arr (A ++ v :: B)) (.arr (A ++ w :: B))

/-- The documents differ only in the order of the entries of objects (entries with the same key stand in the same order). -/
inductive SameData : Val → Val → Prop
  | refl (v : Val) : SameData v v
  | step (u v w : Val) : SameData u v → Swapped v w → SameData u w

/-- The libraries take a list as the list of its elements, an object as the list of its entries and a string as itself, and no list or object as anything
else.  (What they do with other values does not matter.) -/
structure TakenAsIs (d : Deps) : Prop where
  seq : ∀ l, d.seq (.arr l) = .ok l
  entries : ∀ l, d.entries (.obj l) = .ok l
  string : ∀ s r, d.string (.str s) = .ok r → r = s
  noSeq : ∀ l r, d.seq (.obj l) ≠ .ok r
  noEntries : ∀ l r, d.entries (.arr l) ≠ .ok r
  noString : ∀ l r, d.string (.arr l) ≠ .ok r
  noString' : ∀ l r, d.string (.obj l) ≠ .ok r
  noUuid : ∀ l r, d.uuid (.arr l) ≠ .ok r
  noUuid' : ∀ l r, d.uuid (.obj l) ≠ .ok r

end Verif.Spec
