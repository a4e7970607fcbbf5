import Verif.Model.Val

/-!
# The order of set items and map entries

When two values differ in nothing but the order in which the items of sets and the entries of maps are listed.
-/

namespace Verif

/-- The second value is the first one with two neighbouring items of one set, or entries of one map, exchanged. The set or
map may be anywhere in the value; in an item of a set or in a key of a map only if `deep`. -/
inductive Val.Swap (deep : Bool) : Val → Val → Prop
  | set (a : List Val) (x y : Val) (b : List Val) : Swap deep (.set (a ++ x :: y :: b)) (.set (a ++ y :: x :: b))
  | map (a : List (Val × Val)) (x y : Val × Val) (b : List (Val × Val)) :
      Swap deep (.map (a ++ x :: y :: b)) (.map (a ++ y :: x :: b))
  | inUnion {v w : Val} (t : Tag) : Swap deep v w → Swap deep (.union t v) (.union t w)
  | inStruct {v w : Val} (a : List (Name × Val)) (n : Name) (b : List (Name × Val)) : Swap deep v w →
      Swap deep (.struct (a ++ (n, v) :: b)) (.struct (a ++ (n, w) :: b))
  | inList {v w : Val} (a b : List Val) : Swap deep v w → Swap deep (.list (a ++ v :: b)) (.list (a ++ w :: b))
  | inTuple {v w : Val} (a b : List Val) : Swap deep v w → Swap deep (.tuple (a ++ v :: b)) (.tuple (a ++ w :: b))
  | inValue {v w : Val} (a : List (Val × Val)) (k : Val) (b : List (Val × Val)) : Swap deep v w →
      Swap deep (.map (a ++ (k, v) :: b)) (.map (a ++ (k, w) :: b))
  | inItem {v w : Val} (a b : List Val) : deep = true → Swap deep v w → Swap deep (.set (a ++ v :: b)) (.set (a ++ w :: b))
  | inKey {v w : Val} (a : List (Val × Val)) (x : Val) (b : List (Val × Val)) : deep = true → Swap deep v w →
      Swap deep (.map (a ++ (v, x) :: b)) (.map (a ++ (w, x) :: b))

/-- The two values differ in nothing but the order of set items and map entries. -/
inductive Val.Reordered (deep : Bool) : Val → Val → Prop
  | refl (v : Val) : Reordered deep v v
  | step {v w x : Val} : Swap deep v w → Reordered deep w x → Reordered deep v x

end Verif
