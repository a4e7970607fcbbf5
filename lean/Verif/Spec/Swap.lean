import Verif.Spec.Place

/-!
# Values in which one part is replaced
-/

namespace Verif

/-- `Swap E a v v' i w w'`: replacing one occurrence of `w`, a part of type `i`, by `w'` makes the value `v'` from the value `v` of
type `a`. -/
inductive Swap (E : Env) : SemId → Val → Val → SemId → Val → Val → Prop
  | here (a : SemId) (v v' : Val) : Swap E a v v' a v v'
  | listItem {a b i : SemId} {sz : Sizing} {w w' u u' : Val} (l m : List Val) : E.find a = some (.list b sz) →
      Swap E b w w' i u u' → Swap E a (.list (l ++ w :: m)) (.list (l ++ w' :: m)) i u u'
  | arrayItem {a b i : SemId} {len : BitVec 16} {w w' u u' : Val} (l m : List Val) : E.find a = some (.array b len) →
      Swap E b w w' i u u' → Swap E a (.list (l ++ w :: m)) (.list (l ++ w' :: m)) i u u'
  | setItem {a b i : SemId} {sz : Sizing} {w w' u u' : Val} (l m : List Val) : E.find a = some (.set b sz) →
      Swap E b w w' i u u' → Swap E a (.set (l ++ w :: m)) (.set (l ++ w' :: m)) i u u'
  | mapKey {a b c i : SemId} {sz : Sizing} {w w' u u' : Val} (l m : List (Val × Val)) (x : Val) : E.find a = some (.map b c sz) →
      Swap E b w w' i u u' → Swap E a (.map (l ++ (w, x) :: m)) (.map (l ++ (w', x) :: m)) i u u'
  | mapValue {a b c i : SemId} {sz : Sizing} {w w' u u' : Val} (l m : List (Val × Val)) (x : Val) : E.find a = some (.map b c sz) →
      Swap E c w w' i u u' → Swap E a (.map (l ++ (x, w) :: m)) (.map (l ++ (x, w') :: m)) i u u'
  | tupleField {a b i : SemId} {ids : List SemId} {w w' u u' : Val} (l m : List Val) : E.find a = some (.tuple ids) →
      ids[l.length]? = some b → Swap E b w w' i u u' → Swap E a (.tuple (l ++ w :: m)) (.tuple (l ++ w' :: m)) i u u'
  | structField {a b i : SemId} {req : List (Name × SemId)} {n : Name} {w w' u u' : Val} (l m : List (Name × Val)) :
      E.find a = some (.struct req) → (n, b) ∈ req → Swap E b w w' i u u' →
      Swap E a (.struct (l ++ (n, w) :: m)) (.struct (l ++ (n, w') :: m)) i u u'
  | variant {a b i : SemId} {vs : List (Variant × SemId)} {n : Name} {t : Byte} {w w' u u' : Val} : E.find a = some (.union vs) →
      (⟨n, t⟩, b) ∈ vs → Swap E b w w' i u u' → Swap E a (.union (.name n) w) (.union (.name n) w') i u u'

end Verif
