import Verif.Model.Val

/-!
# Equality of values

When two values are the same: equal parts in the same places, and the fields of structures in whatever order.
-/

namespace Verif

mutual
/-- The two values are the same. -/
inductive Val.Same : Val → Val → Prop
  | unit : Same .unit .unit
  | num (n : Num) : Same (.num n) (.num n)
  | str (s : Bytes) : Same (.str s) (.str s)
  | bytes (b : Bytes) : Same (.bytes b) (.bytes b)
  | enum (t : Tag) : Same (.enum t) (.enum t)
  | union {t : Tag} {v w : Val} : Same v w → Same (.union t v) (.union t w)
  | struct {fs gs hs : List (Name × Val)} : hs.Perm gs → fs.map Prod.fst = hs.map Prod.fst →
      SameAll (fs.map Prod.snd) (hs.map Prod.snd) → Same (.struct fs) (.struct gs)
  | list {l m : List Val} : SameAll l m → Same (.list l) (.list m)
  | set {l m : List Val} : SameAll l m → Same (.set l) (.set m)
  | tuple {l m : List Val} : SameAll l m → Same (.tuple l) (.tuple m)
  | map {l m : List (Val × Val)} : SameAll (l.map Prod.fst) (m.map Prod.fst) →
      SameAll (l.map Prod.snd) (m.map Prod.snd) → Same (.map l) (.map m)
/-- Item by item the same values. -/
inductive Val.SameAll : List Val → List Val → Prop
  | nil : SameAll [] []
  | cons {v w : Val} {l m : List Val} : Same v w → SameAll l m → SameAll (v :: l) (w :: m)
end

/-- The fields of all structures in the value have different names, as in every `IndexMap`. -/
inductive Val.Keyed : Val → Prop
  | unit : Keyed .unit
  | num (n : Num) : Keyed (.num n)
  | str (s : Bytes) : Keyed (.str s)
  | bytes (b : Bytes) : Keyed (.bytes b)
  | enum (t : Tag) : Keyed (.enum t)
  | union {t : Tag} {v : Val} : Keyed v → Keyed (.union t v)
  | struct {fs : List (Name × Val)} : (fs.map Prod.fst).Nodup → (∀ f ∈ fs, Keyed f.2) → Keyed (.struct fs)
  | list {l : List Val} : (∀ v ∈ l, Keyed v) → Keyed (.list l)
  | set {l : List Val} : (∀ v ∈ l, Keyed v) → Keyed (.set l)
  | tuple {l : List Val} : (∀ v ∈ l, Keyed v) → Keyed (.tuple l)
  | map {l : List (Val × Val)} : (∀ p ∈ l, Keyed p.1) → (∀ p ∈ l, Keyed p.2) → Keyed (.map l)

end Verif
