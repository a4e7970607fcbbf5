import Verif.Model.Val

/-!
# Specification of value paths and wrappers

Only the data types of values and path steps are shared with the model.
-/

namespace Verif

/-- The key of a path step denotes the given map key: the same number (also the ordinal of an enum
key), the same bytes or the same string. -/
inductive Denotes : KeyStep → Val → Prop
  | tag {n : BitVec 128} {t : Byte} : n.toNat = t.toNat → Denotes (.number n) (.enum (.ord t))
  | num {n : BitVec 128} {m : BitVec 64} : n.toNat = m.toNat → Denotes (.number n) (.num (.uint m))
  | blob {b : Bytes} : Denotes (.blob b) (.bytes b)
  | string {s : Bytes} : Denotes (.string s) (.str s)

/-- `w` is the component of `v` selected by one step. -/
inductive StepsTo : Val → VStep → Val → Prop
  | tuple {l : List Val} {i : Byte} {pre post : List Val} {w : Val} :
      l = pre ++ w :: post → pre.length = i.toNat → StepsTo (.tuple l) (.unnamedField i) w
  | struct {fs : List (Name × Val)} {n : Name} {pre post : List (Name × Val)} {w : Val} :
      fs = pre ++ (n, w) :: post → (∀ p ∈ pre, p.1 ≠ n) → StepsTo (.struct fs) (.namedField n) w
  | list {l : List Val} {i : BitVec 32} {pre post : List Val} {w : Val} :
      l = pre ++ w :: post → pre.length = i.toNat → StepsTo (.list l) (.index i) w
  | set {l : List Val} {i : BitVec 32} {pre post : List Val} {w : Val} :
      l = pre ++ w :: post → pre.length = i.toNat → StepsTo (.set l) (.index i) w
  | map {l : List (Val × Val)} {k : KeyStep} {pre post : List (Val × Val)} {key w : Val} :
      l = pre ++ (key, w) :: post → Denotes k key → (∀ p ∈ pre, ¬ Denotes k p.1) →
      StepsTo (.map l) (.key k) w

/-- `w` is reached from `v` by taking all steps of the path, one after another. -/
inductive PathTo : Val → List VStep → Val → Prop
  | nil {v : Val} : PathTo v [] v
  | cons {v u w : Val} {s : VStep} {p : List VStep} :
      StepsTo v s u → PathTo u p w → PathTo v (s :: p) w

/-- `v` inside `n` one-field tuples. -/
def wrapN : Nat → Val → Val
  | 0, v => v
  | n + 1, v => .tuple [wrapN n v]

/-- The value is a one-field tuple. -/
def IsWrapper (v : Val) : Prop := ∃ w, v = .tuple [w]

end Verif
