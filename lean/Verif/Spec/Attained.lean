import Verif.Spec.Confined

/-! # Systems whose types can be filled -/

namespace Verif

/-- The type can be filled with as many items as it declares: numbers are integers, collections are lists, their least number
of items is not above the largest, and so many items fit into memory. -/
def Ty.Fillable (E : Env) : Ty SemId → Prop
  | .primitive p => p.toNat < 0x80
  | .list _ sz => sz.min.toNat ≤ sz.max.toNat ∧ InMemory E.valSize sz.max.toNat
  | .set _ _ => False
  | .map _ _ _ => False
  | _ => True

/-- All types of the system can be filled. -/
def Env.Fillable (E : Env) : Prop := ∀ id t, E.find id = some t → t.Fillable E

end Verif
