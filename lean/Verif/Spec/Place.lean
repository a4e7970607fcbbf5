import Verif.Spec.Part

/-!
# Parts of values, items of arrays included
-/

namespace Verif

/-- The second value is a component of the first one, which may be an array. -/
inductive PartOrItem (E : Env) : Val → SemId → Val → SemId → Prop
  | part {v w : Val} {id i : SemId} : Part E v id w i → PartOrItem E v id w i
  | arrayItem {id i : SemId} {len : BitVec 16} {l : List Val} {v : Val} :
      E.find id = some (.array i len) → v ∈ l → PartOrItem E (.list l) id v i

/-- The second value occurs in the first one at some depth (or is the same). -/
inductive Inside (E : Env) : Val → SemId → Val → SemId → Prop
  | refl (v : Val) (id : SemId) : Inside E v id v id
  | step {v w u : Val} {a b c : SemId} : PartOrItem E v a w b → Inside E w b u c → Inside E v a u c

end Verif
