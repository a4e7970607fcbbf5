import Verif.Model.Typify
import Verif.Spec.Reach

/-!
# Types wrapped in types

Whether checking a value against a type comes to an end.
-/

namespace Verif

/-- A value of the second type may be given for the first one as it is: the first type is a tuple of one field, or an
option. -/
inductive Encloses (E : Env) : SemId → SemId → Prop
  | tuple {id r : SemId} : E.find id = some (.tuple [r]) → Encloses E id r
  | option {id u r : SemId} : E.find id = some (.union [(⟨n!"none", 0⟩, u), (⟨n!"some", 1⟩, r)]) → Encloses E id r

/-- Wrappers of wrappers without an end, beginning at a type. -/
def Endless (E : Env) (id : SemId) : Prop :=
  ∃ f : Nat → SemId, f 0 = id ∧ ∀ k, Encloses E (f k) (f (k + 1))

end Verif
