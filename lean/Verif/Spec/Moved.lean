import Verif.Spec.Compile

/-!
# References which stand for the same type in two libraries (C106)
-/

namespace Verif

/-- References of two libraries stand for the same type, given the ids of the named types of each:
both name a type of `S`, or one names a type which the other refers to as an external type, by its
id, or both refer to external types with the same id. Embedded types have the same references, up
to `k` levels deep. The libraries in which external types are declared, and their names there, do
not matter. -/
def SameRef (idA idB : Name → Option SemId) (S : Name → Prop) : Nat → TranspileRef → TranspileRef → Prop
  | k + 1, .embedded t, .embedded u => Ty.Rel (SameRef idA idB S k) t u
  | _, .named n, .named m => n = m ∧ S n
  | _, .named n, .extern e => idA n = some e.semId
  | _, .extern e, .named n => idB n = some e.semId
  | _, .extern e, .extern f => e.semId = f.semId
  | _, _, _ => False

/-- Declarations of two libraries stand for the same type. -/
def SameTy (idA idB : Name → Option SemId) (S : Name → Prop) (t u : Ty TranspileRef) : Prop :=
  Ty.Rel (SameRef idA idB S 3) t u

end Verif
