import Verif.Model.Refs

/-!
# Reachability in a type system
-/

namespace Verif

/-- Ids reachable from `roots` by following the references of the types in the system. The id itself
need not be defined. -/
inductive Reach (sys : TypeSystem) (roots : SemId → Prop) : SemId → Prop
  | root {id : SemId} : roots id → Reach sys roots id
  | step {id r : SemId} {t : Ty SemId} : Reach sys roots id → sys.get id = some t → r ∈ t.refs →
    Reach sys roots r

/-- Iteration over every type of the system works: types respect the limits of their containers,
and in builds with overflow checks no type has the maximal number of 255 references. -/
def TypeSystem.Iterable (debug : Bool) (sys : TypeSystem) : Prop :=
  ∀ id t, sys.get id = some t → t.WF ∧ (debug = true → t.refs.length < 255)

/-- Every type of the system respects the limits of its containers, as every type built by the code
does. -/
def TypeSystem.TypesWF (sys : TypeSystem) : Prop := ∀ id t, sys.get id = some t → t.WF

/-- Every reference of every type resolves. -/
def TypeSystem.Closed (sys : TypeSystem) : Prop :=
  ∀ id t, sys.get id = some t → ∀ r ∈ t.refs, ∃ u, sys.get r = some u

end Verif
