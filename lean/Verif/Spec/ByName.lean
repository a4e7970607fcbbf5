import Verif.Model.ByName

/-!
# What it means to use a type by its name
-/

namespace Verif

/-- All functions of a symbolic system treat the specification as the id. -/
structure SymbolicSys.Means (S : SymbolicSys) (spec : TypeSpec) (id : SemId) : Prop where
  get : S.get spec = S.types.get id
  tree : S.typeTree spec = some id
  typify : ∀ E fuel v, (∀ w, S.typify E fuel v spec = .ok w ↔
      w.orig.id = id ∧ w.orig.fqn = none ∧ Verif.typify { E with sys := S.types } fuel v id = .ok w.val) ∧
    (S.typify E fuel v spec = .panic ↔ Verif.typify { E with sys := S.types } fuel v id = .panic) ∧
    (∀ e, S.typify E fuel v spec = .err e ↔
      ∃ e', e = .inner e' ∧ Verif.typify { E with sys := S.types } fuel v id = .err e')
  read : ∀ E fuel bs, (∀ w rest, S.read E fuel spec bs = .ok (w, rest) ↔
      w.orig.id = id ∧ w.orig.fqn = none ∧ Verif.read { E with sys := S.types } fuel id bs = .ok (w.val, rest)) ∧
    (S.read E fuel spec bs = .panic ↔ Verif.read { E with sys := S.types } fuel id bs = .panic) ∧
    (∀ e, S.read E fuel spec bs = .err e ↔
      ∃ e', e = .inner e' ∧ Verif.read { E with sys := S.types } fuel id bs = .err e')
  deserialize : ∀ E fuel bs, (∀ w, S.deserialize E fuel spec bs = .ok w ↔
      w.orig.id = id ∧ w.orig.fqn = none ∧ Verif.deserialize { E with sys := S.types } fuel id bs = .ok w.val) ∧
    (S.deserialize E fuel spec bs = .panic ↔ Verif.deserialize { E with sys := S.types } fuel id bs = .panic) ∧
    (∀ e, S.deserialize E fuel spec bs = .err e ↔
      ∃ e', e = .inner e' ∧ Verif.deserialize { E with sys := S.types } fuel id bs = .err e')

/-- All functions of a symbolic system report that there is no such type. -/
structure SymbolicSys.Refuses (S : SymbolicSys) (spec : TypeSpec) : Prop where
  get : S.get spec = none
  tree : S.typeTree spec = none
  typify : ∀ E fuel v, S.typify E fuel v spec = .err (.typeAbsent spec)
  read : ∀ E fuel bs, S.read E fuel spec bs = .err (.typeAbsent spec)
  deserialize : ∀ E fuel bs, S.deserialize E fuel spec bs = .err (.typeAbsent spec)

end Verif
