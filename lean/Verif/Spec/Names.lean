import Verif.Model.Codec
import Verif.Spec.Wire

/-!
# Types which differ in names only

The same kind, tags, lengths and sizings, with parts related in turn; names of fields and variants, and the ids, may differ.
-/

namespace Verif

/-- The fields may be given without names: they are not a restricted string, and do not end in a list of unbounded length. -/
def Env.Nameless (E : Env) (ids : List SemId) : Prop :=
  (∀ A C sz, ¬ E.RString ids A C sz) ∧
  ∀ a b c sz, ids = [a, b] → E.find b = some (.list c sz) → sz.min.toNat < 2 ^ 64 - 1 ∧ sz.max.toNat < 2 ^ 64 - 1

/-- The types differ in names only, given this relation `R` between the types they reference. -/
inductive Renamed (E F : Env) (R : SemId → SemId → Prop) : Ty SemId → Ty SemId → Prop
  | primitive (p : Byte) : Renamed E F R (.primitive p) (.primitive p)
  | char : Renamed E F R .unicodeChar .unicodeChar
  | enum {vs ws : List Variant} : vs.map Variant.tag = ws.map Variant.tag → Renamed E F R (.enum vs) (.enum ws)
  | union {vs ws : List (Variant × SemId)} : All2 (fun p q => p.1.tag = q.1.tag ∧ R p.2 q.2) vs ws →
      Renamed E F R (.union vs) (.union ws)
  | tuple {ids jds : List SemId} : All2 R ids jds → Renamed E F R (.tuple ids) (.tuple jds)
  | struct {req sec : List (Name × SemId)} : All2 R (req.map Prod.snd) (sec.map Prod.snd) →
      Renamed E F R (.struct req) (.struct sec)
  /-- names of fields are given, or taken away -/
  | named {ids : List SemId} {sec : List (Name × SemId)} : E.Nameless ids → All2 R ids (sec.map Prod.snd) →
      Renamed E F R (.tuple ids) (.struct sec)
  | unnamed {req : List (Name × SemId)} {jds : List SemId} : F.Nameless jds → All2 R (req.map Prod.snd) jds →
      Renamed E F R (.struct req) (.tuple jds)
  | array {i j : SemId} {len : BitVec 16} : R i j → i.isByte E.H = j.isByte F.H → Renamed E F R (.array i len) (.array j len)
  | list {i j : SemId} {sz : Sizing} : R i j → i.isByte E.H = j.isByte F.H → i.isUnicodeChar E.H = j.isUnicodeChar F.H →
      Renamed E F R (.list i sz) (.list j sz)
  | set {i j : SemId} {sz : Sizing} : R i j → Renamed E F R (.set i sz) (.set j sz)
  | map {k i l j : SemId} {sz : Sizing} : R k l → R i j → Renamed E F R (.map k i sz) (.map l j sz)

/-- The ids denote types which differ in names only, at all depths. -/
def Renaming (E F : Env) (a b : SemId) : Prop :=
  ∃ R : SemId → SemId → Prop, R a b ∧ ∀ x y, R x y → ∃ t u, E.find x = some t ∧ F.find y = some u ∧ Renamed E F R t u

/-- The same build on the same machine. -/
def Env.SameBuild (E F : Env) : Prop := E.debug = F.debug ∧ E.valSize = F.valSize

/-- Reading does the same: the same bytes are taken, or there is the same error, or both panic, or both do not end. -/
def SameRest {α β : Type} : Out DErr (RdPair α) → Out DErr (RdPair β) → Prop
  | .ok a, .ok b => a.2 = b.2
  | .err e, .err f => e = f
  | .panic, .panic => True
  | .diverge, .diverge => True
  | _, _ => False

end Verif
