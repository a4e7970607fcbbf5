import Verif.Spec.Value

/-!
# Space taken by values

How much memory a value takes, and which types have values that take no bytes of data.
-/

namespace Verif

mutual
/-- The space of a value, if every value takes `node` apart from its parts and every byte of a string takes `byte`. -/
def Val.space (node byte : Nat) : Val → Nat
  | .str s => node + byte * s.length
  | .bytes b => node + byte * b.length
  | .struct fs => node + Val.spaceFields node byte fs
  | .union _ v => node + v.space node byte
  | .list l => node + Val.spaceList node byte l
  | .set l => node + Val.spaceList node byte l
  | .tuple l => node + Val.spaceList node byte l
  | .map l => node + Val.spacePairs node byte l
  | _ => node
termination_by structural v => v
/-- The space of the items. -/
def Val.spaceList (node byte : Nat) : List Val → Nat
  | [] => 0
  | v :: l => v.space node byte + Val.spaceList node byte l
termination_by structural l => l
/-- The space of the fields, without their names. -/
def Val.spaceFields (node byte : Nat) : List (Name × Val) → Nat
  | [] => 0
  | f :: l => Val.spaceField node byte f + Val.spaceFields node byte l
termination_by structural l => l
/-- The space of a field. -/
def Val.spaceField (node byte : Nat) : Name × Val → Nat
  | (_, v) => v.space node byte
termination_by structural p => p
/-- The space of the entries. -/
def Val.spacePairs (node byte : Nat) : List (Val × Val) → Nat
  | [] => 0
  | p :: l => Val.spacePair node byte p + Val.spacePairs node byte l
termination_by structural l => l
/-- The space of an entry. -/
def Val.spacePair (node byte : Nat) : Val × Val → Nat
  | (k, v) => k.space node byte + v.space node byte
termination_by structural p => p
end

/-- The values of the type take no bytes: the unit type, empty arrays, and what consists of such types only. -/
inductive Weightless (E : Env) : SemId → Prop
  | unit {i : SemId} : E.find i = some Ty.UNIT → Weightless E i
  | empty {i j : SemId} : E.find i = some (.array j 0) → Weightless E i
  | array {i j : SemId} {len : BitVec 16} : E.find i = some (.array j len) → Weightless E j → Weightless E i
  | tuple {i : SemId} {ids : List SemId} : E.find i = some (.tuple ids) → (∀ j ∈ ids, Weightless E j) → Weightless E i
  | struct {i : SemId} {fs : List (Name × SemId)} : E.find i = some (.struct fs) → (∀ f ∈ fs, Weightless E f.2) → Weightless E i

/-- There are no lists and sets of items which take no bytes, and no maps of which neither keys nor values take any. -/
structure Env.Weighed (E : Env) : Prop where
  list : ∀ id i sz, E.find id = some (.list i sz) → ¬Weightless E i
  set : ∀ id i sz, E.find id = some (.set i sz) → ¬Weightless E i
  map : ∀ id k i sz, E.find id = some (.map k i sz) → ¬(Weightless E k ∧ Weightless E i)

/-- `S` gives for each type at least the number of values its values consist of apart from the items of lists, sets and maps, and
for no such item this is more than `M`. -/
structure Env.Extent (E : Env) (S : SemId → Nat) (M : Nat) : Prop where
  one : ∀ id t, E.find id = some t → 1 ≤ S id
  tuple : ∀ id ids, E.find id = some (.tuple ids) → 1 + (ids.map S).sum ≤ S id
  struct : ∀ id fs, E.find id = some (.struct fs) → 1 + (fs.map fun f => S f.2).sum ≤ S id
  union : ∀ id vs, E.find id = some (.union vs) → ∀ v ∈ vs, 1 + S v.2 ≤ S id
  array : ∀ id i len, E.find id = some (.array i len) → i.isByte E.H = true ∨ 1 + len.toNat * S i ≤ S id
  list : ∀ id i sz, E.find id = some (.list i sz) → S i ≤ M
  set : ∀ id i sz, E.find id = some (.set i sz) → S i ≤ M
  map : ∀ id k i sz, E.find id = some (.map k i sz) → S k + S i ≤ M

end Verif
