import Verif.Model.Codec
import Verif.Spec.Value

/-!
# The course of reading

Where a reader of values gets to. What is shared with the model is the function `read` itself, in `Through` only, to
say that a part has been read and which bytes are left after it.
-/

namespace Verif

/-- The parts have been read, one after another, and the second bytes are left of the first. -/
inductive Through (E : Env) : List SemId → Bytes → Bytes → Prop
  | nil {bs : Bytes} : Through E [] bs bs
  | cons {n : Nat} {id : SemId} {ids : List SemId} {bs bs' bs'' : Bytes} {v : Val} :
      read E n id bs = .ok (v, bs') → Through E ids bs' bs'' → Through E (id :: ids) bs bs''

/-- The bytes begin with the length `n` of a collection declared for at most `max` items. -/
def Announces (max : BitVec 64) (bs : Bytes) (n : Nat) (rest : Bytes) : Prop :=
  n < 256 ^ prefixWidth max.toNat ∧ bs = le (prefixWidth max.toNat) n ++ rest

/-- Lists whose items are read one by one: no strings, and no byte strings. -/
def Env.PlainList (E : Env) (id : SemId) (sz : Sizing) : Prop :=
  (∀ C, ¬ E.CharEnum id C) ∧ (id.isByte E.H = true ∨ id.isUnicodeChar E.H = true → 2 ^ 32 ≤ sz.max.toNat)

/-- A pair ending in a list with a bound of 2^64 - 1: adding one to it overflows. -/
def Env.Overflows (E : Env) (ids : List SemId) : Prop :=
  E.debug = true ∧ ∃ a b c sz, ids = [a, b] ∧ E.find b = some (.list c sz) ∧
    (sz.min.toNat = 2 ^ 64 - 1 ∨ sz.max.toNat = 2 ^ 64 - 1)

/-- The parts to be read for a type, and the bytes where the first one begins. -/
inductive Queue (E : Env) : SemId → Bytes → List SemId → Bytes → Prop
  | tuple {id : SemId} {ids : List SemId} {bs : Bytes} : E.find id = some (.tuple ids) →
      (∀ A C sz, ¬ E.RString ids A C sz) → ¬ E.Overflows ids → Queue E id bs ids bs
  | struct {id : SemId} {fs : List (Name × SemId)} {bs : Bytes} : E.find id = some (.struct fs) →
      Queue E id bs (fs.map Prod.snd) bs
  | union {id r : SemId} {vs : List (Variant × SemId)} {n : Name} {t : Byte} {bs : Bytes} :
      E.find id = some (.union vs) → (⟨n, t⟩, r) ∈ vs → Queue E id (t :: bs) [r] bs
  | array {id r : SemId} {len : BitVec 16} {bs : Bytes} : E.find id = some (.array r len) →
      r.isByte E.H = false → Queue E id bs (List.replicate len.toNat r) bs
  | list {id r : SemId} {sz : Sizing} {bs rest : Bytes} {n : Nat} : E.find id = some (.list r sz) →
      E.PlainList r sz → Announces sz.max bs n rest → InMemory E.valSize n →
      Queue E id bs (List.replicate n r) rest
  | set {id r : SemId} {sz : Sizing} {bs rest : Bytes} {n : Nat} : E.find id = some (.set r sz) →
      Announces sz.max bs n rest → InMemory E.valSize n → Queue E id bs (List.replicate n r) rest
  | map {id k r : SemId} {sz : Sizing} {bs rest : Bytes} {n : Nat} : E.find id = some (.map k r sz) →
      Announces sz.max bs n rest → InMemory (2 * E.valSize) n →
      Queue E id bs (List.replicate n [k, r]).flatten rest

/-- Reading the first type gets, in one step, to reading the second one at the second bytes. -/
def Next (E : Env) (id : SemId) (bs : Bytes) (id' : SemId) (bs' : Bytes) : Prop :=
  ∃ before after start, Queue E id bs (before ++ id' :: after) start ∧ Through E before start bs'

/-- Reading the first type gets to reading the second one, in any number of steps. -/
inductive GetsTo (E : Env) : SemId → Bytes → SemId → Bytes → Prop
  | here {id : SemId} {bs : Bytes} : GetsTo E id bs id bs
  | step {id id' id'' : SemId} {bs bs' bs'' : Bytes} : Next E id bs id' bs' → GetsTo E id' bs' id'' bs'' →
      GetsTo E id bs id'' bs''

/-- Where reading panics: unicode characters outside of strings, lengths for which there is no memory, and, in builds
which check for overflows, pairs which end in a list with the largest possible bound. -/
inductive Trap (E : Env) : SemId → Bytes → Prop
  | char {id : SemId} {bs : Bytes} : E.find id = some .unicodeChar → Trap E id bs
  | pair {id : SemId} {ids : List SemId} {bs : Bytes} : E.find id = some (.tuple ids) → E.Overflows ids → Trap E id bs
  | list {id r : SemId} {sz : Sizing} {bs rest : Bytes} {n : Nat} : E.find id = some (.list r sz) →
      E.PlainList r sz → Announces sz.max bs n rest → ¬ InMemory E.valSize n → Trap E id bs
  | set {id r : SemId} {sz : Sizing} {bs rest : Bytes} {n : Nat} : E.find id = some (.set r sz) →
      Announces sz.max bs n rest → ¬ InMemory E.valSize n → Trap E id bs
  | map {id k r : SemId} {sz : Sizing} {bs rest : Bytes} {n : Nat} : E.find id = some (.map k r sz) →
      Announces sz.max bs n rest → ¬ InMemory (2 * E.valSize) n → Trap E id bs

end Verif
