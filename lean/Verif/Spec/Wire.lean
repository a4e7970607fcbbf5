import Verif.Spec.Notation

/-!
# The strict encoding of values

Which bytes stand for a value of a type, one layer at a time, without functions of the model: numbers in little-endian order,
two's complement, one byte for a tag, a length only where it is not part of the type, and nothing between the parts.
-/

namespace Verif

/-- The bytes denote the number, the least significant one first. -/
inductive Number : Bytes → Nat → Prop
  | nil : Number [] 0
  | cons {b : Byte} {bs : Bytes} {n : Nat} : Number bs n → Number (b :: bs) (b.toNat + 256 * n)

/-- The bytes tell the number of items of a collection declared for at most `max` of them. -/
def Tally (max : Nat) (n : Nat) (bs : Bytes) : Prop := bs.length = prefixWidth max ∧ Number bs n

/-- The bytes stand for the value of the type, given the bytes `R` of its parts. -/
inductive Coded (E : Env) (R : Val → SemId → Bytes → Prop) : Val → Ty SemId → Bytes → Prop
  | unit : Coded E R .unit Ty.UNIT []
  | uint {p : Byte} {x : BitVec 64} {bs : Bytes} : bs.length = E.primSize p → Number bs x.toNat →
      Coded E R (.num (.uint x)) (.primitive p) bs
  | bigUint {p : Byte} {x : BitVec 1024} {bs : Bytes} : bs.length = E.primSize p → Number bs x.toNat →
      Coded E R (.num (.bigUint x)) (.primitive p) bs
  /-- two's complement -/
  | int {p : Byte} {x : BitVec 64} {n : Nat} {bs : Bytes} : bs.length = E.primSize p → Number bs n →
      (n : Int) = x.toInt % 256 ^ E.primSize p → Coded E R (.num (.int x)) (.primitive p) bs
  | bigInt {p : Byte} {x : BitVec 1024} {n : Nat} {bs : Bytes} : bs.length = E.primSize p → Number bs n →
      (n : Int) = x.toInt % 256 ^ E.primSize p → Coded E R (.num (.bigInt x)) (.primitive p) bs
  | char {s : Bytes} : Coded E R (.str s) .unicodeChar s
  | enum {vs : List Variant} {n : Name} {t : Byte} : ⟨n, t⟩ ∈ vs → Coded E R (.enum (.name n)) (.enum vs) [t]
  | union {vs : List (Variant × SemId)} {n : Name} {t : Byte} {i : SemId} {v : Val} {bs : Bytes} : (⟨n, t⟩, i) ∈ vs →
      R v i bs → Coded E R (.union (.name n) v) (.union vs) (t :: bs)
  | tuple {ids : List SemId} {l : List Val} {bss : List Bytes} : All3 R l ids bss →
      Coded E R (.tuple l) (.tuple ids) bss.flatten
  | struct {req : List (Name × SemId)} {fs : List (Name × Val)} {bss : List Bytes} :
      All3 (fun f r bs => f.1 = r.1 ∧ R f.2 r.2 bs) fs req bss → Coded E R (.struct fs) (.struct req) bss.flatten
  | byteArray {i : SemId} {len : BitVec 16} {b : Bytes} : Coded E R (.bytes b) (.array i len) b
  | array {i : SemId} {len : BitVec 16} {l : List Val} {bss : List Bytes} : All2 (fun v bs => R v i bs) l bss →
      Coded E R (.list l) (.array i len) bss.flatten
  /-- a restricted string is a string of at least one character -/
  | rstring {ids : List SemId} {A C : List Variant} {sz : Sizing} {s pre : Bytes} : E.RString ids A C sz →
      Tally (sz.max.toNat + 1) s.length pre → Coded E R (.str s) (.tuple ids) (pre ++ s)
  | text {i : SemId} {sz : Sizing} {s pre : Bytes} : Tally sz.max.toNat s.length pre →
      Coded E R (.str s) (.list i sz) (pre ++ s)
  | bytes {i : SemId} {sz : Sizing} {s pre : Bytes} : Tally sz.max.toNat s.length pre →
      Coded E R (.bytes s) (.list i sz) (pre ++ s)
  | list {i : SemId} {sz : Sizing} {l : List Val} {bss : List Bytes} {pre : Bytes} : Tally sz.max.toNat l.length pre →
      All2 (fun v bs => R v i bs) l bss → Coded E R (.list l) (.list i sz) (pre ++ bss.flatten)
  | set {i : SemId} {sz : Sizing} {l : List Val} {bss : List Bytes} {pre : Bytes} : Tally sz.max.toNat l.length pre →
      All2 (fun v bs => R v i bs) l bss → Coded E R (.set l) (.set i sz) (pre ++ bss.flatten)
  | map {k i : SemId} {sz : Sizing} {l : List (Val × Val)} {bss : List (Bytes × Bytes)} {pre : Bytes} :
      Tally sz.max.toNat l.length pre → All2 (fun v bs => R v.1 k bs.1 ∧ R v.2 i bs.2) l bss →
      Coded E R (.map l) (.map k i sz) (pre ++ (bss.map fun b => b.1 ++ b.2).flatten)

/-- The bytes stand for the value of the type, in at most so many layers. -/
def WireN (E : Env) : Nat → Val → SemId → Bytes → Prop
  | 0, _, _, _ => False
  | n + 1, v, id, bs => ∃ t, E.find id = some t ∧ Coded E (WireN E n) v t bs

/-- The bytes are the strict encoding of the value of the type. -/
def Wire (E : Env) (v : Val) (id : SemId) (bs : Bytes) : Prop := ∃ n, WireN E n v id bs

/-- The tails of restricted strings are declared for less than 2^64 - 1 characters. -/
def Env.BoundedTails (E : Env) : Prop :=
  ∀ id ids A C sz, E.find id = some (.tuple ids) → E.RString ids A C sz → sz.max.toNat < 2 ^ 64 - 1

/-- The sizes of signed numbers of up to eight bytes are those their codes tell, and other signed numbers have at least one
byte. -/
def Env.SignedSizes (E : Env) : Prop :=
  (∀ n, 1 ≤ n → n ≤ 8 → E.primSize (BitVec.ofNat 8 (0x40 + n)) = n) ∧
  ∀ p : Byte, 0x48 < p.toNat → p.toNat < 0x80 → 0 < E.primSize p

end Verif
