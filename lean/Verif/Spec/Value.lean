import Verif.Model.Typify
import Verif.Spec.Ty
import Verif.Spec.Utf8

/-!
# Specification vocabulary for values

What it means for a value to be well typed. The relation is given one layer at a time: `Inhabits`
describes the values of a type given the values `R` of the referenced types, and `HasTyN` iterates
it. Only the data types, the lookup in the system and the recognition of the built-in byte and
character ids are shared with the model.
-/

namespace Verif

/-- All tags of the enum are ASCII characters. -/
def CharVariants (vs : List Variant) : Prop := ∀ v ∈ vs, 32 ≤ v.tag.toNat ∧ v.tag.toNat ≤ 127

/-- The byte is the tag of a variant of the enum. -/
def InAlphabet (vs : List Variant) (b : Byte) : Prop := ∃ v ∈ vs, v.tag = b

/-- The fields of a tuple form a restricted string: a character followed by a list of characters,
with the alphabets `A`, `C` and the sizing of the tail. -/
def Env.RString (E : Env) (ids : List SemId) (A C : List Variant) (sz : Sizing) : Prop :=
  ∃ a b c, ids = [a, b] ∧ E.find a = some (.enum A) ∧ CharVariants A ∧
    E.find b = some (.list c sz) ∧ E.find c = some (.enum C) ∧ CharVariants C

/-- The id denotes an enum of ASCII characters. -/
def Env.CharEnum (E : Env) (id : SemId) (C : List Variant) : Prop :=
  E.find id = some (.enum C) ∧ CharVariants C

/-- Number of bytes of the wire length prefix for a collection of at most `max` items. -/
def prefixWidth (max : Nat) : Nat :=
  if max < 2 ^ 8 then 1 else if max < 2 ^ 16 then 2 else if max < 2 ^ 24 then 3
  else if max < 2 ^ 32 then 4 else 8

/-- Size constraint: the declared bounds (`strict`), or only what the length prefix can express. -/
def SizeOk (strict : Bool) (min max n : Nat) : Prop :=
  if strict then min ≤ n ∧ n ≤ max else n < 256 ^ prefixWidth max

/-- Character constraint: the declared alphabet (`strict`), or any ASCII character. -/
def CharOk (strict : Bool) (C : List Variant) (b : Byte) : Prop :=
  if strict then InAlphabet C b else b.toNat < 128

/-- Values pairwise different (`strict`), or no constraint. -/
def DistinctOk (strict : Bool) (l : List Val) : Prop :=
  strict = true → l.Pairwise fun a b => a.eqv b = false

/-- A vector of `n` items of the given size fits into memory. Holds of every Rust `Vec`. -/
def InMemory (itemSize n : Nat) : Prop := n * itemSize < 2 ^ 63

/-- The values of a type, given the values of the types it references. With `strict` this is what
the type declares; without, sizes are limited by the length prefix only, characters by ASCII only
and repeated items are allowed. -/
inductive Inhabits (E : Env) (strict : Bool) (R : Val → SemId → Prop) : Val → Ty SemId → Prop
  | unit : Inhabits E strict R .unit Ty.UNIT
  | uint {n : Nat} {x : BitVec 64} : 1 ≤ n → n ≤ 8 → x.toNat < 256 ^ n →
      Inhabits E strict R (.num (.uint x)) (.primitive (BitVec.ofNat 8 n))
  | byte {x : BitVec 64} : x.toNat < 256 → Inhabits E strict R (.num (.uint x)) Ty.BYTE
  | int {n : Nat} {x : BitVec 64} : 1 ≤ n → n ≤ 8 →
      -(2 : Int) ^ (8 * n - 1) ≤ x.toInt → x.toInt < (2 : Int) ^ (8 * n - 1) →
      Inhabits E strict R (.num (.int x)) (.primitive (BitVec.ofNat 8 (0x40 + n)))
  | bigUint {p : Byte} {x : BitVec 1024} : 8 < p.toNat → p.toNat < 0x40 →
      x.toNat < 256 ^ E.primSize p → Inhabits E strict R (.num (.bigUint x)) (.primitive p)
  | bigInt {p : Byte} {x : BitVec 1024} : 0x48 < p.toNat → p.toNat < 0x80 →
      -(2 : Int) ^ (8 * E.primSize p - 1) ≤ x.toInt →
      x.toInt < (2 : Int) ^ (8 * E.primSize p - 1) →
      Inhabits E strict R (.num (.bigInt x)) (.primitive p)
  | unicodeChar {s : Bytes} {c : Nat} : IsText [c] s →
      Inhabits E strict R (.str s) .unicodeChar
  | enum {vs : List Variant} {n : Name} {t : Byte} : ⟨n, t⟩ ∈ vs →
      Inhabits E strict R (.enum (.name n)) (.enum vs)
  | union {vs : List (Variant × SemId)} {n : Name} {t : Byte} {id : SemId} {v : Val} :
      (⟨n, t⟩, id) ∈ vs → R v id → Inhabits E strict R (.union (.name n) v) (.union vs)
  | tuple {l : List Val} {ids : List SemId} : (∀ A C sz, ¬ E.RString ids A C sz) →
      All2 R l ids → Inhabits E strict R (.tuple l) (.tuple ids)
  | rstring {A C : List Variant} {sz : Sizing} {ids : List SemId} {c : Byte} {s : Bytes} :
      E.RString ids A C sz → CharOk strict A c → (∀ b ∈ s, CharOk strict C b) →
      SizeOk strict (sz.min.toNat + 1) (sz.max.toNat + 1) (s.length + 1) →
      Inhabits E strict R (.str (c :: s)) (.tuple ids)
  | rstringEmpty {A C : List Variant} {sz : Sizing} {ids : List SemId} :
      E.RString ids A C sz → strict = false → Inhabits E strict R (.str []) (.tuple ids)
  | struct {fs : List (Name × Val)} {req : List (Name × SemId)} :
      All2 (fun f r => f.1 = r.1 ∧ R f.2 r.2) fs req → Inhabits E strict R (.struct fs) (.struct req)
  | byteArray {id : SemId} {len : BitVec 16} {b : Bytes} : id.isByte E.H = true →
      b.length = len.toNat → Inhabits E strict R (.bytes b) (.array id len)
  | array {id : SemId} {len : BitVec 16} {l : List Val} : id.isByte E.H = false →
      l.length = len.toNat → (∀ v ∈ l, R v id) → Inhabits E strict R (.list l) (.array id len)
  | asciiList {id : SemId} {C : List Variant} {sz : Sizing} {s : Bytes} : E.CharEnum id C →
      (∀ b ∈ s, CharOk strict C b) → SizeOk strict sz.min.toNat sz.max.toNat s.length →
      Inhabits E strict R (.str s) (.list id sz)
  | byteList {id : SemId} {sz : Sizing} {b : Bytes} : id.isByte E.H = true →
      SizeOk strict sz.min.toNat sz.max.toNat b.length →
      Inhabits E strict R (.bytes b) (.list id sz)
  | unicodeList {id : SemId} {sz : Sizing} {s : Bytes} : id.isByte E.H = false →
      id.isUnicodeChar E.H = true → Utf8 s →
      SizeOk strict sz.min.toNat sz.max.toNat s.length → Inhabits E strict R (.str s) (.list id sz)
  | list {id : SemId} {sz : Sizing} {l : List Val} : id.isByte E.H = false →
      id.isUnicodeChar E.H = false → (∀ C, ¬ E.CharEnum id C) → InMemory E.valSize l.length →
      SizeOk strict sz.min.toNat sz.max.toNat l.length → (∀ v ∈ l, R v id) →
      Inhabits E strict R (.list l) (.list id sz)
  | set {id : SemId} {sz : Sizing} {l : List Val} : InMemory E.valSize l.length →
      SizeOk strict sz.min.toNat sz.max.toNat l.length → (∀ v ∈ l, R v id) →
      DistinctOk strict l → Inhabits E strict R (.set l) (.set id sz)
  | map {kid id : SemId} {sz : Sizing} {l : List (Val × Val)} :
      InMemory (2 * E.valSize) l.length → SizeOk strict sz.min.toNat sz.max.toNat l.length →
      (∀ p ∈ l, R p.1 kid ∧ R p.2 id) → DistinctOk strict (l.map Prod.fst) →
      Inhabits E strict R (.map l) (.map kid id sz)

/-- The value has the type with the given id, by a derivation of depth at most `n`. -/
def HasTyN (E : Env) (strict : Bool) : Nat → Val → SemId → Prop
  | 0, _, _ => False
  | n + 1, v, id => ∃ t, E.find id = some t ∧ Inhabits E strict (HasTyN E strict n) v t

/-- The value is well typed. -/
def WellTyped (E : Env) (v : Val) (id : SemId) : Prop := ∃ n, HasTyN E true n v id

/-! ## Assumptions about type systems -/

/-- Fields of a struct have distinct names. -/
def Ty.FieldsDistinct : Ty SemId → Prop
  | .struct fs => (fs.map Prod.fst).Nodup
  | _ => True

/-- A sane type system: types respect the limits of their containers, every referenced type is
present, and the ids of the built-in types denote these types. The last three hold for every system
whose types have the ids computed from them, unless the hash function has a collision. -/
structure Env.Sane (E : Env) : Prop where
  wf : ∀ id t, E.find id = some t → t.WF
  fields : ∀ id t, E.find id = some t → t.FieldsDistinct
  closed : ∀ id t, E.find id = some t → ∀ r ∈ t.refs, ∃ u, E.find r = some u
  unit : ∀ t, E.find (SemId.unit E.H) = some t → t = Ty.UNIT
  byte : ∀ id t, id.isByte E.H = true → E.find id = some t → t = Ty.BYTE ∨ t = Ty.U8
  unicode : ∀ id t, id.isUnicodeChar E.H = true → E.find id = some t → t = .unicodeChar
  sizes : ∀ n, 1 ≤ n → n ≤ 8 → E.primSize (BitVec.ofNat 8 n) = n
  sizesI : ∀ n, n = 1 ∨ n = 2 ∨ n = 4 ∨ n = 8 → E.primSize (BitVec.ofNat 8 (0x40 + n)) = n
  sizeB : E.primSize Ty.BYTE_CODE = 1

/-- Integer types for which reading is implemented. -/
def ReadablePrim (p : Byte) : Prop :=
  p.toNat ≤ 8 ∨ p.toNat = 0x40 ∨ p.toNat = 0x41 ∨ p.toNat = 0x42 ∨ p.toNat = 0x44 ∨ p.toNat = 0x48

/-- Types that both serialisation and deserialisation support: integers up to 64 bits, no arrays
except of bytes, unicode characters only as items of strings, byte and unicode strings below 4 GiB,
and the bounds of a list (which may be the tail of a restricted string) are not the maximal number. -/
def Ty.Supported (E : Env) (t : Ty SemId) : Prop :=
  match t with
  | .primitive p => ReadablePrim p
  | .unicodeChar => False
  | .array id _ => id.isByte E.H = true
  | .list id sz => sz.min.toNat < 2 ^ 64 - 1 ∧ sz.max.toNat < 2 ^ 64 - 1 ∧
      (id.isByte E.H = true ∨ id.isUnicodeChar E.H = true → sz.max.toNat < 2 ^ 32)
  | t => ∀ r ∈ t.refs, r.isUnicodeChar E.H = false

/-- Every type of the system except the unicode character itself (which may occur in strings) is
supported. -/
def Env.Supported (E : Env) : Prop :=
  ∀ id t, E.find id = some t → id.isUnicodeChar E.H = false → t.Supported E

/-- Byte and unicode strings of the system are declared for less than 4 GiB. -/
def Env.SmallStrings (E : Env) : Prop :=
  ∀ id i sz, E.find id = some (.list i sz) → i.isByte E.H = true ∨ i.isUnicodeChar E.H = true →
    sz.max.toNat < 2 ^ 32

/-- Arrays of the system are arrays of bytes. -/
def Env.ByteArrays (E : Env) : Prop :=
  ∀ id i len, E.find id = some (.array i len) → i.isByte E.H = true

/-- The maximal length of every restricted string is the largest one its length prefix can express
(254 tail characters, 65534, ...). -/
def Env.TightRStrings (E : Env) : Prop :=
  ∀ id ids A C sz, E.find id = some (.tuple ids) → E.RString ids A C sz →
    ∀ n, n < 256 ^ prefixWidth (sz.max.toNat + 1) → n ≤ sz.max.toNat + 1

/-- A system that the decoder can handle: references do not go in circles (`rank` decreases),
unicode characters occur only as items of strings below 4 GiB, collections have a length prefix of
at most four bytes (and `min ≤ max`), and a vector of that many items fits into memory. -/
structure Env.Decodable (E : Env) (rank : SemId → Nat) : Prop where
  acyclic : ∀ id t, E.find id = some t → ∀ r ∈ t.refs, rank r < rank id
  chars : ∀ id t, E.find id = some t → (∀ r ∈ t.refs, E.find r ≠ some .unicodeChar) ∨
    ∃ i sz, t = .list i sz ∧ i.isUnicodeChar E.H = true
  list : ∀ id i sz, E.find id = some (.list i sz) → sz.min.toNat ≤ sz.max.toNat ∧
    sz.max.toNat < 2 ^ 32
  set : ∀ id i sz, E.find id = some (.set i sz) → sz.max.toNat < 2 ^ 32
  map : ∀ id k i sz, E.find id = some (.map k i sz) → sz.max.toNat < 2 ^ 32
  memory : 2 ^ 32 * (2 * E.valSize) < 2 ^ 63

/-! ## Agreement of systems -/

/-- Two environments differ in the type system only, and the systems agree on the set `S` of ids,
which is closed under references. -/
structure Env.Agree (E E' : Env) (S : SemId → Prop) : Prop where
  H : E.H = E'.H
  debug : E.debug = E'.debug
  primSize : E.primSize = E'.primSize
  valSize : E.valSize = E'.valSize
  find : ∀ id, S id → E.find id = E'.find id
  closed : ∀ id t, S id → E.find id = some t → ∀ r ∈ t.refs, S r

end Verif
