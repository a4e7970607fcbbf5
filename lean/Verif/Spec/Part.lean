import Verif.Spec.Value

/-!
# Specification vocabulary for parts of values

`Part` relates a value and its type to the components of the value and their types, one level down;
`Sub` is any number of levels. Items of arrays are not parts: `typify` does not look into arrays.
-/

namespace Verif

/-- The second value is a component of the first one; the ids are those of their types. -/
inductive Part (E : Env) : Val → SemId → Val → SemId → Prop
  | listItem {id i : SemId} {sz : Sizing} {l : List Val} {v : Val} :
      E.find id = some (.list i sz) → v ∈ l → Part E (.list l) id v i
  | setItem {id i : SemId} {sz : Sizing} {l : List Val} {v : Val} :
      E.find id = some (.set i sz) → v ∈ l → Part E (.set l) id v i
  | mapKey {id k i : SemId} {sz : Sizing} {l : List (Val × Val)} {p : Val × Val} :
      E.find id = some (.map k i sz) → p ∈ l → Part E (.map l) id p.1 k
  | mapValue {id k i : SemId} {sz : Sizing} {l : List (Val × Val)} {p : Val × Val} :
      E.find id = some (.map k i sz) → p ∈ l → Part E (.map l) id p.2 i
  | tupleField {id i : SemId} {ids : List SemId} {l : List Val} {v : Val} {k : Nat} :
      E.find id = some (.tuple ids) → l[k]? = some v → ids[k]? = some i → Part E (.tuple l) id v i
  | structField {id i : SemId} {req : List (Name × SemId)} {fs : List (Name × Val)} {n : Name}
      {v : Val} : E.find id = some (.struct req) → (n, v) ∈ fs → (n, i) ∈ req →
      Part E (.struct fs) id v i
  | byName {id i : SemId} {vs : List (Variant × SemId)} {n : Name} {t : Byte} {v : Val} :
      E.find id = some (.union vs) → (⟨n, t⟩, i) ∈ vs → Part E (.union (.name n) v) id v i
  | byTag {id i : SemId} {vs : List (Variant × SemId)} {n : Name} {t : Byte} {v : Val} :
      E.find id = some (.union vs) → (⟨n, t⟩, i) ∈ vs → Part E (.union (.ord t) v) id v i

/-- The second value occurs in the first one at some depth (or is the same). -/
inductive Sub (E : Env) : Val → SemId → Val → SemId → Prop
  | refl (v : Val) (id : SemId) : Sub E v id v id
  | step {v w u : Val} {a b c : SemId} : Part E v a w b → Sub E w b u c → Sub E v a u c

/-- Number of items of a collection value: bytes of a string, items, entries. -/
inductive Counts : Val → Nat → Prop
  | str (s : Bytes) : Counts (.str s) s.length
  | bytes (b : Bytes) : Counts (.bytes b) b.length
  | list (l : List Val) : Counts (.list l) l.length
  | set (l : List Val) : Counts (.set l) l.length
  | map (l : List (Val × Val)) : Counts (.map l) l.length

/-- The integer a number value stands for. -/
def Num.value : Num → Int
  | .uint x => x.toNat
  | .int x => x.toInt
  | .bigUint x => x.toNat
  | .bigInt x => x.toInt

/-- The number is in the range of the integer type of at most 64 bits with the given code (size in
bytes, plus 64 for signed types). -/
def Num.Fits (p : Byte) (k : Num) : Prop :=
  if p.toNat < 0x40 then 0 ≤ k.value ∧ k.value < 256 ^ p.toNat
  else -(2 : Int) ^ (8 * (p.toNat - 0x40) - 1) ≤ k.value ∧
    k.value < (2 : Int) ^ (8 * (p.toNat - 0x40) - 1)

/-- Values that `typify` lets pass but serialisation refuses (or, with debug assertions, aborts on),
because their shape is not the one of the type. -/
inductive Refused (E : Env) : Val → SemId → Prop
  /-- arrays given as lists -/
  | arrayList {id i : SemId} {len : BitVec 16} {l : List Val} :
      E.find id = some (.array i len) → Refused E (.list l) id
  /-- arrays given as too short strings -/
  | shortBytes {id i : SemId} {len : BitVec 16} {b : Bytes} : E.debug = true →
      E.find id = some (.array i len) → b.length < len.toNat → Refused E (.bytes b) id
  | shortString {id i : SemId} {len : BitVec 16} {b : Bytes} : E.debug = true →
      E.find id = some (.array i len) → b.length < len.toNat → Refused E (.str b) id
  /-- characters given as strings -/
  | charString {id : SemId} {vs : List Variant} {s : Bytes} :
      E.find id = some (.enum vs) → Refused E (.str s) id
  /-- strings given for pairs that are not restricted strings -/
  | notRString {id : SemId} {ids : List SemId} {s : Bytes} : E.find id = some (.tuple ids) →
      (∀ A C sz, ¬ E.RString ids A C sz) → Refused E (.str s) id
  /-- restricted strings that are too long, or of unbounded length -/
  | longRString {id : SemId} {ids : List SemId} {A C : List Variant} {sz : Sizing} {s : Bytes} :
      E.debug = true → E.find id = some (.tuple ids) → E.RString ids A C sz →
      sz.min.toNat = 2 ^ 64 - 1 ∨ sz.max.toNat = 2 ^ 64 - 1 ∨ sz.max.toNat + 1 < s.length →
      Refused E (.str s) id
  /-- tuples with missing fields -/
  | shortTuple {id : SemId} {ids : List SemId} {l : List Val} : E.debug = true →
      E.find id = some (.tuple ids) → l.length < ids.length → Refused E (.tuple l) id
  /-- structs with missing fields -/
  | missingField {id i : SemId} {req : List (Name × SemId)} {fs : List (Name × Val)} {n : Name} :
      E.find id = some (.struct req) → (n, i) ∈ req → n ∉ fs.map Prod.fst → Refused E (.struct fs) id
  /-- 64-bit numbers for wider types -/
  | wideUint {id : SemId} {p : Byte} {x : BitVec 64} : E.find id = some (.primitive p) →
      8 < E.primSize p → Refused E (.num (.uint x)) id
  | wideInt {id : SemId} {p : Byte} {x : BitVec 64} : E.find id = some (.primitive p) →
      8 < E.primSize p → Refused E (.num (.int x)) id
  /-- numbers of more than 1024 bits -/
  | hugeUint {id : SemId} {p : Byte} {x : BitVec 1024} : E.find id = some (.primitive p) →
      128 < E.primSize p → Refused E (.num (.bigUint x)) id
  | hugeInt {id : SemId} {p : Byte} {x : BitVec 1024} : E.find id = some (.primitive p) →
      128 < E.primSize p → Refused E (.num (.bigInt x)) id
  /-- the empty option of a type whose `none` carries data; builds without debug assertions write nothing for numbers -/
  | fullNone {id i s : SemId} :
      E.find id = some (.union [(⟨n!"none", 0⟩, i), (⟨n!"some", 1⟩, s)]) → i ≠ SemId.unit E.H →
      E.find i ≠ some Ty.UNIT → E.debug = true ∨ (∀ p, E.find i ≠ some (.primitive p)) → Refused E .none id
  /-- a continuation byte for a character (impossible in Rust) -/
  | invalidChar {id : SemId} {b : Byte} : E.debug = true → E.find id = some .unicodeChar → 128 ≤ b.toNat →
      b.toNat < 192 → Refused E (.str [b]) id

/-- Values that are read from bytes but cannot be written. -/
inductive Overread (E : Env) : Val → SemId → Prop
  /-- arrays of anything but bytes -/
  | array {id i : SemId} {len : BitVec 16} {l : List Val} : E.find id = some (.array i len) → Overread E (.list l) id
  /-- restricted strings longer than their type allows, in builds with debug assertions -/
  | longRString {id : SemId} {ids : List SemId} {A C : List Variant} {sz : Sizing} {s : Bytes} : E.debug = true →
      E.find id = some (.tuple ids) → E.RString ids A C sz → sz.max.toNat + 1 < s.length → Overread E (.str s) id

/-- Well-typed values that `typify` changes or refuses. -/
inductive Altered (E : Env) : Val → SemId → Prop
  /-- raw bytes -/
  | byte {id : SemId} {x : BitVec 64} : E.find id = some Ty.BYTE → Altered E (.num (.uint x)) id
  /-- unsigned numbers of more than 64 and at most 128 bits -/
  | wideUint {id : SemId} {p : Byte} {x : BitVec 1024} : E.find id = some (.primitive p) → p.toNat ≤ 16 →
      Altered E (.num (.bigUint x)) id
  /-- signed numbers of more than 64 and less than 128 bits -/
  | wideInt {id : SemId} {p : Byte} {x : BitVec 1024} : E.find id = some (.primitive p) → p.toNat ≤ 0x4f →
      Altered E (.num (.bigInt x)) id
  /-- characters of more than one byte -/
  | char {id : SemId} {s : Bytes} : E.find id = some .unicodeChar → 1 < s.length → Altered E (.str s) id

/-- Values that break the constraints of their types: sizes of collections, repeated items of sets, repeated keys. -/
inductive Unfit (E : Env) : Val → SemId → Prop
  | listSize {id i : SemId} {sz : Sizing} {v : Val} {n : Nat} : E.find id = some (.list i sz) → Counts v n →
      n < sz.min.toNat ∨ sz.max.toNat < n → Unfit E v id
  | setSize {id i : SemId} {sz : Sizing} {v : Val} {n : Nat} : E.find id = some (.set i sz) → Counts v n →
      n < sz.min.toNat ∨ sz.max.toNat < n → Unfit E v id
  | mapSize {id k i : SemId} {sz : Sizing} {v : Val} {n : Nat} : E.find id = some (.map k i sz) → Counts v n →
      n < sz.min.toNat ∨ sz.max.toNat < n → Unfit E v id
  | repeatedItem {id i : SemId} {sz : Sizing} {l : List Val} : E.find id = some (.set i sz) →
      ¬ l.Pairwise (fun a b => a.eqv b = false) → Unfit E (.set l) id
  | repeatedKey {id k i : SemId} {sz : Sizing} {l : List (Val × Val)} : E.find id = some (.map k i sz) →
      ¬ l.Pairwise (fun a b => a.1.eqv b.1 = false) → Unfit E (.map l) id

/-- Well-typed values which are not read back: they cannot be written, or are never the result of reading. -/
inductive Unread (E : Env) : Val → SemId → Prop
  /-- unicode characters outside of strings -/
  | char {id : SemId} {s : Bytes} : E.find id = some .unicodeChar → Unread E (.str s) id
  /-- arrays of anything but bytes -/
  | array {id i : SemId} {len : BitVec 16} {l : List Val} : E.find id = some (.array i len) → Unread E (.list l) id
  /-- integers of more than 64 bits, and signed ones of 3, 5, 6 and 7 bytes -/
  | number {id : SemId} {p : Byte} {k : Num} : E.find id = some (.primitive p) → ¬ ReadablePrim p → Unread E (.num k) id
  /-- byte and unicode strings declared for 4 GiB and more -/
  | longBytes {id i : SemId} {sz : Sizing} {b : Bytes} : E.find id = some (.list i sz) → 2 ^ 32 ≤ sz.max.toNat →
      Unread E (.bytes b) id
  | longText {id i : SemId} {sz : Sizing} {s : Bytes} : E.find id = some (.list i sz) → i.isUnicodeChar E.H = true →
      2 ^ 32 ≤ sz.max.toNat → Unread E (.str s) id
  /-- restricted strings of unbounded length, in builds with overflow checks or of 256 and more characters -/
  | longRString {id : SemId} {ids : List SemId} {A C : List Variant} {sz : Sizing} {s : Bytes} :
      E.find id = some (.tuple ids) → E.RString ids A C sz → sz.max.toNat = 2 ^ 64 - 1 →
      E.debug = true ∨ 256 ≤ s.length → Unread E (.str s) id
  /-- pairs with a list of unbounded length, in builds with overflow checks -/
  | longPair {id a b c : SemId} {sz : Sizing} {l : List Val} : E.find id = some (.tuple [a, b]) →
      E.find b = some (.list c sz) → sz.min.toNat = 2 ^ 64 - 1 ∨ sz.max.toNat = 2 ^ 64 - 1 → E.debug = true →
      Unread E (.tuple l) id

/-- Values that `typify` returns but does not accept again: tuples and structs with missing fields,
and the empty option of a type whose `none` carries data. -/
inductive Incomplete (E : Env) : Val → SemId → Prop
  | shortTuple {id : SemId} {ids : List SemId} {l : List Val} :
      E.find id = some (.tuple ids) → l.length < ids.length → Incomplete E (.tuple l) id
  | missingField {id i : SemId} {req : List (Name × SemId)} {fs : List (Name × Val)} {n : Name} :
      E.find id = some (.struct req) → (n, i) ∈ req → n ∉ fs.map Prod.fst →
      Incomplete E (.struct fs) id
  | fullNone {id i s : SemId} :
      E.find id = some (.union [(⟨n!"none", 0⟩, i), (⟨n!"some", 1⟩, s)]) → i ≠ SemId.unit E.H →
      E.find i ≠ some Ty.UNIT → Incomplete E .none id

/-- The second value occurs in the first one at some depth, in arrays too (or is the same). -/
inductive Within (E : Env) : Val → SemId → Val → SemId → Prop
  | refl (v : Val) (id : SemId) : Within E v id v id
  | part {v w u : Val} {a b c : SemId} : Part E v a w b → Within E w b u c → Within E v a u c
  | item {w u : Val} {a i c : SemId} {len : BitVec 16} {l : List Val} : E.find a = some (.array i len) → w ∈ l →
      Within E w i u c → Within E (.list l) a u c

/-- Values read which break what their types declare. -/
inductive Loose (E : Env) : Val → SemId → Prop
  /-- sizes of collections, repeated items of sets, repeated keys -/
  | unfit {id : SemId} {v : Val} : Unfit E v id → Loose E v id
  /-- lengths of restricted strings -/
  | rstringSize {id : SemId} {ids : List SemId} {A C : List Variant} {sz : Sizing} {s : Bytes} :
      E.find id = some (.tuple ids) → E.RString ids A C sz →
      s.length < sz.min.toNat + 1 ∨ sz.max.toNat + 1 < s.length → Loose E (.str s) id
  /-- characters outside of the alphabet -/
  | firstChar {id : SemId} {ids : List SemId} {A C : List Variant} {sz : Sizing} {c : Byte} {s : Bytes} :
      E.find id = some (.tuple ids) → E.RString ids A C sz → ¬ InAlphabet A c → Loose E (.str (c :: s)) id
  | nextChar {id : SemId} {ids : List SemId} {A C : List Variant} {sz : Sizing} {c b : Byte} {s : Bytes} :
      E.find id = some (.tuple ids) → E.RString ids A C sz → b ∈ s → ¬ InAlphabet C b → Loose E (.str (c :: s)) id
  | char {id i : SemId} {sz : Sizing} {C : List Variant} {b : Byte} {s : Bytes} :
      E.find id = some (.list i sz) → E.CharEnum i C → b ∈ s → ¬ InAlphabet C b → Loose E (.str s) id
  /-- byte and unicode strings read item by item -/
  | items {id i : SemId} {sz : Sizing} {l : List Val} :
      E.find id = some (.list i sz) → i.isByte E.H = true ∨ i.isUnicodeChar E.H = true → Loose E (.list l) id

end Verif
