import Verif.Model.Serde
import Verif.Spec.Part

/-!
# Specification vocabulary for values through `serde`

What is known of a value once only its document is known.
-/

namespace Verif

/-- The tag that the document of the value can be taken for. -/
def Val.asTag : Val → Option Tag
  | .str s => (Name.ofBytes? s).map .name
  | .bytes b => (Name.ofBytes? (toHex b)).map .name
  | .enum t => Option.some t
  | .num (.uint n) => if n.toNat < 256 then Option.some (.ord (n.setWidth 8)) else Option.none
  | .num (.int n) => if 0 ≤ n.toInt ∧ n.toInt < 256 then Option.some (.ord (n.setWidth 8)) else Option.none
  | _ => Option.none

/-- What remains of a sequence: a union value if there are two items of which the first can be taken
for a tag, otherwise a list. -/
def Val.backSeq : Option Tag → List Val → Val
  | Option.some t, [_, v] => .union t v
  | _, l => .list l

mutual
/-- What remains of a value: byte strings and names of variants turn into strings, numbers lose the
sign type and all kinds of sequences are the same. -/
def Val.back : Val → Val
  | .unit => .unit
  | .num (.int n) => if n.toInt < 0 then .num (.int n) else .num (.uint n)
  | .num n => .num n
  | .str s => .str s
  | .bytes b => .str (toHex b)
  | .struct fs => .struct (Val.backFields fs)
  | .enum (.name n) => .str n.bytes
  | .enum (.ord t) => .num (.uint (t.setWidth 64))
  | .union t v => .union t v.back
  | .list l => Val.backSeq (l.head?.bind Val.asTag) (Val.backs l)
  | .set l => Val.backSeq (l.head?.bind Val.asTag) (Val.backs l)
  | .tuple l => Val.backSeq (l.head?.bind Val.asTag) (Val.backs l)
  | .map l => Val.backSeq Option.none (Val.backPairs l)
termination_by structural v => v
/-- `Val.back` of all items. -/
def Val.backs : List Val → List Val
  | [] => []
  | v :: l => v.back :: Val.backs l
termination_by structural l => l
/-- `Val.back` of all fields. -/
def Val.backFields : List (Name × Val) → List (Name × Val)
  | [] => []
  | f :: l => Val.backField f :: Val.backFields l
termination_by structural l => l
/-- `Val.back` of a field. -/
def Val.backField : Name × Val → Name × Val
  | (n, v) => (n, v.back)
termination_by structural f => f
/-- What remains of the entries of a map. -/
def Val.backPairs : List (Val × Val) → List Val
  | [] => []
  | p :: l => Val.backPair p :: Val.backPairs l
termination_by structural l => l
/-- What remains of an entry of a map: a sequence of two items. -/
def Val.backPair : Val × Val → Val
  | (k, v) => Val.backSeq k.asTag [k.back, v.back]
termination_by structural p => p
end

/-- The values whose documents tell everything: built of unit, unsigned and negative numbers, big
numbers, strings, structs, unions, and lists that are not a pair led by something like a tag. -/
inductive Val.Told : Val → Prop
  | unit : Val.Told .unit
  | uint (n : BitVec 64) : Val.Told (.num (.uint n))
  | int {n : BitVec 64} : n.toInt < 0 → Val.Told (.num (.int n))
  | bigUint (n : BitVec 1024) : Val.Told (.num (.bigUint n))
  | bigInt (n : BitVec 1024) : Val.Told (.num (.bigInt n))
  | str (s : Bytes) : Val.Told (.str s)
  | struct {fs : List (Name × Val)} : (∀ f ∈ fs, Val.Told f.2) → Val.Told (.struct fs)
  | union {t : Tag} {v : Val} : Val.Told v → Val.Told (.union t v)
  | list {l : List Val} : (∀ v ∈ l, Val.Told v) → (∀ a b, l = [a, b] → a.asTag = Option.none) →
      Val.Told (.list l)

/-- Well-typed values which their type does not restore from the document. -/
inductive Unrestored (E : Env) : Val → SemId → Prop
  /-- values that `typify` changes or refuses anyway -/
  | altered {id : SemId} {v : Val} : Altered E v id → Unrestored E v id
  /-- byte strings, which come back as their hexadecimal notation -/
  | bytes {id i : SemId} {sz : Sizing} {b : Bytes} : E.find id = some (.list i sz) → b ≠ [] → Unrestored E (.bytes b) id
  | byteArray {id i : SemId} {len : BitVec 16} {b : Bytes} : E.find id = some (.array i len) → Unrestored E (.bytes b) id
  /-- arrays with anything that the document does not tell; their items are not looked at -/
  | array {id i : SemId} {len : BitVec 16} {l : List Val} : E.find id = some (.array i len) → ¬ (Val.list l).Told →
      Unrestored E (.list l) id
  /-- sets and maps, which come back as lists -/
  | set {id : SemId} {l : List Val} : Unrestored E (.set l) id
  | map {id : SemId} {l : List (Val × Val)} : Unrestored E (.map l) id
  /-- variants named by a letter which is the code of some variant -/
  | letter {id : SemId} {vs : List Variant} {n : Name} {v : Variant} : E.find id = some (.enum vs) → v ∈ vs →
      n.bytes = [v.tag] → Unrestored E (.enum (.name n)) id
  /-- pairs led by something like a tag, which come back as union values -/
  | listPair {id i : SemId} {sz : Sizing} {a b : Val} {t : Tag} : E.find id = some (.list i sz) → a.asTag = some t →
      Unrestored E (.list [a, b]) id
  | tuplePair {id : SemId} {a b : Val} {t : Tag} : a.asTag = some t → Unrestored E (.tuple [a, b]) id

/-- The document is not one of a big number. -/
def BigNums.Silent (B : BigNums) (j : Json) : Prop := B.readU j = none ∧ B.readI j = none

/-- The big number is read back from its document, and its document is not one of a tag. -/
def BigNums.Clear (B : BigNums) : Num → Prop
  | .bigUint n => B.readU (B.writeU n) = some n ∧ (∀ m, B.writeU n ≠ .uint m) ∧ B.writeU n ≠ .null ∧
      Tag.ofJson (B.writeU n) = none
  | .bigInt n => B.readU (B.writeI n) = none ∧ B.readI (B.writeI n) = some n ∧
      (∀ m, B.writeI n ≠ .uint m) ∧ (∀ m, B.writeI n ≠ .negInt m) ∧ B.writeI n ≠ .null ∧
      Tag.ofJson (B.writeI n) = none
  | .uint _ => True
  | .int n => n.toInt < 0 → B.readU (.negInt n) = none

mutual
/-- Big numbers cannot be confused with other parts of the value (this depends on an external crate),
and the fields of structs have distinct names (an `IndexMap` guarantees it). -/
def Val.Apart (B : BigNums) : Val → Prop
  | .unit => True
  | .num n => B.Clear n
  | .str s => B.Silent (.str s)
  | .bytes b => B.Silent (.str (toHex b))
  | .struct fs => (fs.map Prod.fst).Nodup ∧ B.Silent (Val.toJson B (.struct fs)) ∧
      Val.ApartFields B fs
  | .enum t => B.Silent t.toJson
  | .union t v => B.Silent (Val.toJson B (.union t v)) ∧ Val.Apart B v
  | .list l => B.Silent (Val.toJson B (.list l)) ∧ Val.ApartAll B l
  | .set l => B.Silent (Val.toJson B (.set l)) ∧ Val.ApartAll B l
  | .tuple l => B.Silent (Val.toJson B (.tuple l)) ∧ Val.ApartAll B l
  | .map l => B.Silent (Val.toJson B (.map l)) ∧ Val.ApartPairs B l
termination_by structural v => v
/-- `Val.Apart` of all items. -/
def Val.ApartAll (B : BigNums) : List Val → Prop
  | [] => True
  | v :: l => Val.Apart B v ∧ Val.ApartAll B l
termination_by structural l => l
/-- `Val.Apart` of all fields. -/
def Val.ApartFields (B : BigNums) : List (Name × Val) → Prop
  | [] => True
  | f :: l => Val.ApartField B f ∧ Val.ApartFields B l
termination_by structural l => l
/-- `Val.Apart` of a field. -/
def Val.ApartField (B : BigNums) : Name × Val → Prop
  | (_, v) => Val.Apart B v
termination_by structural f => f
/-- `Val.Apart` of all entries. -/
def Val.ApartPairs (B : BigNums) : List (Val × Val) → Prop
  | [] => True
  | p :: l => Val.ApartPair B p ∧ Val.ApartPairs B l
termination_by structural l => l
/-- `Val.Apart` of an entry, which is written as an array. -/
def Val.ApartPair (B : BigNums) : Val × Val → Prop
  | (k, v) => B.Silent (.arr [Val.toJson B k, Val.toJson B v]) ∧ Val.Apart B k ∧ Val.Apart B v
termination_by structural p => p
end

end Verif
