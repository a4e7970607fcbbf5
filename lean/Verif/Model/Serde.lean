import Verif.Model.Convert
import Verif.Model.Ston

/-!
# Values through `serde`

The derived `Serialize` and `Deserialize` of `StrictVal` for self-describing formats read by people
(`is_human_readable`), JSON being the example. All enums involved are `untagged`: nothing about the
variant is written, and reading tries the variants in the order in which they are declared.
-/

namespace Verif

/-- The external `serde` implementation of `u1024` and `i1024` (`amplify_num`): what is written for a
number, and which documents are read as one. -/
structure BigNums where
  writeU : BitVec 1024 → Json
  writeI : BitVec 1024 → Json
  readU : Json → Option (BitVec 1024)
  readI : Json → Option (BitVec 1024)

/-- `src/value/val.rs:177-216`: derived `Serialize for StrictNum`. A number in a document does not tell
whether it was signed. -/
def BigNums.write (B : BigNums) : Num → Json
  | .uint n => .uint n
  | .bigUint n => B.writeU n
  | .int n => if n.toInt < 0 then .negInt n else .uint n
  | .bigInt n => B.writeI n

/-- `src/value/val.rs:177-216`: derived `Deserialize for StrictNum`: `Uint`, `BigUint`, `Int`,
`BigInt`. An unsigned number is taken by the first variant, so `Int` remains for negative ones. -/
def BigNums.read (B : BigNums) (j : Json) : Option Num :=
  match j with
  | .uint n => some (.uint n)
  | j =>
    match B.readU j with
    | some n => some (.bigUint n)
    | none =>
      match j with
      | .negInt n => some (.int n)
      | j => (B.readI j).map .bigInt

/-- `src/value/val.rs:242-254`: derived `Serialize for EnumTag`. -/
def Tag.toJson : Tag → Json
  | .name n => .str n.bytes
  | .ord t => .uint (t.setWidth 64)

/-- `src/value/val.rs:242-254`: derived `Deserialize for EnumTag`: a valid name (external
`VariantName`), else a number of 8 bits. -/
def Tag.ofJson : Json → Option Tag
  | .str s => (Name.ofBytes? s).map .name
  | .uint n => if n.toNat < 256 then some (.ord (n.setWidth 8)) else none
  | _ => none

mutual
/-- `src/value/val.rs:317-388`: derived `Serialize for StrictVal`; byte strings by
`src/value/val.rs:285-300`. -/
def Val.toJson (B : BigNums) : Val → Json
  | .unit => .null
  | .num n => B.write n
  | .str s => .str s
  | .bytes b => .str (toHex b)
  | .struct fs => .obj (Val.toJsonFields B fs)
  | .enum t => t.toJson
  | .union t v => .arr [t.toJson, Val.toJson B v]
  | .list l => .arr (Val.toJsons B l)
  | .set l => .arr (Val.toJsons B l)
  | .tuple l => .arr (Val.toJsons B l)
  | .map l => .arr (Val.toJsonPairs B l)
termination_by structural v => v
/-- The items of a vector. -/
def Val.toJsons (B : BigNums) : List Val → List Json
  | [] => []
  | v :: l => Val.toJson B v :: Val.toJsons B l
termination_by structural l => l
/-- The entries of an `IndexMap`, in order. -/
def Val.toJsonFields (B : BigNums) : List (Name × Val) → List (Bytes × Json)
  | [] => []
  | f :: l => Val.toJsonField B f :: Val.toJsonFields B l
termination_by structural l => l
/-- One entry of an `IndexMap`. -/
def Val.toJsonField (B : BigNums) : Name × Val → Bytes × Json
  | (n, v) => (n.bytes, Val.toJson B v)
termination_by structural f => f
/-- The items of a vector of pairs. -/
def Val.toJsonPairs (B : BigNums) : List (Val × Val) → List Json
  | [] => []
  | p :: l => Val.toJsonPair B p :: Val.toJsonPairs B l
termination_by structural l => l
/-- A pair is written as an array. -/
def Val.toJsonPair (B : BigNums) : Val × Val → Json
  | (k, v) => .arr [Val.toJson B k, Val.toJson B v]
termination_by structural p => p
end

mutual
/-- `src/value/val.rs:317-388`: derived `Deserialize for StrictVal`. The variants are tried in order:
`Unit`, `Number`, `String`, `Bytes` (a string in hex, hence never reached), `Struct`, `Enum` (a string
or a number, never reached), `Union` (an array of a tag and a value), `List`; an array which is no
list, because some item is no value, is also no `Set`, no `Tuple` and no `Map`. -/
def Json.readVal (B : BigNums) : Json → Option Val
  | .null => some .unit
  | .bool b => (B.read (.bool b)).map .num
  | .uint n => (B.read (.uint n)).map .num
  | .negInt n => (B.read (.negInt n)).map .num
  | .float => (B.read .float).map .num
  | .str s =>
    match B.read (.str s) with
    | some n => some (.num n)
    | none => some (.str s)
  | .obj l =>
    match B.read (.obj l) with
    | some n => some (.num n)
    | none => (Json.readFields B l []).map .struct
  | .arr l =>
    match B.read (.arr l) with
    | some n => some (.num n)
    | none =>
      match Json.readPair B l with
      | some v => some v
      | none => (Json.readVals B l).map .list
termination_by structural j => j
/-- The tuple variant `Union(EnumTag, Box<StrictVal>)`: an array of exactly two items. -/
def Json.readPair (B : BigNums) : List Json → Option Val
  | [] => none
  | a :: l =>
    match Tag.ofJson a, Json.readLast B l with
    | some t, some v => some (.union t v)
    | _, _ => none
termination_by structural l => l
/-- The second and last item. -/
def Json.readLast (B : BigNums) : List Json → Option Val
  | [] => none
  | b :: l => if l.isEmpty then Json.readVal B b else none
termination_by structural l => l
/-- The items of a vector. -/
def Json.readVals (B : BigNums) : List Json → Option (List Val)
  | [] => some []
  | j :: l =>
    match Json.readVal B j, Json.readVals B l with
    | some v, some vs => some (v :: vs)
    | _, _ => none
termination_by structural l => l
/-- The entries of an object, inserted one after another into an `IndexMap`; the keys must be valid
names (external `FieldName`). -/
def Json.readFields (B : BigNums) : List (Bytes × Json) → List (Name × Val) →
    Option (List (Name × Val))
  | [], acc => some acc
  | e :: l, acc =>
    match Json.readField B e with
    | some (n, v) => Json.readFields B l (imInsert acc n v)
    | none => none
termination_by structural l => l
/-- One entry of an object. -/
def Json.readField (B : BigNums) : Bytes × Json → Option (Name × Val)
  | (k, j) =>
    match Name.ofBytes? k, Json.readVal B j with
    | some n, some v => some (n, v)
    | _, _ => none
termination_by structural e => e
end

end Verif
