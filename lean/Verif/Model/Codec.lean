import Verif.Model.Typify

/-!
# Serialisation and deserialisation of values
-/

namespace Verif

/-! ## Restricted strings -/

/-- `src/typesys/type_sys.rs:156-169`: `rstring_sizing`. `min += 1` and `max += 1` panic on overflow
in debug builds and wrap otherwise; `fields[1]` panics when absent. The error is the unknown id. -/
def Env.rstringSizing (E : Env) (ids : List SemId) : Out SemId (Option (SemId × Sizing)) := do
  let rest ← Out.expect ids[1]?
  match E.find rest with
  | none => .err rest
  | some (.list rest sz) =>
    if E.debug && (sz.min == -1 || sz.max == -1) then .panic
    else pure (some (rest, ⟨sz.min + 1, sz.max + 1⟩))
  | some _ => pure none

/-- `src/typesys/type_sys.rs:171-182`: `is_rstring`. -/
def Env.isRString (E : Env) (ids : List SemId) : Out SemId Bool := do
  if ids.length ≠ 2 then pure false
  else
    let first ← Out.expect ids[0]?
    match ← E.rstringSizing ids with
    | none => pure false
    | some (rest, _) =>
      match E.find first with
      | none => .err first
      | some t =>
        if !t.isCharEnum then pure false
        else match E.find rest with
          | none => .err rest
          | some u => pure u.isCharEnum

/-! ## Writing -/

/-- `src/value/encode.rs:244-254`: `Sizing::byte_size`, width of the length prefix. -/
def Sizing.byteSize (s : Sizing) : Nat :=
  if s.max.toNat ≤ 0xff then 1
  else if s.max.toNat ≤ 0xffff then 2
  else if s.max.toNat ≤ 0xffffff then 3
  else if s.max.toNat ≤ 0xffffffff then 4
  else 8

/-- Errors of writing: the missing struct field of `src/value/encode.rs:162-165`. The writer itself
(external) is a growing buffer that does not fail. -/
inductive EErr where
  | missingField (n : Name)
deriving DecidableEq, Repr

/-- `&num.to_le_bytes()[0..count]` for a number of `width` bytes: panics when `count > width`. -/
def leSlice (width count n : Nat) : Out EErr Bytes :=
  if count ≤ width then .ok (le count n) else .panic

/-- `src/value/encode.rs:112-135`: writing a primitive. -/
def writePrim (E : Env) (p : Byte) : Val → Out EErr Bytes
  | .unit => do
    Out.debugAssert E.debug (p == Ty.UNIT_CODE)
    pure []
  | .num (.uint n) => leSlice 8 (E.primSize p) n.toNat
  | .num (.bigUint n) => leSlice 128 (E.primSize p) n.toNat
  | .num (.int n) => leSlice 8 (E.primSize p) n.toNat
  | .num (.bigInt n) => leSlice 128 (E.primSize p) n.toNat
  | _ => .panic

/-- `src/value/encode.rs:170-177`: writing an enum. -/
def writeEnum (E : Env) (vs : List Variant) : Val → Out EErr Bytes
  | .enum (.ord t) => do
    Out.debugAssert E.debug (Ty.enumHasTag vs t)
    pure [t]
  | .enum (.name n) => do
    let t ← Out.expect (Ty.enumTagByName vs n)
    pure [t]
  | _ => .panic

/-- `src/value/encode.rs:141-148`: writing an array. -/
def writeArray (E : Env) (len : BitVec 16) : Val → Out EErr Bytes
  | .bytes b => do
    Out.debugAssert E.debug (b.length == len.toNat)
    pure b
  | .str s => do
    Out.debugAssert E.debug (s.length == len.toNat)
    pure s
  | _ => .panic

section
variable (rec : Val → SemId → Out EErr Bytes)

/-- `src/value/encode.rs:178-188`: writing a union. -/
def writeUnion (vs : List (Variant × SemId)) : Val → Out EErr Bytes
  | .union (.ord t) v => do
    let id ← Out.expect (Ty.unionTyByTag vs t)
    let bs ← rec v id
    pure (t :: bs)
  | .union (.name n) v => do
    let p ← Out.expect (Ty.unionByName vs n)
    let bs ← rec v p.2
    pure (p.1.tag :: bs)
  | _ => .panic

/-- `src/value/encode.rs:152-154`: `for (val, sem_id) in vals.iter().zip(fields)`. -/
def writeZip : List Val → List SemId → Out EErr Bytes
  | v :: l, id :: ids => do
    let a ← rec v id
    let b ← writeZip l ids
    pure (a ++ b)
  | _, _ => .ok []

/-- `src/value/encode.rs:150-155,221-231`: writing a tuple or a restricted string. -/
def writeTuple (E : Env) (ids : List SemId) : Val → Out EErr Bytes
  | .tuple l => do
    Out.debugAssert E.debug (l.length == ids.length)
    writeZip rec l ids
  | .str s =>
    if isAscii s then
      match E.isRString ids with
      | .ok true =>
        match E.rstringSizing ids with
        | .ok (some (_, sz)) => do
          Out.debugAssert E.debug (s.length ≤ sz.max.toNat)
          pure (le sz.byteSize s.length ++ s)
        | .diverge => .diverge
        | _ => .panic
      | .ok false => .panic
      | .diverge => .diverge
      | _ => .panic
    else .panic
  | _ => .panic

/-- `src/value/encode.rs:159-168`: writing the fields of a struct in declaration order. -/
def writeFields (vals : List (Name × Val)) : List (Name × SemId) → Out EErr Bytes
  | [] => .ok []
  | (n, id) :: req =>
    match imGet vals n with
    | none => .err (.missingField n)
    | some v => do
      let a ← rec v id
      let b ← writeFields vals req
      pure (a ++ b)

/-- `src/value/encode.rs:156-169`: writing a struct. -/
def writeStruct (E : Env) (req : List (Name × SemId)) : Val → Out EErr Bytes
  | .struct fs => do
    Out.debugAssert E.debug (fs.length == req.length)
    writeFields rec fs req
  | _ => .panic

/-- `src/value/encode.rs:207-209`: writing the items of a list or set. -/
def writeItems (id : SemId) : List Val → Out EErr Bytes
  | [] => .ok []
  | v :: l => do
    let a ← rec v id
    let b ← writeItems id l
    pure (a ++ b)

/-- `src/value/encode.rs:190-210`: writing a list. -/
def writeList (id : SemId) (sz : Sizing) : Val → Out EErr Bytes
  | .str s => pure (le sz.byteSize s.length ++ s)
  | .bytes b => pure (le sz.byteSize b.length ++ b)
  | .list l => do
    let bs ← writeItems rec id l
    pure (le sz.byteSize l.length ++ bs)
  | _ => .panic

/-- `src/value/encode.rs:202-210`: writing a set. -/
def writeSet (id : SemId) (sz : Sizing) : Val → Out EErr Bytes
  | .set l => do
    let bs ← writeItems rec id l
    pure (le sz.byteSize l.length ++ bs)
  | _ => .panic

/-- `src/value/encode.rs:215-218`: writing the entries of a map. -/
def writePairs (kid id : SemId) : List (Val × Val) → Out EErr Bytes
  | [] => .ok []
  | (k, v) :: l => do
    let a ← rec k kid
    let b ← rec v id
    let c ← writePairs kid id l
    pure (a ++ b ++ c)

/-- `src/value/encode.rs:211-219`: writing a map. -/
def writeMap (kid id : SemId) (sz : Sizing) : Val → Out EErr Bytes
  | .map l => do
    let bs ← writePairs rec kid id l
    pure (le sz.byteSize l.length ++ bs)
  | _ => .panic

/-- `src/value/encode.rs:105-237`: `strict_write_ty`, arms regrouped by type. The result is the bytes
written; what a failing call leaves in the buffer is not modelled. -/
def writeTy (E : Env) (v : Val) : Ty SemId → Out EErr Bytes
  | .primitive p => writePrim E p v
  | .unicodeChar =>
    match v with
    | .str s => do
      Out.debugAssert E.debug (charCount s == 1)
      pure s
    | _ => .panic
  | .enum vs => writeEnum E vs v
  | .union vs => writeUnion rec vs v
  | .tuple ids => writeTuple rec E ids v
  | .struct req => writeStruct rec E req v
  | .array _ len => writeArray E len v
  | .list id sz => writeList rec id sz v
  | .set id sz => writeSet rec id sz v
  | .map kid id sz => writeMap rec kid id sz v

end

/-- `src/value/encode.rs:91-103`: `strict_write_val`; also `strict_write_value`,
`strict_serialize_value` (lines 55-89) up to the size limit of the buffer. -/
def write (E : Env) : Nat → Val → SemId → Out EErr Bytes
  | 0, _, _ => .diverge
  | fuel + 1, v, id =>
    match E.typeOf id with
    | none => .panic
    | some t => writeTy (write E fuel) E v t

/-- Error of `strict_serialize_value`: missing field or the bytes exceed the limit. -/
inductive SErr where
  | encode (e : EErr)
  | tooLarge
deriving DecidableEq, Repr

/-- `src/value/encode.rs:55-62`: `strict_serialize_value::<MAX_LEN>`. -/
def serialize (E : Env) (fuel maxLen : Nat) (v : Val) (id : SemId) : Out SErr Bytes := do
  let bs ← (write E fuel v id).mapErr .encode
  if bs.length ≤ maxLen then pure bs else .err .tooLarge

/-! ## Reading -/

/-- `src/value/decode.rs:43-60`: `decode::Error` (without display payloads; `io`, `ascii`, `utf8`
and `enumTag` are kinds of the external `DecodeError`). -/
inductive DErr where
  | typeAbsent (id : SemId)
  | unknownType (id : SemId)
  | notImplemented
  | io
  | ascii
  | utf8
  | enumTag
  | notEntirelyConsumed
deriving DecidableEq, Repr

/-- Result of reading: the value and the bytes left. -/
abbrev RdPair (α : Type) := α × Bytes

/-- `read_raw(n)`: exactly `n` bytes, or an I/O error at the end of input. The limit of the reader
(4 GiB in `strict_deserialize_type`) is not modelled. -/
def readRaw (n : Nat) (bs : Bytes) : Out DErr (RdPair Bytes) :=
  if n ≤ bs.length then .ok (bs.take n, bs.drop n) else .err .io

/-- `uN::strict_decode` (external): little-endian number of `n` bytes. -/
def readLe (n : Nat) (bs : Bytes) : Out DErr (RdPair Nat) := do
  let (b, bs) ← readRaw n bs
  pure (fromLe b, bs)

/-- `Vec::with_capacity(len)` (`src/value/decode.rs:91,106`): panics with "capacity overflow" when
the byte size exceeds `isize::MAX`. Other allocation failures are not modelled. -/
def withCapacity (itemSize len : Nat) : Out DErr Unit :=
  if len * itemSize < 2 ^ 63 then .ok () else .panic

/-- Sign extension of an `n`-byte number to 64 bits (`iN::strict_decode(..)` then `as i64`). -/
def signExtend (n x : Nat) : BitVec 64 :=
  if x < 2 ^ (8 * n - 1) then BitVec.ofNat 64 x else BitVec.ofNat 64 (2 ^ 64 + x - 2 ^ (8 * n))

/-- `StrictVal::num(uN::strict_decode(..))` (`src/value/decode.rs:138-146`). -/
def readUint (n : Nat) (bs : Bytes) : Out DErr (RdPair Val) := do
  let (x, bs) ← readLe n bs
  pure (.num (.uint (BitVec.ofNat 64 x)), bs)

/-- `StrictVal::num(iN::strict_decode(..))` (`src/value/decode.rs:148-152`). -/
def readInt (n : Nat) (bs : Bytes) : Out DErr (RdPair Val) := do
  let (x, bs) ← readLe n bs
  pure (.num (.int (signExtend n x)), bs)

/-- `src/value/decode.rs:135-160`: reading a primitive. -/
def readPrim (p : Byte) (bs : Bytes) : Out DErr (RdPair Val) :=
  if p = Ty.UNIT_CODE then .ok (.unit, bs)
  else if p = Ty.BYTE_CODE then readUint 1 bs
  else if 1 ≤ p.toNat ∧ p.toNat ≤ 8 then readUint p.toNat bs
  else if p = 0x41 then readInt 1 bs
  else if p = 0x42 then readInt 2 bs
  else if p = 0x44 then readInt 4 bs
  else if p = 0x48 then readInt 8 bs
  else .err .notImplemented

/-- `TinyAscii::strict_decode` and the like (external): length prefix, then ASCII bytes. -/
def readAscii (width : Nat) (bs : Bytes) : Out DErr (RdPair Val) := do
  let (len, bs) ← readLe width bs
  let (s, bs) ← readRaw len bs
  if isAscii s then pure (.str s, bs) else .err .ascii

/-- `TinyString::strict_decode` and the like (external): length prefix, then UTF-8 bytes. -/
def readString (width : Nat) (bs : Bytes) : Out DErr (RdPair Val) := do
  let (len, bs) ← readLe width bs
  let (s, bs) ← readRaw len bs
  if utf8Valid s then pure (.str s, bs) else .err .utf8

/-- `TinyBlob::strict_decode` and the like (external): length prefix, then bytes. -/
def readBlob (width : Nat) (bs : Bytes) : Out DErr (RdPair Val) := do
  let (len, bs) ← readLe width bs
  let (s, bs) ← readRaw len bs
  pure (.bytes s, bs)

section
variable (rec : SemId → Bytes → Out DErr (RdPair Val))

/-- `src/value/decode.rs:92-95,253-256`: reading a number of items. -/
def readItems (id : SemId) : Nat → Bytes → Out DErr (RdPair (List Val))
  | 0, bs => .ok ([], bs)
  | n + 1, bs => do
    let (v, bs) ← rec id bs
    let (vs, bs) ← readItems id n bs
    pure (v :: vs, bs)

/-- `src/value/decode.rs:107-111`: reading a number of map entries. -/
def readPairs (kid id : SemId) : Nat → Bytes → Out DErr (RdPair (List (Val × Val)))
  | 0, bs => .ok ([], bs)
  | n + 1, bs => do
    let (k, bs) ← rec kid bs
    let (v, bs) ← rec id bs
    let (vs, bs) ← readPairs kid id n bs
    pure ((k, v) :: vs, bs)

/-- `src/value/decode.rs:228-231`: reading the fields of a tuple. -/
def readTuple : List SemId → Bytes → Out DErr (RdPair (List Val))
  | [], bs => .ok ([], bs)
  | id :: ids, bs => do
    let (v, bs) ← rec id bs
    let (vs, bs) ← readTuple ids bs
    pure (v :: vs, bs)

/-- `src/value/decode.rs:237-240`: reading the fields of a struct into an `IndexMap`. -/
def readFields : List (Name × SemId) → List (Name × Val) → Bytes → Out DErr (RdPair (List (Name × Val)))
  | [], acc, bs => .ok (acc, bs)
  | (n, id) :: req, acc, bs => do
    let (v, bs) ← rec id bs
    readFields req (imInsert acc n v) bs

/-- `src/value/decode.rs:85-97` with the length prefix of lines 297-357. -/
def readSeq (E : Env) (id : SemId) (width : Nat) (bs : Bytes) : Out DErr (RdPair (List Val)) := do
  let (len, bs) ← readLe width bs
  withCapacity E.valSize len
  readItems rec id len bs

/-- `src/value/decode.rs:99-113` with the length prefix of lines 358-387. -/
def readMapSeq (E : Env) (kid id : SemId) (width : Nat) (bs : Bytes) : Out DErr (RdPair (List (Val × Val))) := do
  let (len, bs) ← readLe width bs
  withCapacity (2 * E.valSize) len
  readPairs rec kid id len bs

/-- `src/value/decode.rs:166-188,261-326`: reading a list. `spec` is the id of the list type itself,
used in the error of line 169. -/
def readList (E : Env) (spec id : SemId) (sz : Sizing) (bs : Bytes) : Out DErr (RdPair Val) :=
  match E.find id with
  | none => .err (.typeAbsent spec)
  | some t =>
    if t.isCharEnum then readAscii sz.byteSize bs
    else if id.isByte E.H ∧ sz.max.toNat ≤ 0xffffffff then readBlob sz.byteSize bs
    else if id.isUnicodeChar E.H ∧ sz.max.toNat ≤ 0xffffffff then readString sz.byteSize bs
    else do
      let (l, bs) ← readSeq rec E id sz.byteSize bs
      pure (.list l, bs)

/-- `UnknownType` converted into a decoding error. -/
def ofUnknown {α : Type} (o : Out SemId α) : Out DErr α := o.mapErr .unknownType

/-- `src/value/decode.rs:190-208,225-233`: reading a tuple or a restricted string. -/
def readTupleTy (E : Env) (ids : List SemId) (bs : Bytes) : Out DErr (RdPair Val) := do
  if ← ofUnknown (E.isRString ids) then
    match ← ofUnknown (E.rstringSizing ids) with
    | some (_, sz) => readAscii sz.byteSize bs
    | none => .panic
  else
    let (l, bs) ← readTuple rec ids bs
    pure (.tuple l, bs)

/-- `src/value/decode.rs:134-388`: one layer of `strict_read_type`. -/
def readTy (E : Env) (spec : SemId) (t : Ty SemId) (bs : Bytes) : Out DErr (RdPair Val) :=
  match t with
  | .primitive p => readPrim p bs
  | .unicodeChar => .panic
  | .list id sz => readList rec E spec id sz bs
  | .tuple ids => readTupleTy rec E ids bs
  | .enum vs => do
    let (t, bs) ← readLe 1 bs
    match Ty.enumNameByTag vs (BitVec.ofNat 8 t) with
    | none => .err .enumTag
    | some n => pure (.enum (.name n), bs)
  | .union vs => do
    let (t, bs) ← readLe 1 bs
    match Ty.unionByTag vs (BitVec.ofNat 8 t) with
    | none => .err .enumTag
    | some p => do
      let (v, bs) ← rec p.2 bs
      pure (.union (.name p.1.name) v, bs)
  | .struct req => do
    let (fs, bs) ← readFields rec req [] bs
    pure (.struct fs, bs)
  | .array id len =>
    if id.isByte E.H then do
      let (b, bs) ← readRaw len.toNat bs
      pure (.bytes b, bs)
    else do
      let (l, bs) ← readItems rec id len.toNat bs
      pure (.list l, bs)
  | .set id sz => do
    let (l, bs) ← readSeq rec E id sz.byteSize bs
    pure (.set l, bs)
  | .map kid id sz => do
    let (l, bs) ← readMapSeq rec E kid id sz.byteSize bs
    pure (.map l, bs)

end

/-- `src/value/decode.rs:124-394`: `strict_read_type`. -/
def read (E : Env) : Nat → SemId → Bytes → Out DErr (RdPair Val)
  | 0, _, _ => .diverge
  | fuel + 1, id, bs =>
    match E.find id with
    | none => .err (.typeAbsent id)
    | some t => readTy (read E fuel) E id t bs

/-- `src/value/decode.rs:115-122`: `strict_deserialize_type`. -/
def deserialize (E : Env) (fuel : Nat) (id : SemId) (bs : Bytes) : Out DErr Val := do
  let (v, rest) ← read E fuel id bs
  if rest.length ≠ 0 then .err .notEntirelyConsumed else pure v

end Verif
