import Verif.Model.Val

/-!
# Checking values against types: `typify`

Every function here is one layer of the recursion, parametrised by the recursive call; the recursion
itself is bounded by fuel, because the code recurses along the type system without a bound.
-/

namespace Verif

/-- What the value functions depend on: the hash (for the ids of the built-in types), the type
system, whether debug assertions and overflow checks are active, the byte size of a primitive by its
code (external `Primitive::byte_size`) and the memory size of a `StrictVal`. -/
structure Env where
  H : Hash
  sys : TypeSystem
  debug : Bool
  primSize : Byte → Nat
  valSize : Nat

/-- `src/value/typify.rs:138-140`: `TypeSystem::find`. -/
def Env.find (E : Env) (id : SemId) : Option (Ty SemId) := E.sys.get id

/-- `src/value/typify.rs:65-113`: `typify::Error` (without the payloads used for display). -/
inductive TErr where
  | typeAbsent (id : SemId)
  | outOfBounds
  | repeatedSetValue
  | repeatedKeyValue
  | fieldNumberMismatch
  | extraField (n : Name)
  | typeMismatch
  | invalidFieldName
  | enumTagInvalid
  | unionTagInvalid
  | mapNotStructure
  | invalidOptional
deriving DecidableEq, Repr

/-- `Sizing::check` (external): length within bounds. -/
def Sizing.check (s : Sizing) (len : Nat) : Bool := s.min.toNat ≤ len && len ≤ s.max.toNat

/-- `src/value/typify.rs:123`. -/
def isSmallUnsigned (p : Byte) : Bool := p.toNat ≤ 16
/-- `src/value/typify.rs:124`. -/
def isLargeUnsigned (p : Byte) : Bool := 16 < p.toNat && p.toNat < 0x40
/-- `src/value/typify.rs:125`. -/
def isSmallSigned (p : Byte) : Bool := 0x40 ≤ p.toNat && p.toNat ≤ 0x4f
/-- `src/value/typify.rs:126`. -/
def isLargeSigned (p : Byte) : Bool := 0x4f < p.toNat && p.toNat < 0x80

/-- `src/value/typify.rs:151-197,436`: primitive types. -/
def typifyPrim (p : Byte) : Val → Out TErr Val
  | .unit => if p = Ty.UNIT_CODE then .ok .unit else .err .typeMismatch
  | .tuple l => if p = Ty.UNIT_CODE ∧ l.isEmpty then .ok .unit else .err .typeMismatch
  | .struct fs => if p = Ty.UNIT_CODE ∧ fs.isEmpty then .ok .unit else .err .typeMismatch
  | .list l => if p = Ty.UNIT_CODE ∧ l.isEmpty then .ok .unit else .err .typeMismatch
  | .map l => if p = Ty.UNIT_CODE ∧ l.isEmpty then .ok .unit else .err .typeMismatch
  | .num (.uint n) =>
    if isSmallUnsigned p then .ok (.num (.uint n))
    else if isSmallSigned p ∧ n.toNat < 2 ^ 63 then .ok (.num (.int n))
    else .err .typeMismatch
  | .num (.bigUint n) =>
    if isLargeUnsigned p then .ok (.num (.bigUint n)) else .err .typeMismatch
  | .num (.int n) => if isSmallSigned p then .ok (.num (.int n)) else .err .typeMismatch
  | .num (.bigInt n) => if isLargeSigned p then .ok (.num (.bigInt n)) else .err .typeMismatch
  | _ => .err .typeMismatch

/-- `src/value/typify.rs:236-240`: unicode characters. -/
def typifyUnicode : Val → Out TErr Val
  | .str s => if s.length = 1 then .ok (.str s) else .err .typeMismatch
  | _ => .err .typeMismatch

/-- `src/value/typify.rs:232-234,304-334`: enums. -/
def typifyEnum (vs : List Variant) : Val → Out TErr Val
  | .str s =>
    if s.length = 1 ∧ Ty.enumHasTag vs (s.headD 0) = true then .ok (.str s)
    else match Name.ofBytes? s with
      | some n => if Ty.enumHasName vs n then .ok (.enum (.name n)) else .err .enumTagInvalid
      | none => .err .typeMismatch
  | .enum (.name n) =>
    match Ty.enumTagByName vs n with
    | some _ => .ok (.enum (.name n))
    | none => .err .enumTagInvalid
  | .enum (.ord t) =>
    match Ty.enumNameByTag vs t with
    | some n => .ok (.enum (.name n))
    | none => .err .enumTagInvalid
  | .num (.uint n) =>
    if n.toNat < 0x100 then
      match Ty.enumNameByTag vs (BitVec.ofNat 8 n.toNat) with
      | some n => .ok (.enum (.name n))
      | none => .err .enumTagInvalid
    else .err .typeMismatch
  | _ => .err .typeMismatch

/-- UTF-8 bytes of `"none"`. -/
def noneStr : Bytes := Ty.noneName.bytes
/-- UTF-8 bytes of `"some"`. -/
def someStr : Bytes := Ty.someName.bytes

section
variable (rec : Val → SemId → Out TErr Val)

/-- `src/value/typify.rs:423-428`: any other value for an optional type is the payload. -/
def typifySome (vs : List (Variant × SemId)) (v : Val) : Out TErr Val := do
  let content ← Out.expect (Ty.unionTyByTag vs 1)
  let inner ← rec v content
  pure (.some inner)

/-- `src/value/typify.rs:335-347,406-428`: unions. -/
def typifyUnion (vs : List (Variant × SemId)) (v : Val) : Out TErr Val :=
  match v with
  | .union tag content =>
    match (match tag with
      | .name n => Ty.unionTyByName vs n
      | .ord t => Ty.unionTyByTag vs t) with
    | some id => do
      let checked ← rec content id
      pure (.union tag checked)
    | none => .err .unionTagInvalid
  | .unit => if (Ty.union vs).isOption then .ok .none else .err .typeMismatch
  | .tuple [a, b] =>
    if (Ty.union vs).isOption then do
      let content ← Out.expect (Ty.unionTyByTag vs 1)
      if a.eqv (.str noneStr) && b.eqv .unit then pure .none
      else if a.eqv (.str someStr) then do
        let inner ← rec b content
        pure (.some inner)
      else .err .invalidOptional
    else .err .typeMismatch
  | v => if (Ty.union vs).isOption then typifySome rec vs v else .err .typeMismatch

/-- `for (item, id) in s.into_iter().zip(fields_req)` of `src/value/typify.rs:372-375`. -/
def typifyZip : List Val → List SemId → Out TErr (List Val)
  | v :: l, id :: ids => do
    let w ← rec v id
    let ws ← typifyZip l ids
    pure (w :: ws)
  | _, _ => .ok []

/-- `src/value/typify.rs:249-259,350-358,370-377,431-434`: tuples. -/
def typifyTuple (ids : List SemId) (v : Val) : Out TErr Val :=
  match v with
  | .str s =>
    if isAscii s ∧ ids.length = 2 then .ok (.str s) else newtype v
  | .tuple l =>
    if l.length ≠ ids.length then .err .fieldNumberMismatch
    else do
      let ws ← typifyZip rec l ids
      pure (.tuple ws)
  | .list l => do
    let ws ← typifyZip rec l ids
    pure (.tuple ws)
  | v => newtype v
where
  /-- `src/value/typify.rs:431-434`. -/
  newtype (v : Val) : Out TErr Val :=
    match ids with
    | [id] => do
      let inner ← rec v id
      pure (.tuple [inner])
    | _ => .err .typeMismatch

/-- `src/value/typify.rs:380-386`: fields of a struct value. -/
def typifyFields (req : List (Name × SemId)) : List (Name × Val) → List (Name × Val) →
    Out TErr (List (Name × Val))
  | [], acc => .ok acc
  | (n, v) :: fs, acc =>
    match Ty.fieldTy req n with
    | none => .err (.extraField n)
    | some id => do
      let w ← rec v id
      typifyFields req fs (imInsert acc n w)

/-- `src/value/typify.rs:391-401`: fields of a struct given as a map. -/
def typifyMapFields (req : List (Name × SemId)) : List (Val × Val) → List (Name × Val) →
    Out TErr (List (Name × Val))
  | [], acc => .ok acc
  | (.str s, v) :: fs, acc =>
    match Name.ofBytes? s with
    | none => .err .invalidFieldName
    | some n =>
      match Ty.fieldTy req n with
      | none => .err (.extraField n)
      | some id => do
        let w ← rec v id
        typifyMapFields req fs (imInsert acc n w)
  | _ :: _, _ => .err .mapNotStructure

/-- `src/value/typify.rs:359-367,378-403`: structs. -/
def typifyStruct (req : List (Name × SemId)) : Val → Out TErr Val
  | .struct fs =>
    if fs.length ≠ req.length then .err .fieldNumberMismatch
    else do
      let new ← typifyFields rec req fs []
      pure (.struct new)
  | .map fs => do
    let new ← typifyMapFields rec req fs []
    pure (.struct new)
  | _ => .err .typeMismatch

/-- `src/value/typify.rs:200-215,242-246`: arrays. -/
def typifyArray (E : Env) (id : SemId) (len : BitVec 16) : Val → Out TErr Val
  | .bytes b =>
    if id.isByte E.H then
      if b.length > len.toNat then .err .outOfBounds else .ok (.bytes b)
    else .err .typeMismatch
  | .str s =>
    if s.length > len.toNat then .err .outOfBounds
    else if isAscii s || id.isUnicodeChar E.H then .ok (.str s)
    else .err .typeMismatch
  | .list l => if l.length > len.toNat then .err .outOfBounds else .ok (.list l)
  | _ => .err .typeMismatch

/-- `src/value/typify.rs:216-226,262-278`: lists. -/
def typifyList (E : Env) (id : SemId) (sz : Sizing) : Val → Out TErr Val
  | .str s =>
    if !sz.check s.length then .err .outOfBounds
    else if id.isUnicodeChar E.H then .ok (.str s)
    else if id.isByte E.H then .ok (.bytes s)
    else if isAscii s then .ok (.str s)
    else .err .typeMismatch
  | .bytes b =>
    if !sz.check b.length then .err .outOfBounds
    else if id.isByte E.H then .ok (.bytes b)
    else .err .typeMismatch
  | .list l =>
    if !sz.check l.length then .err .outOfBounds
    else do
      let ws ← outMap (fun v => rec v id) l
      pure (.list ws)
  | _ => .err .typeMismatch

/-- `src/value/typify.rs:281-287`: items of a set. -/
def typifySetItems (id : SemId) : List Val → List Val → Out TErr (List Val)
  | [], acc => .ok acc
  | v :: l, acc => do
    let w ← rec v id
    if acc.any (fun a => a.eqv w) then .err .repeatedSetValue
    else typifySetItems id l (acc ++ [w])

/-- `src/value/typify.rs:222-226,279-289`: sets. -/
def typifySet (id : SemId) (sz : Sizing) : Val → Out TErr Val
  | .set l =>
    if !sz.check l.length then .err .outOfBounds
    else do
      let ws ← typifySetItems rec id l []
      pure (.set ws)
  | _ => .err .typeMismatch

/-- `src/value/typify.rs:292-299`: entries of a map. -/
def typifyMapItems (kid id : SemId) : List (Val × Val) → List (Val × Val) →
    Out TErr (List (Val × Val))
  | [], acc => .ok acc
  | (k, v) :: l, acc => do
    let k' ← rec k kid
    let v' ← rec v id
    if acc.any (fun a => a.1.eqv k') then .err .repeatedKeyValue
    else typifyMapItems kid id l (acc ++ [(k', v')])

/-- `src/value/typify.rs:227-229,290-301`: maps. -/
def typifyMap (kid id : SemId) (sz : Sizing) : Val → Out TErr Val
  | .map l =>
    if !sz.check l.length then .err .outOfBounds
    else do
      let ws ← typifyMapItems rec kid id l []
      pure (.map ws)
  | _ => .err .typeMismatch

/-- `src/value/typify.rs:149-442`: one layer of `typify`, by class of the type. The arms of the Rust
`match` are regrouped by type; their order within one type is kept. -/
def typifyTy (E : Env) (v : Val) : Ty SemId → Out TErr Val
  | .primitive p => typifyPrim p v
  | .unicodeChar => typifyUnicode v
  | .enum vs => typifyEnum vs v
  | .union vs => typifyUnion rec vs v
  | .tuple ids => typifyTuple rec ids v
  | .struct req => typifyStruct rec req v
  | .array id len => typifyArray E id len v
  | .list id sz => typifyList rec E id sz v
  | .set id sz => typifySet rec id sz v
  | .map kid id sz => typifyMap rec kid id sz v

end

/-- `src/value/typify.rs:144-148`: the type used for an id. -/
def Env.typeOf (E : Env) (id : SemId) : Option (Ty SemId) :=
  if id = SemId.unit E.H then some Ty.UNIT else E.find id

/-- `src/value/typify.rs:142-447`: `TypeSystem::typify` (the returned `TypedVal` is the value; its id
is the argument). -/
def typify (E : Env) : Nat → Val → SemId → Out TErr Val
  | 0, _, _ => .diverge
  | fuel + 1, v, id =>
    match E.typeOf id with
    | none => .err (.typeAbsent id)
    | some t => typifyTy (typify E fuel) E v t

end Verif
