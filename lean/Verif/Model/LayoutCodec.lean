import Verif.Model.Tree
import Verif.Model.TyCodec

/-!
# Binary form of layouts

The strict encoding of `MemoryLayout` as produced by the derives, in the style of `Model/TyCodec`.
-/

namespace Verif

/-- `src/ast/ty.rs:291-310`: writing `ItemCase` (custom tags). -/
def Ty.ItemCase.encode : Ty.ItemCase → Bytes
  | .unnamedField pos => [0x00, pos]
  | .namedField pos name => 0x01 :: pos :: encName name
  | .unionVariant pos name => 0x02 :: pos :: encName name
  | .arrayItem => [0x10]
  | .listItem => [0x11]
  | .setItem => [0x12]
  | .mapKey => [0x13]
  | .mapValue => [0x14]

/-- `src/ast/ty.rs:291-310`: reading `ItemCase`. -/
def decItemCase (bs : Bytes) : Out CErr (Ty.ItemCase × Bytes) := do
  let (tag, bs) ← decByte bs
  match tag.toNat with
  | 0x00 => do
    let (pos, bs) ← decByte bs
    pure (.unnamedField pos, bs)
  | 0x01 => do
    let (pos, bs) ← decByte bs
    let (name, bs) ← decName bs
    pure (.namedField pos name, bs)
  | 0x02 => do
    let (pos, bs) ← decByte bs
    let (name, bs) ← decName bs
    pure (.unionVariant pos name, bs)
  | 0x10 => pure (.arrayItem, bs)
  | 0x11 => pure (.listItem, bs)
  | 0x12 => pure (.setItem, bs)
  | 0x13 => pure (.mapKey, bs)
  | 0x14 => pure (.mapValue, bs)
  | _ => .err .tag

/-- `src/typesys/iter.rs:87-108`: writing `NestedCase` (custom tags). -/
def NestedCase.encode : NestedCase → Bytes
  | .newType fqn => 0x00 :: encOption encFqn fqn
  | .option => [0x01]
  | .byteStr => [0x10]
  | .asciiStr fqn => 0x11 :: encOption encFqn fqn
  | .uniStr => [0x12]
  | .rStr first rest sizing => 0x13 :: (encOption encFqn first ++ encOption encFqn rest ++ encSizing sizing)

/-- `src/typesys/iter.rs:87-108`: reading `NestedCase`. -/
def decNestedCase (bs : Bytes) : Out CErr (NestedCase × Bytes) := do
  let (tag, bs) ← decByte bs
  match tag.toNat with
  | 0x00 => do
    let (fqn, bs) ← decOption decFqn bs
    pure (.newType fqn, bs)
  | 0x01 => pure (.option, bs)
  | 0x10 => pure (.byteStr, bs)
  | 0x11 => do
    let (fqn, bs) ← decOption decFqn bs
    pure (.asciiStr fqn, bs)
  | 0x12 => pure (.uniStr, bs)
  | 0x13 => do
    let (first, bs) ← decOption decFqn bs
    let (rest, bs) ← decOption decFqn bs
    let (sizing, bs) ← decSizing bs
    pure (.rStr first rest sizing, bs)
  | _ => .err .tag

/-- `src/typesys/iter.rs:117-127`: writing `TypeInfo` (`u32`, `TinyVec<NestedCase>`). -/
def TypeInfo.encode (i : TypeInfo) : Bytes :=
  le 4 i.depth.toNat ++ i.ty.encode encId ++ encOption encFqn i.fqn ++ encOption Ty.ItemCase.encode i.item ++
    encSeq 1 NestedCase.encode i.nested

/-- `src/typesys/iter.rs:117-127`: reading `TypeInfo`. -/
def decTypeInfo (bs : Bytes) : Out CErr (TypeInfo × Bytes) := do
  let (depth, bs) ← decNat 4 bs
  let (ty, bs) ← decTy decId bs
  let (fqn, bs) ← decOption decFqn bs
  let (item, bs) ← decOption decItemCase bs
  let (nested, bs) ← decVec 1 0 decNestedCase bs
  pure (⟨BitVec.ofNat 32 depth, ty, fqn, item, nested⟩, bs)

/-- `src/layout/memory.rs:31-36`: writing `MemoryLayout` (`LargeVec<TypeInfo>`). -/
def encLayout (items : List TypeInfo) : Bytes := encSeq 4 TypeInfo.encode items

/-- `src/layout/memory.rs:31-36`: reading `MemoryLayout`. -/
def decLayout (bs : Bytes) : Out CErr (List TypeInfo × Bytes) := decVec 4 0 decTypeInfo bs

end Verif
