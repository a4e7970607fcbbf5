import Verif.Model.TyCodec
import Verif.Model.Util
import Verif.Model.Val

/-!
# Binary form of paths and versions

The strict encoding of steps, paths, versions and types with origin as produced by the derives, in the style of
`Model/TyCodec`.
-/

namespace Verif

/-! ## Elements -/

/-- Writing `TinyBlob` (`src/value/path.rs:45`): length byte and contents. -/
def encBlob (b : Bytes) : Bytes := le 1 b.length ++ b

/-- Reading `TinyBlob`. -/
def decBlob (bs : Bytes) : Out CErr (Bytes × Bytes) := do
  let (len, bs) ← decNat 1 bs
  decRaw len bs

/-- Reading `TinyString` (`src/value/path.rs:48`; written as `TinyBlob`): text which is not UTF-8 is refused. The kind of
the error stands for any invalid text. -/
def decText (bs : Bytes) : Out CErr (Bytes × Bytes) := do
  let (s, bs) ← decBlob bs
  if utf8Valid s then pure (s, bs) else .err .name

/-! ## Paths -/

/-- `src/value/path.rs:36-49`: writing `KeyStep` (tags by order). -/
def KeyStep.encode : KeyStep → Bytes
  | .number n => 0 :: le 16 n.toNat
  | .blob b => 1 :: encBlob b
  | .string s => 2 :: encBlob s

/-- `src/value/path.rs:36-49`: reading `KeyStep`. -/
def decKeyStep (bs : Bytes) : Out CErr (KeyStep × Bytes) := do
  let (tag, bs) ← decByte bs
  match tag.toNat with
  | 0 => do
    let (n, bs) ← decNat 16 bs
    pure (.number (BitVec.ofNat 128 n), bs)
  | 1 => do
    let (b, bs) ← decBlob bs
    pure (.blob b, bs)
  | 2 => do
    let (s, bs) ← decText bs
    pure (.string s, bs)
  | _ => .err .tag

/-- `src/value/path.rs:93-111`: writing `Step` of a value path (tags by order). -/
def VStep.encode : VStep → Bytes
  | .namedField n => 0 :: encName n
  | .unnamedField i => [1, i]
  | .index i => 2 :: le 4 i.toNat
  | .key k => 3 :: k.encode

/-- `src/value/path.rs:93-111`: reading `Step` of a value path. -/
def decVStep (bs : Bytes) : Out CErr (VStep × Bytes) := do
  let (tag, bs) ← decByte bs
  match tag.toNat with
  | 0 => do
    let (n, bs) ← decName bs
    pure (.namedField n, bs)
  | 1 => do
    let (i, bs) ← decByte bs
    pure (.unnamedField i, bs)
  | 2 => do
    let (i, bs) ← decNat 4 bs
    pure (.index (BitVec.ofNat 32 i), bs)
  | 3 => do
    let (k, bs) ← decKeyStep bs
    pure (.key k, bs)
  | _ => .err .tag

/-- `src/value/path.rs:113-119`: writing `Path` (`SmallVec<Step>`). -/
def encVPath (p : List VStep) : Bytes := encSeq 2 VStep.encode p

/-- `src/value/path.rs:113-119`: reading `Path`. -/
def decVPath (bs : Bytes) : Out CErr (List VStep × Bytes) := decVec 2 0 decVStep bs

/-- `src/ast/path.rs:33-64`: writing `Step` of a type path (tags by order). -/
def Ty.Step.encode : Ty.Step → Bytes
  | .namedField n => 0 :: encName n
  | .unnamedField i => [1, i]
  | .variant n => 2 :: encName n
  | .index => [3]
  | .list => [4]
  | .set => [5]
  | .mapKey => [6]
  | .mapValue => [7]

/-- `src/ast/path.rs:33-64`: reading `Step` of a type path. -/
def decStep (bs : Bytes) : Out CErr (Ty.Step × Bytes) := do
  let (tag, bs) ← decByte bs
  match tag.toNat with
  | 0 => do
    let (n, bs) ← decName bs
    pure (.namedField n, bs)
  | 1 => do
    let (i, bs) ← decByte bs
    pure (.unnamedField i, bs)
  | 2 => do
    let (n, bs) ← decName bs
    pure (.variant n, bs)
  | 3 => pure (.index, bs)
  | 4 => pure (.list, bs)
  | 5 => pure (.set, bs)
  | 6 => pure (.mapKey, bs)
  | 7 => pure (.mapValue, bs)
  | _ => .err .tag

/-! ## Versions -/

/-- `src/util.rs:129-138`: writing `PreFragment` (tags by order). -/
def PreFragment.encode : PreFragment → Bytes
  | .ident n => 0 :: encName n
  | .digits n => 1 :: le 16 n.toNat

/-- `src/util.rs:129-138`: reading `PreFragment`. -/
def decPreFragment (bs : Bytes) : Out CErr (PreFragment × Bytes) := do
  let (tag, bs) ← decByte bs
  match tag.toNat with
  | 0 => do
    let (n, bs) ← decName bs
    pure (.ident n, bs)
  | 1 => do
    let (n, bs) ← decNat 16 bs
    pure (.digits (BitVec.ofNat 128 n), bs)
  | _ => .err .tag

/-- `src/util.rs:140-147`: writing `BuildFragment` (tags by order). -/
def BuildFragment.encode : BuildFragment → Bytes
  | .ident n => 0 :: encName n
  | .digits n => 1 :: encName n

/-- `src/util.rs:140-147`: reading `BuildFragment`. Digits are not checked to be digits. -/
def decBuildFragment (bs : Bytes) : Out CErr (BuildFragment × Bytes) := do
  let (tag, bs) ← decByte bs
  match tag.toNat with
  | 0 => do
    let (n, bs) ← decName bs
    pure (.ident n, bs)
  | 1 => do
    let (n, bs) ← decName bs
    pure (.digits n, bs)
  | _ => .err .tag

/-- `src/util.rs:149-159`: writing `SemVer`. -/
def SemVer.encode (v : SemVer) : Bytes :=
  le 2 v.major.toNat ++ le 2 v.minor.toNat ++ le 2 v.patch.toNat ++ encSeq 1 PreFragment.encode v.pre ++
    encSeq 1 BuildFragment.encode v.build

/-- `src/util.rs:149-159`: reading `SemVer`. -/
def decSemVer (bs : Bytes) : Out CErr (SemVer × Bytes) := do
  let (major, bs) ← decNat 2 bs
  let (minor, bs) ← decNat 2 bs
  let (patch, bs) ← decNat 2 bs
  let (pre, bs) ← decVec 1 0 decPreFragment bs
  let (build, bs) ← decVec 1 0 decBuildFragment bs
  pure (⟨BitVec.ofNat 16 major, BitVec.ofNat 16 minor, BitVec.ofNat 16 patch, pre, build⟩, bs)

/-! ## Types with origin -/

/-- `src/ast/ty.rs:60-73`: writing `Cls` (`into_u8`). -/
def Cls.encode : Cls → Bytes
  | .primitive => [0]
  | .unicode => [1]
  | .asciiStr => [2]
  | .enum => [3]
  | .union => [4]
  | .struct => [5]
  | .tuple => [6]
  | .array => [7]
  | .list => [8]
  | .set => [9]
  | .map => [10]

/-- `src/ast/ty.rs:60-73`: reading `Cls` (`try_from_u8`). -/
def decCls (bs : Bytes) : Out CErr (Cls × Bytes) := do
  let (tag, bs) ← decByte bs
  match tag.toNat with
  | 0 => pure (.primitive, bs)
  | 1 => pure (.unicode, bs)
  | 2 => pure (.asciiStr, bs)
  | 3 => pure (.enum, bs)
  | 4 => pure (.union, bs)
  | 5 => pure (.struct, bs)
  | 6 => pure (.tuple, bs)
  | 7 => pure (.array, bs)
  | 8 => pure (.list, bs)
  | 9 => pure (.set, bs)
  | 10 => pure (.map, bs)
  | _ => .err .tag

/-- `src/typesys/type_sys.rs:74-85`: writing `SymTy`. -/
def SymTy.encode (s : SymTy) : Bytes := encOption encFqn s.orig ++ s.ty.encode encId

/-- `src/typesys/type_sys.rs:74-85`: reading `SymTy`. -/
def decSymTy (bs : Bytes) : Out CErr (SymTy × Bytes) := do
  let (orig, bs) ← decOption decFqn bs
  let (ty, bs) ← decTy decId bs
  pure (⟨orig, ty⟩, bs)

end Verif
