import Verif.Model.PathCodec
import Verif.Spec.TyCodec
import Verif.Spec.LayoutCodec

/-! # Specification of the binary form of paths and versions -/

namespace Verif

/-- A binary form is faithful for the objects satisfying `P`: they are read back whatever follows; only they are read, and
only from their own bytes; reading looks at nothing else and always returns. -/
structure Faithful {α : Type} (enc : α → Bytes) (dec : Bytes → Out CErr (α × Bytes)) (P : α → Prop) : Prop where
  reads : ∀ a, P a → ReadsBack enc dec a
  canonical : Canonical enc dec
  only : ∀ bs a rest, dec bs = .ok (a, rest) → P a
  consumed : PrefixOnly dec
  returns : ∀ k, ReturnsBelow k dec

/-- The limits of the types `TinyBlob` and `TinyString`, which is UTF-8. -/
def KeyStep.Held : KeyStep → Prop
  | .number _ => True
  | .blob b => b.length ≤ 255
  | .string s => s.length ≤ 255 ∧ utf8Valid s = true

/-- The limits of the parts. -/
def VStep.Held : VStep → Prop
  | .key k => k.Held
  | _ => True

/-- The limits of the parts and of `SmallVec`. -/
def VPathHeld (p : List VStep) : Prop := p.length ≤ 65535 ∧ ∀ s ∈ p, s.Held

/-! ## Paths as values -/

namespace Stl

/-- `src/value/path.rs:36-49`: the type `KeyStep` (`derive(StrictType)`, tags by order). -/
def keyStep : RTy := union n!"KeyStep" 0 [(n!"number", 0, payload [.prim 16]),
  (n!"tinyBlob", 1, payload [.list u8 ⟨0, 255⟩]), (n!"tinyString", 2, payload [.unicode ⟨0, 255⟩])]

/-- `src/value/path.rs:93-111`: the type `Step` of value paths. -/
def vstep : RTy := union n!"Step" 1 [(n!"namedField", 0, payload [fieldName]), (n!"unnamedField", 1, payload [u8]),
  (n!"index", 2, payload [u32]), (n!"key", 3, payload [keyStep])]

/-- `src/value/path.rs:113-119`: the type `Path` of value paths. -/
def vpath : RTy := newtype n!"Path" (.list vstep ⟨0, 65535⟩)

/-- `src/ast/path.rs:33-64`: the type `Step` of type paths. -/
def tstep : RTy := union n!"Step" 3 [(n!"namedField", 0, payload [fieldName]), (n!"unnamedField", 1, payload [u8]),
  (n!"variant", 2, payload [variantName]), (n!"index", 3, payload []), (n!"list", 4, payload []),
  (n!"set", 5, payload []), (n!"mapKey", 6, payload []), (n!"mapValue", 7, payload [])]

end Stl

/-- The value of a `KeyStep`; numbers of 128 bits are no values of `Spec/Reflect`. -/
def KeyStep.val : KeyStep → Val
  | .number _ => .unit
  | .blob b => .union (.name n!"tinyBlob") (.tuple [.bytes b])
  | .string s => .union (.name n!"tinyString") (.tuple [.str s])

/-- The value of a `Step` of a value path. -/
def VStep.val : VStep → Val
  | .namedField n => .union (.name n!"namedField") (.tuple [n.val])
  | .unnamedField i => .union (.name n!"unnamedField") (.tuple [natVal i.toNat])
  | .index i => .union (.name n!"index") (.tuple [natVal i.toNat])
  | .key k => .union (.name n!"key") (.tuple [k.val])

/-- The value of a `Step` of a type path. -/
def Ty.Step.val : Ty.Step → Val
  | .namedField n => .union (.name n!"namedField") (.tuple [n.val])
  | .unnamedField i => .union (.name n!"unnamedField") (.tuple [natVal i.toNat])
  | .variant n => .union (.name n!"variant") (.tuple [n.val])
  | .index => .union (.name n!"index") .unit
  | .list => .union (.name n!"list") .unit
  | .set => .union (.name n!"set") .unit
  | .mapKey => .union (.name n!"mapKey") .unit
  | .mapValue => .union (.name n!"mapValue") .unit

/-- No key is a number, and names of fields begin as `FieldName` requires. -/
def VStep.Described : VStep → Prop
  | .namedField n => n.Small
  | .key (.number _) => False
  | _ => True

/-- Names begin as `FieldName` and `VariantName` require. -/
def Ty.Step.Small : Ty.Step → Prop
  | .namedField n => n.Small
  | .variant n => n.Small
  | _ => True

/-- The limits of `TinyVec`. -/
def SemVer.Held (v : SemVer) : Prop := v.pre.length ≤ 255 ∧ v.build.length ≤ 255

end Verif
