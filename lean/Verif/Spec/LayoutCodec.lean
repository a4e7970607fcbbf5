import Verif.Model.LayoutCodec
import Verif.Spec.TyCodec
import Verif.Spec.Stl

/-! # Files of layouts: conditions and values (C92) -/

namespace Verif

/-- An item a file can hold: the type is well-formed and a byte counts the wrappers. -/
structure TypeInfo.Held (i : TypeInfo) : Prop where
  ty : i.ty.WF
  nested : i.nested.length ≤ 255

/-- A layout a file can hold. -/
structure LayoutHeld (l : List TypeInfo) : Prop where
  items : ∀ i ∈ l, i.Held
  few : l.length < 2 ^ 32

/-- The names of a fully qualified name begin as `TypeName` and `LibName` require. -/
def FqnCased (o : Option TypeFqn) : Prop := ∀ f, o = some f → f.lib.Capital ∧ f.name.Capital

/-- Names of fields and variants begin as `FieldName` and `VariantName` require. -/
def Ty.ItemCase.Small : Ty.ItemCase → Prop
  | .namedField _ n => n.Small
  | .unionVariant _ n => n.Small
  | _ => True

/-- All names inside a nested case are cased. -/
def NestedCase.Cased : NestedCase → Prop
  | .newType f => FqnCased f
  | .asciiStr f => FqnCased f
  | .rStr f g _ => FqnCased f ∧ FqnCased g
  | _ => True

/-- All names inside an item are cased. -/
structure TypeInfo.Cased (i : TypeInfo) : Prop where
  ty : i.ty.Small
  fqn : FqnCased i.fqn
  item : ∀ c, i.item = some c → c.Small
  nested : ∀ n ∈ i.nested, n.Cased

/-- The value of an `Option`. -/
def optVal {α : Type} (f : α → Val) : Option α → Val
  | none => .union (.name n!"none") .unit
  | some a => .union (.name n!"some") (.tuple [f a])

/-- The value of an `ItemCase`. -/
def Ty.ItemCase.val : Ty.ItemCase → Val
  | .unnamedField p => .union (.name n!"unnamedField") (.tuple [natVal p.toNat])
  | .namedField p n => .union (.name n!"namedField") (.tuple [natVal p.toNat, n.val])
  | .unionVariant p n => .union (.name n!"unionVariant") (.tuple [natVal p.toNat, n.val])
  | .arrayItem => .union (.name n!"arrayItem") .unit
  | .listItem => .union (.name n!"listItem") .unit
  | .setItem => .union (.name n!"setItem") .unit
  | .mapKey => .union (.name n!"mapKey") .unit
  | .mapValue => .union (.name n!"mapValue") .unit

/-- The value of a `NestedCase`. -/
def NestedCase.val : NestedCase → Val
  | .newType f => .union (.name n!"newType") (.tuple [optVal TypeFqn.val f])
  | .option => .union (.name n!"option") .unit
  | .byteStr => .union (.name n!"byteStr") .unit
  | .asciiStr f => .union (.name n!"asciiStr") (.tuple [optVal TypeFqn.val f])
  | .uniStr => .union (.name n!"uniStr") .unit
  | .rStr f g s => .union (.name n!"rStr") (.tuple [optVal TypeFqn.val f, optVal TypeFqn.val g, s.val])

/-- The value of a `TypeInfo`. -/
def TypeInfo.val (i : TypeInfo) : Val := .struct [(n!"depth", natVal i.depth.toNat), (n!"ty", i.ty.val Id32.val),
  (n!"fqn", optVal TypeFqn.val i.fqn), (n!"item", optVal Ty.ItemCase.val i.item),
  (n!"nested", .list (i.nested.map NestedCase.val))]

/-- The value of a `MemoryLayout`. -/
def layoutVal (l : List TypeInfo) : Val := .struct [(n!"items", .list (l.map TypeInfo.val))]

end Verif
