import Verif.Model.Tree
import Verif.Spec.Reach
import Verif.Spec.Ast
import Verif.Spec.Value

/-!
# The tree of types below a type
-/

namespace Verif

/-- An outline: an item with the items below it. -/
inductive LTree where
  | node (info : TypeInfo) (children : List LTree)

mutual
/-- The items of an outline, parents before children, in order. -/
def LTree.items : LTree → List TypeInfo
  | .node i cs => i :: LTree.itemsOf cs
/-- The items of a sequence of outlines. -/
def LTree.itemsOf : List LTree → List TypeInfo
  | [] => []
  | c :: cs => c.items ++ LTree.itemsOf cs
end

/-- The direct references of a type with the place each takes. Fields of tuples have no place
(`src/ast/ty.rs:329` compares with the number of fields). Variants are counted by position. -/
def Ty.places : Ty SemId → List (SemId × Option Ty.ItemCase)
  | .primitive _ => []
  | .unicodeChar => []
  | .enum _ => []
  | .union vs =>
    (numbered 0 vs).map fun p => (p.2.2, some (.unionVariant (BitVec.ofNat 8 p.1) p.2.1.name))
  | .struct fs =>
    (numbered 0 fs).map fun p => (p.2.2, some (.namedField (BitVec.ofNat 8 p.1) p.2.1))
  | .tuple fs => fs.map fun r => (r, none)
  | .array t _ => [(t, some .arrayItem)]
  | .list t _ => [(t, some .listItem)]
  | .set t _ => [(t, some .setItem)]
  | .map k t _ => [(k, some .mapKey), (t, some .mapValue)]

/-- Types shown as one string: lists of characters or bytes, and pairs of a first character and a
list of further characters. -/
inductive ShownAs (S : SymbolicSys) : Ty SemId → NestedCase → Prop
  | ascii {r : SemId} {sz : Sizing} {C : List Variant} :
    S.types.get r = some (.enum C) → CharVariants C →
    ShownAs S (.list r sz) (.asciiStr (S.lookup r))
  | bytes {r : SemId} {sz : Sizing} {c : Byte} :
    S.types.get r = some (.primitive c) → c = Ty.BYTE_CODE ∨ c = Ty.U8_CODE →
    ShownAs S (.list r sz) .byteStr
  | unicode {r : SemId} {sz : Sizing} :
    S.types.get r = some .unicodeChar → ShownAs S (.list r sz) .uniStr
  | rstring {a b r : SemId} {sz : Sizing} {A C : List Variant} :
    S.types.get a = some (.enum A) → CharVariants A → S.types.get b = some (.list r sz) →
    S.types.get r = some (.enum C) → CharVariants C →
    ShownAs S (.tuple [a, b]) (.rStr (S.lookup a) (S.lookup r) ⟨sz.min + 1, sz.max + 1⟩)

/-- The id is that of the byte or of the unsigned 8-bit type. -/
def ByteId (H : Hash) (r : SemId) : Prop :=
  r = Ty.semIdUnnamed H SemId.commit Ty.BYTE ∨ r = Ty.semIdUnnamed H SemId.commit Ty.U8

/-- One level of `Shape`: how the type `id` at depth `d`, in place `item`, below the wrappers
`nested`, is outlined; `R` outlines the types it refers to. -/
inductive ShapeOf (H : Hash) (S : SymbolicSys)
    (R : SemId → Nat → Option Ty.ItemCase → List NestedCase → LTree → Prop) :
    SemId → Nat → Option Ty.ItemCase → List NestedCase → LTree → Prop
  /-- A wrapper is not an item of its own; the wrapped type takes its place. -/
  | wrapper {id r : SemId} {d : Nat} {item : Option Ty.ItemCase} {nested : List NestedCase}
    {T : LTree} :
    S.types.get id = some (.tuple [r]) → R r d item (nested ++ [.newType (S.lookup id)]) T →
    ShapeOf H S R id d item nested T
  /-- Nor is an optional type, but what it holds is placed one level deeper as its variant. -/
  | optional {id r : SemId} {d : Nat} {item : Option Ty.ItemCase} {nested : List NestedCase}
    {t : Ty SemId} {T : LTree} :
    S.types.get id = some t → t.asSome = some r →
    R r (d + 1) (some (.unionVariant 1 Ty.someName)) (nested ++ [.option]) T →
    ShapeOf H S R id d item nested T
  /-- Strings have nothing below. -/
  | text {id : SemId} {d : Nat} {item : Option Ty.ItemCase} {nested : List NestedCase}
    {t : Ty SemId} {n : NestedCase} :
    S.types.get id = some t → ShownAs S t n →
    ShapeOf H S R id d item nested (.node ⟨BitVec.ofNat 32 d, t, S.lookup id, item, nested ++ [n]⟩ [])
  /-- Nor have arrays of bytes. -/
  | bytes {id r : SemId} {d : Nat} {item : Option Ty.ItemCase} {nested : List NestedCase}
    {len : BitVec 16} :
    S.types.get id = some (.array r len) → ByteId H r →
    ShapeOf H S R id d item nested
      (.node ⟨BitVec.ofNat 32 d, .array r len, S.lookup id, item, nested⟩ [])
  /-- Below any other type are the types it refers to. -/
  | plain {id : SemId} {d : Nat} {item : Option Ty.ItemCase} {nested : List NestedCase}
    {t : Ty SemId} {cs : List LTree} :
    S.types.get id = some t → t.asSome = none → (∀ r, t ≠ .tuple [r]) → (∀ n, ¬ ShownAs S t n) →
    (∀ r len, t = .array r len → ¬ ByteId H r) →
    All2 (fun p c => R p.1 (d + 1) p.2 [] c) t.places cs →
    ShapeOf H S R id d item nested (.node ⟨BitVec.ofNat 32 d, t, S.lookup id, item, nested⟩ cs)

/-- Outlines of at most `n` levels of types. -/
def ShapeN (H : Hash) (S : SymbolicSys) :
    Nat → SemId → Nat → Option Ty.ItemCase → List NestedCase → LTree → Prop
  | 0 => fun _ _ _ _ _ => False
  | n + 1 => ShapeOf H S (ShapeN H S n)

/-- `T` is the outline of the type `id`. -/
def Outline (H : Hash) (S : SymbolicSys) (id : SemId) (T : LTree) : Prop :=
  ∃ n, ShapeN H S n id 0 none [] T

/-- Type systems whose types have finite outlines: no type is missing, types respect the limits of
their containers, no type contains itself (`rank` decreases), and at most 255 wrappers and options
directly contain each other (`wraps` counts them). In builds with overflow checks, no type has the
maximal number of 255 references, no outline is deeper than a 32-bit number can tell and the length
limits of restricted strings can be increased. -/
structure SymbolicSys.Outlined (debug : Bool) (S : SymbolicSys) (rank wraps : SemId → Nat) : Prop where
  closed : S.types.Closed
  iterable : S.types.Iterable debug
  ranked : ∀ id t, S.types.get id = some t → ∀ r ∈ t.refs, rank r < rank id
  deep : ∀ id, rank id < 2 ^ 32 - 1
  wrapped : ∀ id t, S.types.get id = some t → ∀ r, t = .tuple [r] ∨ t.asSome = some r →
    wraps r < wraps id
  few : ∀ id, wraps id < 255
  strings : debug = true → ∀ id r sz, S.types.get id = some (.list r sz) →
    sz.min.toNat < 2 ^ 64 - 1 ∧ sz.max.toNat < 2 ^ 64 - 1

mutual
/-- The expression that mirrors an outline: one node for each item, with the nodes of the items
below it below it. -/
def LTree.mirror (head : TypeInfo → VHead) : LTree → VExpr
  | .node i cs => .node (head i) (LTree.mirrors head cs)
/-- The expressions that mirror a sequence of outlines. -/
def LTree.mirrors (head : TypeInfo → VHead) : List LTree → List VExpr
  | [] => []
  | c :: cs => c.mirror head :: LTree.mirrors head cs
end

mutual
/-- The heads of an expression, parents before children, in order. -/
def VExpr.heads : VExpr → List VHead
  | .node h cs => h :: VExpr.headsOf cs
/-- The heads of a sequence of expressions. -/
def VExpr.headsOf : List VExpr → List VHead
  | [] => []
  | c :: cs => c.heads ++ VExpr.headsOf cs
end

/-- A part of an outline: an item anywhere in it with all that is below. -/
inductive LTree.Within : LTree → LTree → Prop
  | refl (T : LTree) : Within T T
  | down {T c : LTree} {i : TypeInfo} {cs : List LTree} : c ∈ cs → Within T c → Within T (.node i cs)

/-- The topmost item. -/
def LTree.top : LTree → TypeInfo
  | .node i _ => i

/-- The items directly below the topmost one. -/
def LTree.kids : LTree → List LTree
  | .node _ cs => cs

/-- No optional type occurs in the type or anywhere below it. -/
def SymbolicSys.OptionFree (S : SymbolicSys) (id : SemId) : Prop :=
  ∀ r t, Reach S.types (· = id) r → S.types.get r = some t → t.asSome = none

/-- The type is optional, possibly wrapped. -/
inductive SymbolicSys.IsOptional (S : SymbolicSys) : SemId → Prop
  | here {id r : SemId} {t : Ty SemId} : S.types.get id = some t → t.asSome = some r → IsOptional S id
  | wrapped {id r : SemId} : S.types.get id = some (.tuple [r]) → IsOptional S r → IsOptional S id

/-- The number of values of an enumeration, none for other types. -/
def Ty.enumSize : Ty SemId → Nat
  | .enum vs => vs.length
  | _ => 0

/-- The labels an item carries fit into `m` places: at most three for each wrapper, one for each
value of an enumeration and three more. -/
def TypeInfo.Labelled (m : Nat) (i : TypeInfo) : Prop :=
  i.ty.enumSize + 3 * i.nested.length + 3 ≤ m

end Verif
