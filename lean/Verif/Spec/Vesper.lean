import Verif.Model.Vesper
import Verif.Spec.Tree

/-!
# Specification of the text of layouts
-/

namespace Verif

/-- The texts of the primitive types with codes in `P` are words, differ, and are none of the words used for
other labels. -/
structure Glyphs.Words (G : Glyphs) (P : Byte → Prop) : Prop where
  word : ∀ p, P p → G.prim p ≠ [] ∧ ∀ c ∈ G.prim p, isAlphaNumLodash c = true
  inj : ∀ p q, P p → P q → G.prim p = G.prim q → p = q
  apart : ∀ p, P p → G.prim p ≠ b!"Unit" ∧ G.prim p ≠ b!"option" ∧ G.prim p ≠ b!"wrapped"

/-- Labels which are told from the others by their text: type names are none of the words used for other labels,
and no value of an enumeration is called `tag` or `len`. -/
def Attr.Clear (G : Glyphs) (P : Byte → Prop) : Attr → Prop
  | .typeName n => n ≠ n!"Unit" ∧ n ≠ n!"option" ∧ n ≠ n!"wrapped" ∧ ∀ p, P p → n.bytes ≠ G.prim p
  | .prim p => P p
  | .enumVariant _ n => n ≠ n!"tag" ∧ n ≠ n!"len"
  | _ => True

/-- All labels in an expression are told from others, and there are no comments. -/
def VExpr.Clear (G : Glyphs) (P : Byte → Prop) (e : VExpr) : Prop :=
  ∀ h ∈ e.heads, h.comment = none ∧ ∀ a ∈ h.attributes, a.Clear G P

/-- The labels of an item are told from others: the type name is none of the words used for other labels, no
value is called `tag` or `len`, and primitive types have codes in `P`. -/
structure TypeInfo.Clear (G : Glyphs) (P : Byte → Prop) (i : TypeInfo) : Prop where
  named : ∀ f, i.fqn = some f → Attr.Clear G P (.typeName f.name)
  values : ∀ vs, i.ty = .enum vs → ∀ v ∈ vs, v.name ≠ n!"tag" ∧ v.name ≠ n!"len"
  prim : ∀ p, i.ty = .primitive p → p = Ty.UNIT_CODE ∨ P p

/-- The values of an enumeration. -/
def Ty.values : Ty SemId → List Variant
  | .enum vs => vs
  | _ => []

/-- The code of a primitive type. -/
def Ty.code : Ty SemId → Option Byte
  | .primitive p => some p
  | _ => none

/-- The length of an array. -/
def Ty.arrayLen : Ty SemId → Option (BitVec 16)
  | .array _ n => some n
  | _ => none

/-- The bounds of a collection. -/
def Ty.bounds : Ty SemId → Option Sizing
  | .list _ sz => some sz
  | .set _ sz => some sz
  | .map _ _ sz => some sz
  | _ => none

/-- The variant tag shown for an item. -/
def TypeInfo.tag? (i : TypeInfo) : Option Byte :=
  match i.item with
  | some (.unionVariant t _) => some t
  | _ => none

/-- What the text of an upper bound means: `MAX8` is the largest number of eight bits, and so on, and all else is
a decimal number. -/
inductive BoundText : Bytes → Nat → Prop
  | number {n : Nat} (h : ∀ k ∈ [8, 16, 24, 32, 64], n + 1 ≠ 2 ^ k) : BoundText (decimal n) n
  | named {n k : Nat} (hk : k ∈ [8, 16, 24, 32, 64]) (h : n + 1 = 2 ^ k) : BoundText (b!"MAX" ++ decimal k) n

end Verif
