import Verif.Model.Val
import Verif.Model.Refs

/-!
# Small functions on types, variants and values
-/

namespace Verif

/-- `src/typelib/type_lib.rs:220-222`: `Hash for Dependency`: what is fed into the hasher. -/
def Dependency.hashed (d : Dependency) : LibId := d.id

/-- `src/ast/ty.rs:198-206`: `Ty::is_char_enum` for the references of the transpiler
(`src/typelib/symbolic.rs:128-133`), which have types inside. Only the first field of a tuple is looked at. -/
def TranspileRef.isCharEnum : Ty TranspileRef → Bool
  | .tuple (.embedded t :: _) => TranspileRef.isCharEnum t
  | .enum vs => vs.all fun v => 32 ≤ v.tag.toNat && v.tag.toNat ≤ 127
  | _ => false

/-- `src/ast/ty.rs:555`: `UnionVariants::unwrap_first`. -/
def unwrapFirst {Ref : Type} (vs : List (Variant × Ref)) : Out Unit Variant := .expect (vs.head?.map Prod.fst)

/-- `src/ast/ty.rs:556`: `UnionVariants::unwrap_last`. -/
def unwrapLast {Ref : Type} (vs : List (Variant × Ref)) : Out Unit Variant := .expect (vs.getLast?.map Prod.fst)

/-- `src/ast/ty.rs:586-588`: `UnionVariants::name_by_pos`. -/
def unionNameByPos {Ref : Type} (vs : List (Variant × Ref)) (pos : Byte) : Option Name :=
  (vs[pos.toNat]?).map fun v => v.1.name

/-- `src/value/val.rs:518-535`: `StrictVal::unwrap_enum`. The Rust enum is given by its variants; its
`from_variant_name` and `TryFrom<u8>` (derived, external) look a variant up by name and by tag. -/
def Val.unwrapEnum (vs : List Variant) (v : Val) : Out Unit Variant := do
  match ← v.unwrapEnumTag with
  | .name n => .expect (vs.find? fun x => x.name == n)
  | .ord t => .expect (vs.find? fun x => x.tag == t)

/-- `src/value/val.rs:565-572`: `From<Option<T>> for StrictVal`, `f` being the conversion of `T`. -/
def Val.ofOption {T : Type} (f : T → Val) : Option T → Val
  | .none => Val.none
  | .some x => Val.some (f x)

end Verif
