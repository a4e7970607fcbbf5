import Verif.Model.Codec
import Verif.Model.Text
import Verif.Model.Tree

/-!
# Using types by their names

The functions of `SymbolicSys` which take a `TypeSpec`.
-/

namespace Verif

/-- `src/value/typify.rs:38-48`: `TypeSpec::from(&'static str)`, by way of `TypeFqn`. -/
def TypeSpec.ofText (s : Bytes) : Out Unit TypeSpec := do
  let f ← TypeFqn.fromStr s
  pure (.fqn f)

/-- `src/value/typify.rs:50-55`: `TypedVal`. -/
structure TypedVal where
  orig : TypeSymbol
  val : Val

/-- `src/value/typify.rs:443-446`, `src/value/decode.rs:390-393`: what `TypeSystem::typify` and
`TypeSystem::strict_read_type` return for a value and the id given to them. -/
def TypedVal.unnamed (id : SemId) (v : Val) : TypedVal := ⟨⟨id, none⟩, v⟩

/-- Errors of the functions below: `TypeAbsent` (`src/value/typify.rs:66-67`, `src/value/decode.rs:46-47`)
with the specification given by the caller, or an error of the function called with the id. In the code
both are of the same type. -/
inductive SpecErr (ε : Type) where
  | typeAbsent (spec : TypeSpec)
  | inner (e : ε)
deriving DecidableEq, Repr

/-- `src/typesys/symbols.rs:112`: `SymbolicSys::as_types`, as the type system of an environment. -/
def SymbolicSys.env (S : SymbolicSys) (E : Env) : Env := { E with sys := S.types }

/-- `src/value/typify.rs:129-135`: `SymbolicSys::typify`. -/
def SymbolicSys.typify (S : SymbolicSys) (E : Env) (fuel : Nat) (v : Val) (spec : TypeSpec) :
    Out (SpecErr TErr) TypedVal :=
  match S.toSemId spec with
  | none => .err (.typeAbsent spec)
  | some id => do
    let w ← (Verif.typify (S.env E) fuel v id).mapErr .inner
    pure (.unnamed id w)

/-- `src/value/decode.rs:73-81`: `SymbolicSys::strict_read_type`. -/
def SymbolicSys.read (S : SymbolicSys) (E : Env) (fuel : Nat) (spec : TypeSpec) (bs : Bytes) :
    Out (SpecErr DErr) (TypedVal × Bytes) :=
  match S.toSemId spec with
  | none => .err (.typeAbsent spec)
  | some id => do
    let (v, rest) ← (Verif.read (S.env E) fuel id bs).mapErr .inner
    pure (.unnamed id v, rest)

/-- `src/value/decode.rs:63-71`: `SymbolicSys::strict_deserialize_type`. -/
def SymbolicSys.deserialize (S : SymbolicSys) (E : Env) (fuel : Nat) (spec : TypeSpec) (bs : Bytes) :
    Out (SpecErr DErr) TypedVal :=
  match S.toSemId spec with
  | none => .err (.typeAbsent spec)
  | some id => do
    let v ← (Verif.deserialize (S.env E) fuel id bs).mapErr .inner
    pure (.unnamed id v)

/-- `src/value/encode.rs:55-62`: `strict_serialize_value` of a typed value. -/
def TypedVal.serialize (E : Env) (fuel maxLen : Nat) (t : TypedVal) : Out SErr Bytes :=
  Verif.serialize E fuel maxLen t.val t.orig.id

/-- `src/typesys/symbols.rs:151-155`: `SymbolicSys::type_tree`; the tree is given by its root. -/
def SymbolicSys.typeTree (S : SymbolicSys) (spec : TypeSpec) : Option SemId := do
  let id ← S.toSemId spec
  let _ ← S.types.get id
  pure id

end Verif
