import Verif.Model.Transpile

/-!
# The builders of structs, enums and unions

`StructBuilder` and `UnionBuilder` as state machines, call by call. `RTy.encode` in `Verif/Model/Transpile.lean` says
what the calls derived for a Rust type do altogether; here are the calls themselves. A value passed to a builder is
represented by its Rust type: nothing but the type matters, since the bytes go to a sink.

The writers of `strict_encoding` wrapped by the builders (external) are reduced to what the builders ask of them:
whether a struct is a tuple, the declared variants and the variants defined so far. They are assumed to accept the calls.
-/

namespace Verif

/-- `src/typelib/transpile.rs:42-50`: `BuilderParent`: `compile_type` and `report_compiled`. -/
class BuilderParent (P : Type) where
  compile : Hash → Bool → RTy → P → Out Unit (TranspileRef × P)
  report : Hash → Name → Option Name → Ty TranspileRef → P → Out Unit P

/-- `src/typelib/transpile.rs:232-282`: `BuilderParent for LibBuilder`. -/
instance : BuilderParent Transpiler where
  compile H debug t b := compileType H t.lib t.name (t.encode H debug) b
  report H lib name ty b := b.report H lib name ty

/-! ## Structs and tuples -/

/-- `src/typelib/transpile.rs:284-291`: `StructBuilder`. Of the `StructWriter` (external) there remain the parent and
whether it is a tuple. -/
structure StructBuilder (P : Type) where
  lib : Name
  name : Option Name
  isTuple : Bool
  parent : P
  fields : List (Option Name × TranspileRef)
  cursor : Option Byte

namespace StructBuilder

variable {P : Type} [BuilderParent P]

/-- `src/typelib/transpile.rs:293-306`: `StructBuilder::with`. -/
def «with» (lib : Name) (name : Option Name) (isTuple : Bool) (parent : P) (definer : Bool) : StructBuilder P :=
  ⟨lib, name, isTuple, parent, [], if definer then some 0 else none⟩

/-- `src/typelib/transpile.rs:310-316,397-400,419-422`: `_define_field` and the two functions `define_field`. -/
def defineField (H : Hash) (debug : Bool) (s : StructBuilder P) (name : Option Name) (t : RTy) :
    Out Unit (StructBuilder P) := do
  let (r, p) ← BuilderParent.compile H debug t s.parent
  pure { s with parent := p, fields := s.fields ++ [(name, r)] }

/-- `src/typelib/transpile.rs:318-335,408-411,430-433`: `_write_field` and the two functions `write_field`. -/
def writeField (H : Hash) (debug : Bool) (s : StructBuilder P) (name : Option Name) (t : RTy) :
    Out Unit (StructBuilder P) := do
  let (r, p) ← BuilderParent.compile H debug t s.parent
  match s.cursor with
  | some pos =>
    match s.fields[pos.toNat]? with
    | some (_, expect) =>
      if expect.eqv r then
        if debug && pos = 255 then .panic
        else pure { s with parent := p, fields := s.fields ++ [(name, r)], cursor := some (pos + 1) }
      else .panic
    | none => .panic
  | none => pure { s with parent := p, fields := s.fields ++ [(name, r)] }

/-- `src/typelib/transpile.rs:367-374,402,424`: `_complete_definition`. -/
def completeDefinition (H : Hash) (s : StructBuilder P) : Out Unit P := do
  let ty ← buildStruct s.isTuple s.fields
  BuilderParent.report H s.lib s.name ty s.parent

/-- `src/typelib/transpile.rs:376-391,413,435`: `_complete_write`. -/
def completeWrite (H : Hash) (s : StructBuilder P) : Out Unit P := do
  let ty ← buildStruct s.isTuple s.fields
  match s.cursor with
  | some pos => if pos.toNat = s.fields.length then BuilderParent.report H s.lib s.name ty s.parent else .panic
  | none => BuilderParent.report H s.lib s.name ty s.parent

/-- Fields defined one after the other, as the derived code does. -/
def defineFields (H : Hash) (debug : Bool) : StructBuilder P → List (Option Name × RTy) → Out Unit (StructBuilder P)
  | s, [] => .ok s
  | s, (n, t) :: fs => do
    let s ← s.defineField H debug n t
    s.defineFields H debug fs

/-- Fields written one after the other, as the derived code does. -/
def writeFields (H : Hash) (debug : Bool) : StructBuilder P → List (Option Name × RTy) → Out Unit (StructBuilder P)
  | s, [] => .ok s
  | s, (n, t) :: fs => do
    let s ← s.writeField H debug n t
    s.writeFields H debug fs

end StructBuilder

/-! ## Enums and unions -/

/-- `src/typelib/transpile.rs:439-446`: `UnionBuilder`. Of the `UnionWriter` (external) there remain the variants
declared by the Rust type and those defined so far, which are the keys of a `BTreeMap`. -/
structure UnionBuilder where
  lib : Name
  name : Option Name
  variants : OMap Byte TranspileRef
  parent : Transpiler
  declared : List Variant
  defined : List Variant

namespace UnionBuilder

/-- `src/typelib/transpile.rs:448-456`: `UnionBuilder::with`. -/
def «with» (lib : Name) (name : Option Name) (declared : List Variant) (parent : Transpiler) : UnionBuilder :=
  ⟨lib, name, [], parent, declared, []⟩

/-- `UnionWriter::tag_by_name` (external): panics for variants which are not declared. -/
def tagByName (u : UnionBuilder) (name : Name) : Out Unit Byte :=
  Out.expect ((u.declared.find? fun v => v.name == name).map Variant.tag)

/-- The definition of a variant by the wrapped writer (external). Simplification: as in `sortTags`, the order of
variants is the order of tags. -/
def writerDefine (u : UnionBuilder) (name : Name) : Out Unit UnionBuilder := do
  let tag ← u.tagByName name
  pure { u with defined := insertTag (fun v => v.tag.toNat) ⟨name, tag⟩ u.defined }

/-- `src/typelib/transpile.rs:470-474`: `_define_variant`. -/
def defineLast (u : UnionBuilder) (name : Name) : Out Unit UnionBuilder := do
  let ty ← Out.expect u.parent.last
  let tag ← u.tagByName name
  pure { u with variants := OMap.insert u.variants tag ty }

/-- The references of the variants, in their order (`src/typelib/transpile.rs:477-485`). -/
def payloads (m : OMap Byte TranspileRef) : List Variant → Out Unit (List (Variant × TranspileRef))
  | [] => .ok []
  | v :: vs => do
    let r ← Out.expect (m.get v.tag)
    let rs ← payloads m vs
    pure ((v, r) :: rs)

/-- `src/typelib/transpile.rs:476-489`: `_build_union`. -/
def build (u : UnionBuilder) : Out Unit (Ty TranspileRef) := do
  let vs ← payloads u.variants u.defined
  if 1 ≤ vs.length ∧ vs.length ≤ 255 then .ok (.union vs) else .panic

/-- `src/typelib/transpile.rs:491-496`: `_build_enum`. -/
def buildEnum (u : UnionBuilder) : Out Unit (Ty TranspileRef) :=
  if 1 ≤ u.defined.length ∧ u.defined.length ≤ 255 then .ok (.enum u.defined) else .panic

/-- `src/typelib/transpile.rs:543-551`: `UnionBuilder::report_compiled` for `StructBuilder<UnionBuilder>`. -/
def report (H : Hash) (lib : Name) (name : Option Name) (ty : Ty TranspileRef) (u : UnionBuilder) :
    Out Unit UnionBuilder := do
  let p ← u.parent.report H lib name ty
  pure { u with parent := p }

/-- `src/typelib/transpile.rs:537-552`: `BuilderParent for UnionBuilder`. -/
instance : BuilderParent UnionBuilder where
  compile H debug t u := do
    let (r, p) ← compileType H t.lib t.name (t.encode H debug) u.parent
    pure (r, { u with parent := p })
  report := report

/-- `src/typelib/transpile.rs:498-502`: `_complete_definition`. -/
def completeDefinition (H : Hash) (ty : Ty TranspileRef) (u : UnionBuilder) : Out Unit UnionBuilder :=
  u.report H u.lib u.name ty

/-- `src/typelib/transpile.rs:504-507`: `_complete_write`. -/
def completeWrite (H : Hash) (ty : Ty TranspileRef) (u : UnionBuilder) : Out Unit Transpiler :=
  u.parent.report H u.lib u.name ty

/-- `src/typelib/transpile.rs:458-466,509-524`: what `into_split`, `_fork` and `from_split` make of the builder around
the definition of a variant `f`: the variants of before, and the parent and the writer of after. -/
def split (f : UnionBuilder → Out Unit UnionBuilder) (u : UnionBuilder) : Out Unit UnionBuilder := do
  let inner ← f u
  pure { lib := u.lib, name := u.name, variants := u.variants, parent := inner.parent, declared := inner.declared,
         defined := inner.defined }

/-- `src/typelib/transpile.rs:558-563`: `define_variant` of enums. -/
def defineVariant (H : Hash) (u : UnionBuilder) (name : Name) : Out Unit UnionBuilder := do
  let u ← u.report H u.lib none Ty.U8
  let u ← u.writerDefine name
  u.defineLast name

/-- `src/typelib/transpile.rs:574-578`: `write_variant` of enums. -/
def writeVariant (H : Hash) (u : UnionBuilder) (_name : Name) : Out Unit UnionBuilder :=
  u.report H u.lib none Ty.U8

/-- `src/typelib/transpile.rs:592-597`: `define_unit`. -/
def defineUnit (H : Hash) (u : UnionBuilder) (name : Name) : Out Unit UnionBuilder := do
  let u ← u.report H u.lib none Ty.UNIT
  let u ← u.writerDefine name
  u.defineLast name

/-- `src/typelib/transpile.rs:599-643`: `define_tuple` and `define_struct`, with the calls made by the closure: it
defines the fields and completes. -/
def defineFields (H : Hash) (debug : Bool) (u : UnionBuilder) (name : Name) (isTuple : Bool)
    (fs : List (Option Name × RTy)) : Out Unit UnionBuilder := do
  let u ← u.split fun u => do
    let u ← u.writerDefine name
    let s ← (StructBuilder.with u.lib none isTuple u true).defineFields H debug fs
    s.completeDefinition H
  u.defineLast name

/-- `src/typelib/transpile.rs:657-661`: `write_unit`. -/
def writeUnit (H : Hash) (u : UnionBuilder) (_name : Name) : Out Unit UnionBuilder :=
  u.report H u.lib none Ty.UNIT

/-- `src/typelib/transpile.rs:663-709`: `write_tuple` and `write_struct`, with the calls made by the closure: it writes
the fields and completes. -/
def writeFields (H : Hash) (debug : Bool) (u : UnionBuilder) (_name : Name) (isTuple : Bool)
    (fs : List (Option Name × RTy)) : Out Unit UnionBuilder :=
  u.split fun u => do
    let s ← (StructBuilder.with u.lib none isTuple u false).writeFields H debug fs
    s.completeWrite H

/-- Enum variants defined one after the other (`src/typelib/transpile.rs:128-130`). -/
def defineVariants (H : Hash) : UnionBuilder → List Name → Out Unit UnionBuilder
  | u, [] => .ok u
  | u, n :: ns => do
    let u ← u.defineVariant H n
    u.defineVariants H ns

end UnionBuilder

/-! ## The calls derived for a type -/

/-- The contents of a variant: nothing, or fields with or without names. -/
inductive Payload where
  | unit
  | fields (isTuple : Bool) (fs : List (Option Name × RTy))

/-- The call defining a variant. -/
def UnionBuilder.define (H : Hash) (debug : Bool) (u : UnionBuilder) (name : Name) : Payload → Out Unit UnionBuilder
  | .unit => u.defineUnit H name
  | .fields isTuple fs => u.defineFields H debug name isTuple fs

/-- The call writing a variant. -/
def UnionBuilder.write (H : Hash) (debug : Bool) (u : UnionBuilder) (name : Name) : Payload → Out Unit UnionBuilder
  | .unit => u.writeUnit H name
  | .fields isTuple fs => u.writeFields H debug name isTuple fs

/-- Variants defined one after the other. -/
def UnionBuilder.defineAll (H : Hash) (debug : Bool) : UnionBuilder → List (Name × Payload) → Out Unit UnionBuilder
  | u, [] => .ok u
  | u, (n, p) :: vs => do
    let u ← u.define H debug n p
    u.defineAll H debug vs

/-- `src/typelib/transpile.rs:136-154`: `write_tuple` and `write_struct` of a library, with the calls derived for the
fields. -/
def writeRecord (H : Hash) (debug : Bool) (lib : Name) (name : Option Name) (isTuple : Bool)
    (fs : List (Option Name × RTy)) (b : Transpiler) : Out Unit Transpiler := do
  let s ← (StructBuilder.with lib name isTuple b false).writeFields H debug fs
  s.completeWrite H

/-- `src/typelib/transpile.rs:125-134`: `write_enum`. -/
def writeEnumTy (H : Hash) (lib : Name) (name : Option Name) (variants : List Variant) (written : Name)
    (b : Transpiler) : Out Unit Transpiler := do
  let u ← (UnionBuilder.with lib name variants b).defineVariants H (variants.map Variant.name)
  let ty ← u.buildEnum
  let u ← u.completeDefinition H ty
  let u ← u.writeVariant H written
  let ty ← u.buildEnum
  u.completeWrite H ty

/-- `src/typelib/transpile.rs:117-123`: `write_union` with the calls derived for a union: all variants are defined, then
one is written. -/
def writeUnionTy (H : Hash) (debug : Bool) (lib : Name) (name : Option Name) (declared : List Variant)
    (vs : List (Name × Payload)) (written : Name × Payload) (b : Transpiler) : Out Unit Transpiler := do
  let u ← (UnionBuilder.with lib name declared b).defineAll H debug vs
  let ty ← u.build
  let u ← u.completeDefinition H ty
  let u ← u.write H debug written.1 written.2
  let ty ← u.build
  u.completeWrite H ty

end Verif
