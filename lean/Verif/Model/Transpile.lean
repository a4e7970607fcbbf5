import Verif.Model.Compile

/-!
# Building a library from Rust types

`LibBuilder::transpile`. A Rust type is described by what its `StrictEncode::strict_encode` does with
a `TypedWrite`: the calls derived by the macros of `strict_encoding`. Recursive Rust types are not
described: their dumb value would have to be infinite.
-/

namespace Verif

/-- What the implementation of `StrictEncode` of a Rust type (external) does. `record` is a struct or
tuple (`write_struct`, `write_tuple`), each field with its name; `lib` and `name` are
`STRICT_LIB_NAME` and `strict_name()`. The payload of a union variant is a record without name;
the last argument of `union` says which of the variants (in the order of definition) the dumb value
has. Types that are not records, enums or unions have no name. -/
inductive RTy where
  | prim (code : Byte)
  | unicode (sz : Sizing)
  | rstring (c c1 : RTy) (sz : Sizing)
  | array (ty : RTy) (len : BitVec 16)
  | list (ty : RTy) (sz : Sizing)
  | set (ty : RTy) (sz : Sizing)
  | map (key ty : RTy) (sz : Sizing)
  | record (lib : Name) (name : Option Name) (isTuple : Bool) (fields : List (Option Name × RTy))
  | enum (lib : Name) (name : Option Name) (variants : List Variant)
  | union (lib : Name) (name : Option Name) (variants : List (Variant × RTy)) (written : Nat)

/-- `StrictType::STRICT_LIB_NAME` (external). -/
def RTy.lib : RTy → Name
  | .record lib _ _ _ => lib
  | .enum lib _ _ => lib
  | .union lib _ _ _ => lib
  | _ => LIB_EMBEDDED

/-- `StrictType::strict_name` (external). -/
def RTy.name : RTy → Option Name
  | .record _ name _ _ => name
  | .enum _ name _ => name
  | .union _ name _ _ => name
  | _ => none

/-- `src/typelib/transpile.rs:52-60`: `LibBuilder` with its last field. -/
structure Transpiler extends LibBuilder where
  last : Option TranspileRef

/-! ## Equality of types -/

/-- Equality of sets of variants: element by element, with the equality of variants. -/
def eqvVariants : List Variant → List Variant → Bool
  | [], [] => true
  | v :: vs, w :: ws => v.eqv w && eqvVariants vs ws
  | _, _ => false

mutual
/-- `src/typelib/symbolic.rs:94-104`: the derived `PartialEq for TranspileRef`. -/
def TranspileRef.eqv : TranspileRef → TranspileRef → Bool
  | .embedded t, .embedded u => TranspileRef.eqvTy t u
  | .named n, .named m => n == m
  | .extern s, .extern r => s == r
  | _, _ => false
/-- `src/ast/ty.rs:108`: the derived `PartialEq for Ty<TranspileRef>`. Sets and maps of variants are
compared element by element with the equality of `Variant`. -/
def TranspileRef.eqvTy : Ty TranspileRef → Ty TranspileRef → Bool
  | .primitive c, .primitive d => c == d
  | .unicodeChar, .unicodeChar => true
  | .enum vs, .enum ws => eqvVariants vs ws
  | .union vs, .union ws => TranspileRef.eqvCases vs ws
  | .tuple fs, .tuple gs => TranspileRef.eqvRefs fs gs
  | .struct fs, .struct gs => TranspileRef.eqvFields fs gs
  | .array t n, .array u m => TranspileRef.eqv t u && n == m
  | .list t s, .list u z => TranspileRef.eqv t u && s == z
  | .set t s, .set u z => TranspileRef.eqv t u && s == z
  | .map k t s, .map l u z => TranspileRef.eqv k l && TranspileRef.eqv t u && s == z
  | _, _ => false
/-- `src/ast/ty.rs:441`: the derived `PartialEq for UnnamedFields`. -/
def TranspileRef.eqvRefs : List TranspileRef → List TranspileRef → Bool
  | [], [] => true
  | r :: rs, s :: ss => TranspileRef.eqv r s && TranspileRef.eqvRefs rs ss
  | _, _ => false
/-- `src/ast/ty.rs:347,366`: the derived `PartialEq for NamedFields`. -/
def TranspileRef.eqvFields : List (Name × TranspileRef) → List (Name × TranspileRef) → Bool
  | [], [] => true
  | (n, r) :: rs, (m, s) :: ss => n == m && TranspileRef.eqv r s && TranspileRef.eqvFields rs ss
  | _, _ => false
/-- `src/ast/ty.rs:508`: the derived `PartialEq for UnionVariants`. -/
def TranspileRef.eqvCases : List (Variant × TranspileRef) → List (Variant × TranspileRef) → Bool
  | [], [] => true
  | (v, r) :: rs, (w, s) :: ss => v.eqv w && TranspileRef.eqv r s && TranspileRef.eqvCases rs ss
  | _, _ => false
end

/-! ## Building types -/

/-- `HashMap::insert` on an association list. -/
def hmInsert {K V : Type} [DecidableEq K] : List (K × V) → K → V → List (K × V)
  | [], k, v => [(k, v)]
  | p :: m, k, v => if p.1 = k then (k, v) :: m else p :: hmInsert m k v

/-- `src/typelib/transpile.rs:100-106`: `LibBuilder::dependency_id`. If several known libraries have
the name, the first in iteration order. -/
def LibBuilder.dependencyId (b : LibBuilder) (lib : Name) : Out Unit LibId :=
  Out.expect (((b.knownLibs.map Prod.fst).find? fun d => d.name = lib).map Dependency.id)

/-- `src/typelib/transpile.rs:253-282`: `LibBuilder::report_compiled`. -/
def Transpiler.report (H : Hash) (b : Transpiler) (lib : Name) (name : Option Name)
    (ty : Ty TranspileRef) : Out Unit Transpiler :=
  match name with
  | some name =>
    if lib = b.libName then
      if (match hmGet b.types name with
          | some old => TranspileRef.eqvTy old ty
          | none => true) then
        .ok { b with types := hmInsert b.types name ty, last := some (.named name) }
      else .panic
    else do
      let id := TranspileRef.semIdNamed H ty name
      let ids := OMap.insert ((hmGet b.externTypes lib).getD []) id name
      let libId ← b.dependencyId lib
      pure { b with externTypes := hmInsert b.externTypes lib ids,
                    last := some (.extern ⟨lib, name, libId, id⟩) }
  | none => .ok { b with last := some (.embedded ty) }

/-- `src/typelib/transpile.rs:233-251`: `LibBuilder::compile_type` for a type with the given library
and name, whose `strict_encode` is `encode`. -/
def compileType (H : Hash) (lib : Name) (name : Option Name)
    (encode : Transpiler → Out Unit Transpiler) (b : Transpiler) :
    Out Unit (TranspileRef × Transpiler) :=
  let compile : Out Unit (TranspileRef × Transpiler) := do
    let b ← encode b
    let r ← Out.expect b.last
    pure (r, b)
  match name with
  | none => compile
  | some name =>
    if lib = LIB_EMBEDDED then compile
    else if lib ≠ b.libName then do
      let (r, b) ← compile
      let libId ← b.dependencyId lib
      pure (.extern ⟨lib, name, libId, r.id H⟩, b)
    else if (hmGet b.types name).isSome then .ok (.named name, b)
    else compile

/-- The names of the fields of a struct, all of which must be given (`src/typelib/transpile.rs:352-353`). -/
def fieldNames : List (Option Name × TranspileRef) → Out Unit (List (Name × TranspileRef))
  | [] => .ok []
  | (n, r) :: fs => do
    let n ← Out.expect n
    let fs ← fieldNames fs
    pure ((n, r) :: fs)

/-- `src/typelib/transpile.rs:337-365`: `StructBuilder::_build_struct`. -/
def buildStruct (isTuple : Bool) (fields : List (Option Name × TranspileRef)) :
    Out Unit (Ty TranspileRef) :=
  if fields.isEmpty then .ok Ty.UNIT
  else if isTuple then
    if fields.length ≤ 255 then .ok (.tuple (fields.map Prod.snd)) else .panic
  else do
    let fs ← fieldNames fields
    if fs.length ≤ 255 then pure (.struct fs) else .panic

/-- Collecting into a `BTreeMap` keyed by tag: an entry with the same tag is replaced. -/
def insertTag {α : Type} (tag : α → Nat) (x : α) : List α → List α
  | [] => [x]
  | y :: l => if tag x < tag y then x :: y :: l else if tag x = tag y then x :: l else y :: insertTag tag x l

/-- The entries in the order of their tags. Simplification: tags and names of the variants of a Rust
type are distinct, so the order of `Variant` is the order of tags. -/
def sortTags {α : Type} (tag : α → Nat) (l : List α) : List α := l.foldl (fun s x => insertTag tag x s) []

/-- `src/typelib/transpile.rs:476-489`: `UnionBuilder::_build_union`. The variants known to the
`UnionWriter` (external) are those defined before. -/
def buildUnion (variants : List (Variant × TranspileRef)) : Out Unit (Ty TranspileRef) :=
  let vs := sortTags (fun v => v.1.tag.toNat) variants
  if 1 ≤ vs.length ∧ vs.length ≤ 255 then .ok (.union vs) else .panic

/-- `src/typelib/transpile.rs:491-496`: `UnionBuilder::_build_enum`. -/
def buildEnum (variants : List Variant) : Out Unit (Ty TranspileRef) :=
  let vs := sortTags (fun v => v.tag.toNat) variants
  if 1 ≤ vs.length ∧ vs.length ≤ 255 then .ok (.enum vs) else .panic

/-- `sizing.min -= 1` (`src/typelib/transpile.rs:183-184`): panics on underflow in debug builds. -/
def decrement (debug : Bool) (x : BitVec 64) : Out Unit (BitVec 64) :=
  if debug && x = 0 then .panic else .ok (x - 1)

mutual
/-- What `strict_encode` of the type does with the builder: the functions of
`src/typelib/transpile.rs:109-219` and the builders of structs and unions. The writers of
`strict_encoding` wrapped by the builders are assumed to accept the calls derived for a type. -/
def RTy.encode (H : Hash) (debug : Bool) : RTy → Transpiler → Out Unit Transpiler
  -- lines 156-159
  | .prim code, b => .ok { b with last := some (.embedded (.primitive code)) }
  -- lines 168-171
  | .unicode sz, b => .ok { b with last := some (.embedded (.list (.embedded .unicodeChar) sz)) }
  -- lines 173-189
  | .rstring c c1 sz, b => do
    let b ← RTy.encode H debug c1 b
    let ty1 ← Out.expect b.last
    let b ← RTy.encode H debug c b
    let ty ← Out.expect b.last
    let min ← decrement debug sz.min
    let max ← decrement debug sz.max
    pure { b with last := some (.embedded (.tuple [ty1, .embedded (.list ty ⟨min, max⟩)])) }
  -- lines 161-166
  | .array t len, b => do
    let b ← RTy.encode H debug t b
    let ty ← Out.expect b.last
    pure { b with last := some (.embedded (.array ty len)) }
  -- lines 191-196
  | .list t sz, b => do
    let b ← RTy.encode H debug t b
    let ty ← Out.expect b.last
    pure { b with last := some (.embedded (.list ty sz)) }
  -- lines 198-203
  | .set t sz, b => do
    let b ← RTy.encode H debug t b
    let ty ← Out.expect b.last
    pure { b with last := some (.embedded (.set ty sz)) }
  -- lines 205-218
  | .map k t sz, b => do
    let b ← RTy.encode H debug k b
    let key ← Out.expect b.last
    let b ← RTy.encode H debug t b
    let ty ← Out.expect b.last
    pure { b with last := some (.embedded (.map key ty sz)) }
  -- lines 136-154, 310-335, 367-392: the cursor is used by definers only, which never write fields
  | .record lib name isTuple fields, b => do
    let (fs, b) ← RTy.encodeFields H debug fields b
    let ty ← buildStruct isTuple fs
    b.report H lib name ty
  -- lines 125-134, 554-584: every call of `define_variant` and `write_variant` reports `U8` unnamed
  | .enum lib name variants, b => do
    let ty ← buildEnum variants
    let b ← b.report H lib name ty
    b.report H lib name ty
  -- lines 117-123, 586-715: define all variants, report, write one variant, report again
  | .union lib name variants written, b => do
    let (vs, b) ← RTy.encodeVariants H debug variants b
    let ty ← buildUnion vs
    let b ← b.report H lib name ty
    let b ← RTy.encodeNth H debug variants written b
    b.report H lib name ty
termination_by structural t => t
/-- `src/typelib/transpile.rs:310-335`: the fields of a struct or tuple, defined or written. -/
def RTy.encodeFields (H : Hash) (debug : Bool) : List (Option Name × RTy) → Transpiler →
    Out Unit (List (Option Name × TranspileRef) × Transpiler)
  | [], b => .ok ([], b)
  | f :: fs, b => do
    let (r, b) ← RTy.encodeField H debug f b
    let (rs, b) ← RTy.encodeFields H debug fs b
    pure (r :: rs, b)
termination_by structural l => l
/-- `src/typelib/transpile.rs:310-335`: a field. -/
def RTy.encodeField (H : Hash) (debug : Bool) : Option Name × RTy → Transpiler →
    Out Unit ((Option Name × TranspileRef) × Transpiler)
  | (n, t), b => do
    let (r, b) ← compileType H t.lib t.name (RTy.encode H debug t) b
    pure ((n, r), b)
termination_by structural p => p
/-- `src/typelib/transpile.rs:470-474,592-650`: the variants of a union, each with the type compiled
last. -/
def RTy.encodeVariants (H : Hash) (debug : Bool) : List (Variant × RTy) → Transpiler →
    Out Unit (List (Variant × TranspileRef) × Transpiler)
  | [], b => .ok ([], b)
  | v :: vs, b => do
    let (r, b) ← RTy.encodeVariant H debug v b
    let (rs, b) ← RTy.encodeVariants H debug vs b
    pure (r :: rs, b)
termination_by structural l => l
/-- `src/typelib/transpile.rs:470-474,592-650`: a variant of a union. -/
def RTy.encodeVariant (H : Hash) (debug : Bool) : Variant × RTy → Transpiler →
    Out Unit ((Variant × TranspileRef) × Transpiler)
  | (v, t), b => do
    let b ← RTy.encode H debug t b
    let r ← Out.expect b.last
    pure ((v, r), b)
termination_by structural p => p
/-- `src/typelib/transpile.rs:658-713`: writing the variant of the dumb value. -/
def RTy.encodeNth (H : Hash) (debug : Bool) : List (Variant × RTy) → Nat → Transpiler →
    Out Unit Transpiler
  | [], _, _ => .panic
  | v :: _, 0, b => do
    let (_, b) ← RTy.encodeVariant H debug v b
    pure b
  | _ :: vs, n + 1, b => RTy.encodeNth H debug vs n b
termination_by structural l => l
end

/-- `src/typelib/transpile.rs:82-94`: `LibBuilder::with`. -/
def Transpiler.new (lib : Name) (known : List (Dependency × Option (List SemId))) : Transpiler :=
  ⟨⟨lib, known, [], []⟩, none⟩

/-- `src/typelib/transpile.rs:96-98`: `LibBuilder::transpile`, several times. -/
def Transpiler.transpile (H : Hash) (debug : Bool) : List RTy → Transpiler → Out Unit Transpiler
  | [], b => .ok b
  | t :: ts, b => do
    let b ← t.encode H debug b
    Transpiler.transpile H debug ts b

end Verif
