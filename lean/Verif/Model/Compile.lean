import Verif.Model.Refs

/-!
# Compilation of symbolic libraries

`SymbolicLib::compile`, `TypeLib::to_symbolic`, `LibBuilder::compile_symbols` and the functions
modifying a `TypeLib`.
-/

namespace Verif

/-- `strict_encoding::LIB_EMBEDDED` (external constant): the pseudo-library of embedded types. No
theorem depends on its value. -/
def LIB_EMBEDDED : Name := n!"_"

/-- `src/typelib/compile.rs:39-72`: `CompileError`. The texts of `NestedInline` are kept as lists of
classes; `UnknownType` keeps the unknown name only. -/
inductive CompileError where
  | duplicateName (name : Name)
  | unknownType (unknown : Name)
  | continue
  | duplicatedDependency (dep : Dependency)
  | nestedInline (top : Name) (path : List Cls) (name : Option Cls)
  | unknownLib (lib : Name)
  | tooManyDependencies
  | tooManyTypes
  | libTooLarge (lib : Name)
  | dependencyMissesType (lib : Name) (id : SemId) (name : Name)
deriving DecidableEq, Repr

/-- `src/typelib/compile.rs:32`: `TypeIndex`, ids of the types compiled so far. -/
abbrev TypeIndex := OMap Name SemId

/-- `src/typelib/compile.rs:91-96`: `NestedContext`. The field `extern_types` is moved in and out
unchanged and is left out. The stack holds classes instead of their printed names; the innermost is
the head. -/
structure NestedContext where
  topName : Name
  index : TypeIndex
  stack : List Cls
deriving DecidableEq, Repr

/-- Translation of an embedded type with its class on the stack (`src/typelib/compile.rs:109-114`
and the same lines for the other references): push, translate, pop whatever the outcome. On an error
the builder is dropped by the caller, so the stack after an error is irrelevant. -/
def withStack {β : Type} (ty : Ty TranspileRef)
    (f : TranspileRef → NestedContext → Out CompileError (β × NestedContext))
    (c : NestedContext) : Out CompileError (Ty β × NestedContext) := do
  let (u, c) ← ty.translate f { c with stack := ty.cls :: c.stack }
  pure (u, { c with stack := c.stack.tail })

/-- `src/typelib/compile.rs:115-118` and the same lines for the other references. -/
def lookupName (name : Name) (c : NestedContext) : Out CompileError SemId :=
  Out.ofOption .continue (c.index.get name)

/-- `src/typelib/compile.rs:176-199`: `Translate<InlineRef2> for TranspileRef`. -/
def TranspileRef.toInline2 (r : TranspileRef) (c : NestedContext) :
    Out CompileError (InlineRef2 × NestedContext) :=
  match r with
  | .embedded _ => .err (.nestedInline c.topName c.stack.tail.reverse c.stack.head?)
  | .named name => do
    let id ← lookupName name c
    pure (.named id, c)
  | .extern sym => .ok (.extern sym.toExtern, c)

/-- `src/typelib/compile.rs:150-174`: `Translate<InlineRef1> for TranspileRef`. -/
def TranspileRef.toInline1 (r : TranspileRef) (c : NestedContext) :
    Out CompileError (InlineRef1 × NestedContext) :=
  match r with
  | .embedded ty => do
    let (u, c) ← withStack ty TranspileRef.toInline2 c
    pure (.inline u, c)
  | .named name => do
    let id ← lookupName name c
    pure (.named id, c)
  | .extern sym => .ok (.extern sym.toExtern, c)

/-- `src/typelib/compile.rs:124-148`: `Translate<InlineRef> for TranspileRef`. -/
def TranspileRef.toInline (r : TranspileRef) (c : NestedContext) :
    Out CompileError (InlineRef × NestedContext) :=
  match r with
  | .embedded ty => do
    let (u, c) ← withStack ty TranspileRef.toInline1 c
    pure (.inline u, c)
  | .named name => do
    let id ← lookupName name c
    pure (.named id, c)
  | .extern sym => .ok (.extern sym.toExtern, c)

/-- `src/typelib/compile.rs:98-122`: `Translate<LibRef> for TranspileRef`. -/
def TranspileRef.toLib (r : TranspileRef) (c : NestedContext) :
    Out CompileError (LibRef × NestedContext) :=
  match r with
  | .embedded ty => do
    let (u, c) ← withStack ty TranspileRef.toInline c
    pure (.inline u, c)
  | .named name => do
    let id ← lookupName name c
    pure (.named id, c)
  | .extern sym => .ok (.extern sym.toExtern, c)

/-- `src/typelib/symbolic.rs:44-49`: `SymbolicLib`. -/
structure SymbolicLib where
  name : Name
  dependencies : List Dependency
  externTypes : ExternTypes
  types : OMap Name (Ty TranspileRef)

/-- Local variables of the loop of `SymbolicLib::compile` (`src/typelib/symbolic.rs:282-284`). -/
structure CompileState where
  oldTypes : OMap Name (Ty TranspileRef)
  index : TypeIndex
  newTypes : OMap Name (Ty LibRef)

/-- One step of the `for` loop, `src/typelib/symbolic.rs:290-314`: try to translate the type `name`;
the flag says whether it was compiled (`found`). -/
def compileStep (H : Hash) (name : Name) (st : CompileState) :
    Out CompileError (CompileState × Bool) :=
  match st.oldTypes.get name with
  | none => .ok (st, false)
  | some ty =>
    match ty.translate TranspileRef.toLib ⟨name, st.index, []⟩ with
    | .ok (u, c) =>
      .ok (⟨st.oldTypes.erase name, c.index.insert name (u.semIdNamed H LibRef.commit name),
        st.newTypes.insert name u⟩, true)
    | .err .continue => .ok (st, false)
    | .err e => .err e
    | .panic => .panic
    | .diverge => .diverge

/-- The `for` loop over the names, `src/typelib/symbolic.rs:288-315`. -/
def compilePass (H : Hash) : List Name → CompileState → Out CompileError (CompileState × Bool)
  | [], st => .ok (st, false)
  | name :: names, st => do
    let (st, found) ← compileStep H name st
    let (st, found') ← compilePass H names st
    pure (st, found || found')

/-- The `while` loop, `src/typelib/symbolic.rs:287-317`, with the number of passes bounded by
`fuel`. -/
def compileLoop (H : Hash) (debug : Bool) (names : List Name) :
    Nat → CompileState → Out CompileError CompileState
  | 0, st => if st.oldTypes.isEmpty then .ok st else .diverge
  | fuel + 1, st =>
    if st.oldTypes.isEmpty then .ok st
    else do
      let (st, found) ← compilePass H names st
      Out.debugAssert debug found
      compileLoop H debug names fuel st

/-- `src/typelib/symbolic.rs:319-333`: the dependencies that are used by the external types. The
`any` guard of line 325 can only matter when the dependency was found before, which the same `find`
excludes; both `None` arms are kept. -/
def usedDeps (deps : List Dependency) : List Name → List Dependency →
    Out CompileError (List Dependency)
  | [], used => .ok used
  | lib :: libs, used =>
    if lib = LIB_EMBEDDED then usedDeps deps libs used
    else
      match deps.find? fun d => d.name = lib with
      | none =>
        if used.any fun d => d.name = lib then usedDeps deps libs used
        else .err (.unknownLib lib)
      | some dep => usedDeps deps libs (depInsert used dep)

/-- `TypeMap::from_checked` (`src/typelib/type_lib.rs:255`, `amplify`): 1 to 65535 entries. -/
def checkTypeMap {α : Type} (m : OMap Name α) : Out CompileError (OMap Name α) :=
  if 1 ≤ m.length ∧ m.length ≤ 65535 then .ok m else .panic

/-- `Confined::from_checked` for `TinyOrdSet`: at most 255 entries. -/
def checkTiny {α : Type} (s : List α) : Out CompileError (List α) :=
  if s.length ≤ 255 then .ok s else .panic

/-- `src/typelib/symbolic.rs:278-344`: `SymbolicLib::compile`. `fuel` bounds the number of passes. -/
def SymbolicLib.compile (H : Hash) (debug : Bool) (fuel : Nat) (s : SymbolicLib) :
    Out CompileError TypeLib := do
  let st ← compileLoop H debug s.types.keys fuel ⟨s.types, [], []⟩
  let used ← usedDeps s.dependencies s.externTypes.keys []
  let types ← checkTypeMap st.newTypes
  let used ← checkTiny used
  pure ⟨s.name, used, s.externTypes, types⟩

/-! ## Back to symbols -/

/-- `src/typelib/translate.rs:33-45`: `SymbolError`. -/
inductive SymbolError where
  | unknownType (id : SemId)
  | unknownLib (id : LibId)
  | libTooLarge (lib : Name)
  | tooManyDependencies
deriving DecidableEq, Repr

/-- `src/typelib/translate.rs:47-50`: `SymbolContext`. -/
structure SymbolContext where
  reverseIndex : OMap SemId Name
  libIndex : OMap LibId Name

/-- Collecting pairs into a `BTreeMap`: later entries win. -/
def OMap.ofPairs {K V : Type} [KeyOrd K] [DecidableEq K] (l : List (K × V)) : OMap K V :=
  l.foldl (fun m p => OMap.insert m p.1 p.2) []

/-- `src/typelib/translate.rs:65-71`: `SymbolContext::named`. -/
def SymbolContext.named (ctx : SymbolContext) (id : SemId) : Out SymbolError TranspileRef := do
  let name ← Out.ofOption (.unknownType id) (ctx.reverseIndex.get id)
  pure (.named name)

/-- `src/typelib/translate.rs:73-93`: `SymbolContext::external`. The entry found is put back into
the map it came from; `Confined::insert` of `amplify` refuses when the map is already full. -/
def SymbolContext.external (ctx : SymbolContext) (b : ExternTypes) (ext : ExternRef) :
    Out SymbolError (TranspileRef × ExternTypes) := do
  let libName ← Out.ofOption (.unknownLib ext.libId) (ctx.libIndex.get ext.libId)
  let lib ← Out.ofOption (.unknownLib ext.libId) (b.get libName)
  let tyName ← Out.ofOption (.unknownType ext.semId) (lib.get ext.semId)
  if 65535 ≤ lib.length then .err (.libTooLarge libName)
  else if 255 ≤ (b.erase libName).length then .err .tooManyDependencies
  else
    pure (.extern ⟨libName, tyName, ext.libId, ext.semId⟩,
      OMap.insert (OMap.erase b libName) libName (OMap.insert lib ext.semId tyName))

/-- `src/typelib/translate.rs:53-63`: `SymbolContext::embedded`. -/
def SymbolContext.embedded {α : Type}
    (f : α → ExternTypes → Out SymbolError (TranspileRef × ExternTypes)) (ty : Ty α)
    (b : ExternTypes) : Out SymbolError (TranspileRef × ExternTypes) := do
  let (u, b) ← ty.translate f b
  pure (.embedded u, b)

/-- `src/typelib/translate.rs:150-165`: `Translate<TranspileRef> for InlineRef2`. -/
def InlineRef2.toSym (ctx : SymbolContext) (r : InlineRef2) (b : ExternTypes) :
    Out SymbolError (TranspileRef × ExternTypes) :=
  match r with
  | .named id => do
    let n ← ctx.named id
    pure (n, b)
  | .extern ext => ctx.external b ext

/-- `src/typelib/translate.rs:132-148`: `Translate<TranspileRef> for InlineRef1`. -/
def InlineRef1.toSym (ctx : SymbolContext) (r : InlineRef1) (b : ExternTypes) :
    Out SymbolError (TranspileRef × ExternTypes) :=
  match r with
  | .inline ty => SymbolContext.embedded (InlineRef2.toSym ctx) ty b
  | .named id => do
    let n ← ctx.named id
    pure (n, b)
  | .extern ext => ctx.external b ext

/-- `src/typelib/translate.rs:114-130`: `Translate<TranspileRef> for InlineRef`. -/
def InlineRef.toSym (ctx : SymbolContext) (r : InlineRef) (b : ExternTypes) :
    Out SymbolError (TranspileRef × ExternTypes) :=
  match r with
  | .inline ty => SymbolContext.embedded (InlineRef1.toSym ctx) ty b
  | .named id => do
    let n ← ctx.named id
    pure (n, b)
  | .extern ext => ctx.external b ext

/-- `src/typelib/translate.rs:96-112`: `Translate<TranspileRef> for LibRef`. -/
def LibRef.toSym (ctx : SymbolContext) (r : LibRef) (b : ExternTypes) :
    Out SymbolError (TranspileRef × ExternTypes) :=
  match r with
  | .inline ty => SymbolContext.embedded (InlineRef.toSym ctx) ty b
  | .named id => do
    let n ← ctx.named id
    pure (n, b)
  | .extern ext => ctx.external b ext

/-- `src/typelib/symbolic.rs:356-365`: translating all types of a library. -/
def toSymTypes (ctx : SymbolContext) : OMap Name (Ty LibRef) → ExternTypes →
    Out SymbolError (OMap Name (Ty TranspileRef) × ExternTypes)
  | [], b => .ok ([], b)
  | (name, ty) :: ts, b => do
    let (u, b) ← ty.translate (LibRef.toSym ctx) b
    let (us, b) ← toSymTypes ctx ts b
    pure ((name, u) :: us, b)

/-- `src/typelib/symbolic.rs:349-355`: the context of `TypeLib::to_symbolic`. -/
def TypeLib.symContext (H : Hash) (l : TypeLib) : SymbolContext where
  reverseIndex := OMap.ofPairs (l.types.map fun p => (p.2.semIdNamed H LibRef.commit p.1, p.1))
  libIndex := OMap.ofPairs (l.dependencies.map fun d => (d.id, d.name))

/-- `src/typelib/symbolic.rs:348-372`: `TypeLib::to_symbolic`. Collecting the translated types into
a map keeps their order, the keys being the same. -/
def TypeLib.toSymbolic (H : Hash) (l : TypeLib) : Out SymbolError SymbolicLib := do
  let (types, ext) ← toSymTypes (l.symContext H) l.types l.externTypes
  pure ⟨l.name, l.dependencies, ext, types⟩

/-! ## Builder -/

/-- `src/typelib/transpile.rs:52-59`: the part of `LibBuilder` read by `compile_symbols`. Hash maps
are association lists in iteration order, which is arbitrary. `knownLibs` gives the types of a
library, or `none` with the deprecated constructor. -/
structure LibBuilder where
  libName : Name
  knownLibs : List (Dependency × Option (List SemId))
  externTypes : List (Name × OMap SemId Name)
  types : List (Name × Ty TranspileRef)

/-- `HashMap::get` on an association list. -/
def hmGet {K V : Type} [DecidableEq K] (m : List (K × V)) (k : K) : Option V :=
  (m.find? fun p => p.1 = k).map Prod.snd

/-- `known_libs.get(dep)` (`src/typelib/symbolic.rs:240`): `Dependency` is hashed by id, so entries
with another id are not found. Simplification: no collisions of the hasher of the map. -/
def LibBuilder.knownGet (b : LibBuilder) (dep : Dependency) : Option (Option (List SemId)) :=
  (b.knownLibs.find? fun p => p.1.id = dep.id).map Prod.snd

/-- `src/typelib/symbolic.rs:205-216`: the check of direct references; the first unknown name. -/
def checkNames (types : List (Name × Ty TranspileRef)) :
    List (Name × Ty TranspileRef) → Out CompileError Unit
  | [] => .ok ()
  | (_, ty) :: rest =>
    match ty.refs.find? fun r => match r with
      | .named n => (hmGet types n).isNone
      | _ => false with
    | some (.named n) => .err (.unknownType n)
    | _ => checkNames types rest

/-- `src/typelib/symbolic.rs:218-232`: the dependency of each external library. -/
def builderDeps (known : List (Dependency × Option (List SemId))) :
    List Name → List (Name × Dependency) → Out CompileError (List (Name × Dependency))
  | [], used => .ok used
  | lib :: libs, used =>
    if lib = LIB_EMBEDDED then builderDeps known libs used
    else
      match (known.map Prod.fst).find? fun d => d.name = lib with
      | none =>
        if (hmGet used lib).isNone then .err (.unknownLib lib) else builderDeps known libs used
      | some dep => builderDeps known libs (used ++ [(lib, dep)])

/-- `src/typelib/symbolic.rs:237-256`: the check of the types of one external library. -/
def checkExtern (b : LibBuilder) (used : List (Name × Dependency)) (lib : Name) :
    List (SemId × Name) → Out CompileError Unit
  | [] => .ok ()
  | (id, name) :: rest => do
    let provided ← Out.expect ((hmGet used lib).bind b.knownGet)
    match provided with
    | none => checkExtern b used lib rest
    | some ids =>
      if ids.contains id then checkExtern b used lib rest
      else .err (.dependencyMissesType lib id name)

/-- `src/typelib/symbolic.rs:235-260`: the loop over external libraries; builds the sorted map. -/
def checkExterns (b : LibBuilder) (used : List (Name × Dependency)) :
    List (Name × OMap SemId Name) → ExternTypes → Out CompileError ExternTypes
  | [], acc => .ok acc
  | (lib, types) :: rest, acc => do
    checkExtern b used lib types
    if types.length ≤ 65535 then checkExterns b used rest (OMap.insert acc lib types)
    else .err (.libTooLarge lib)

/-- `src/typelib/symbolic.rs:196-272`: `LibBuilder::compile_symbols`. The bound on the number of
types (`usize`) is not modelled: it cannot be exceeded in memory. -/
def LibBuilder.compileSymbols (b : LibBuilder) : Out CompileError SymbolicLib :=
  if b.types.isEmpty then .panic
  else do
    checkNames b.types b.types
    let used ← builderDeps b.knownLibs (b.externTypes.map Prod.fst) []
    let ext ← checkExterns b used b.externTypes []
    if 255 < ext.length then .err .tooManyDependencies
    else
      let deps := (used.map Prod.snd).foldl depInsert []
      if 255 < deps.length then .err .tooManyDependencies
      else pure ⟨b.libName, deps, ext, OMap.ofPairs b.types⟩

/-- `src/typelib/symbolic.rs:274`: `LibBuilder::compile`. -/
def LibBuilder.compile (H : Hash) (debug : Bool) (fuel : Nat) (b : LibBuilder) :
    Out CompileError TypeLib := do
  let s ← b.compileSymbols
  s.compile H debug fuel

/-! ## Changing a library -/

/-- `src/typelib/type_lib.rs:288-294`: `TypeLib::import`. `contains` compares by the order of
`Dependency`, i.e. by id; `push` fails when the set is full. The second component is the library
after the call. -/
def TypeLib.import (l : TypeLib) (dep : Dependency) : Out CompileError Unit × TypeLib :=
  if l.dependencies.any fun d => d.id = dep.id then (.err (.duplicatedDependency dep), l)
  else if 255 ≤ l.dependencies.length then (.err .tooManyDependencies, l)
  else (.ok (), { l with dependencies := depInsert l.dependencies dep })

/-- `src/typelib/type_lib.rs:296-302`: `TypeLib::populate`. -/
def TypeLib.populate (l : TypeLib) (name : Name) (ty : Ty LibRef) :
    Out CompileError Unit × TypeLib :=
  if (l.types.get name).isSome then (.err (.duplicateName name), l)
  else if 65535 ≤ l.types.length then (.err .tooManyTypes, l)
  else (.ok (), { l with types := OMap.insert l.types name ty })

/-- `src/typelib/type_lib.rs:280-286`: `TypeLib::to_dependency`, `to_dependency_types`. -/
def TypeLib.toDependencyTypes (H : Hash) (l : TypeLib) : Dependency × List SemId :=
  (⟨l.id H, l.name⟩, l.types.map fun p => p.2.semIdNamed H LibRef.commit p.1)

end Verif
