import Verif.Model.Extract
import Verif.Model.Compile

/-!
# Assembling type systems from libraries

`SystemBuilder`, `Symbols` and `SymbolicSys`.
-/

namespace Verif

/-- `src/typesys/type_sys.rs:48-51`: `TypeFqn`, a fully qualified type name. -/
structure TypeFqn where
  lib : Name
  name : Name
deriving DecidableEq, Repr

/-- Derived `Ord` of `TypeFqn` (`src/typesys/type_sys.rs:43`): by library, then by name. -/
instance : KeyOrd TypeFqn :=
  ⟨fun a b => KeyOrd.lt a.lib b.lib || (a.lib = b.lib && KeyOrd.lt a.name b.name)⟩

/-- Derived `Ord` of `Option`: `None` is the least. -/
instance {K : Type} [KeyOrd K] : KeyOrd (Option K) :=
  ⟨fun a b => match a, b with
    | none, some _ => true
    | some a, some b => KeyOrd.lt a b
    | _, none => false⟩

/-- `src/typesys/type_sys.rs:79-85`: `SymTy`, a type with its origin. -/
structure SymTy where
  orig : Option TypeFqn
  ty : Ty SemId
deriving DecidableEq, Repr

/-- `src/typesys/translate.rs:41-44`: `TypeSymbol`. -/
structure TypeSymbol where
  id : SemId
  fqn : Option TypeFqn
deriving DecidableEq, Repr

/-- Derived `Ord` of `TypeSymbol` (`src/typesys/translate.rs:37`): by id, then by name. -/
instance : KeyOrd TypeSymbol :=
  ⟨fun a b => KeyOrd.lt a.id b.id || (a.id = b.id && KeyOrd.lt a.fqn b.fqn)⟩

/-- `src/typesys/translate.rs:228-251`: `Error`. `UnknownType` and `TooDeep` are never constructed by
the functions modelled here. -/
inductive SysError where
  | absentImport (dep : Dependency)
  | repeatedType (new present : TypeSymbol)
  | innerTypeAbsent (unknown known : SemId)
  | confinement
deriving DecidableEq, Repr

/-- `src/typesys/translate.rs:92-96`: `SystemBuilder`. The two sets of dependencies are ordered and
compared by id (`src/typelib/type_lib.rs:232-234`). -/
structure SystemBuilder where
  pending : List Dependency
  imported : List Dependency
  types : OMap SemId SymTy
deriving DecidableEq, Repr

/-- `src/typesys/translate.rs:99`: `SystemBuilder::new`. -/
def SystemBuilder.new : SystemBuilder := ⟨[], [], []⟩

/-- `BTreeSet<Dependency>::contains`. -/
def depContains (s : List Dependency) (d : Dependency) : Bool := s.any fun e => e.id = d.id

/-- `BTreeSet<Dependency>::remove`. -/
def depRemove (s : List Dependency) (d : Dependency) : List Dependency :=
  s.filter fun e => e.id ≠ d.id

/-- `src/typesys/translate.rs:142-152`: `SystemBuilder::translate_inline`, given the commitment and
the translation of the references of the inline type. -/
def translateInline {Ref : Type} (H : Hash) (commit : Ref → Bytes)
    (f : Ref → SystemBuilder → Out SysError (SemId × SystemBuilder)) (ty : Ty Ref)
    (b : SystemBuilder) : Out SysError (SemId × SystemBuilder) := do
  let id := ty.semIdUnnamed H commit
  let (ty, b) ← ty.translate f b
  pure (id, { b with types := OMap.insert b.types id ⟨none, ty⟩ })

/-- `src/typesys/translate.rs:209-224`: `Translate<SemId> for InlineRef2`. -/
def InlineRef2.toSem (r : InlineRef2) (b : SystemBuilder) :
    Out SysError (SemId × SystemBuilder) :=
  match r with
  | .named id => .ok (id, b)
  | .extern ext => .ok (ext.semId, b)

/-- `src/typesys/translate.rs:191-207`: `Translate<SemId> for InlineRef1`. -/
def InlineRef1.toSem (H : Hash) (r : InlineRef1) (b : SystemBuilder) :
    Out SysError (SemId × SystemBuilder) :=
  match r with
  | .inline ty => translateInline H InlineRef2.commit InlineRef2.toSem ty b
  | .named id => .ok (id, b)
  | .extern ext => .ok (ext.semId, b)

/-- `src/typesys/translate.rs:173-189`: `Translate<SemId> for InlineRef`. -/
def InlineRef.toSem (H : Hash) (r : InlineRef) (b : SystemBuilder) :
    Out SysError (SemId × SystemBuilder) :=
  match r with
  | .inline ty => translateInline H InlineRef1.commit (InlineRef1.toSem H) ty b
  | .named id => .ok (id, b)
  | .extern ext => .ok (ext.semId, b)

/-- `src/typesys/translate.rs:155-171`: `Translate<SemId> for LibRef`. -/
def LibRef.toSem (H : Hash) (r : LibRef) (b : SystemBuilder) :
    Out SysError (SemId × SystemBuilder) :=
  match r with
  | .inline ty => translateInline H InlineRef.commit (InlineRef.toSem H) ty b
  | .named id => .ok (id, b)
  | .extern ext => .ok (ext.semId, b)

/-- `src/typesys/translate.rs:108-113`: importing the types of a library. -/
def importTypes (H : Hash) (lib : Name) : OMap Name (Ty LibRef) → SystemBuilder →
    Out SysError SystemBuilder
  | [], b => .ok b
  | (name, ty) :: ts, b => do
    let id := ty.semIdNamed H LibRef.commit name
    let (ty, b) ← ty.translate (LibRef.toSem H) b
    importTypes H lib ts { b with types := OMap.insert b.types id ⟨some ⟨lib, name⟩, ty⟩ }

/-- `src/typesys/translate.rs:101-116`: `SystemBuilder::import`. -/
def SystemBuilder.import (H : Hash) (b : SystemBuilder) (l : TypeLib) :
    Out SysError SystemBuilder :=
  let dependency : Dependency := ⟨l.id H, l.name⟩
  let pending := depRemove b.pending dependency
  let imported := depInsert b.imported dependency
  let pending := (l.dependencies.filter fun d => !depContains imported d).foldl depInsert pending
  importTypes H l.name l.types ⟨pending, imported, b.types⟩

/-- Chained calls of `import`. -/
def SystemBuilder.importAll (H : Hash) : List TypeLib → SystemBuilder → Out SysError SystemBuilder
  | [], b => .ok b
  | l :: ls, b => do
    let b ← b.import H l
    SystemBuilder.importAll H ls b

/-- `src/typesys/symbols.rs:39-42`: `Symbols`. -/
structure Symbols where
  libs : List Dependency
  symbols : OSet TypeSymbol
deriving DecidableEq, Repr

/-- `src/typesys/symbols.rs:115-118`: `SymbolicSys`. -/
structure SymbolicSys where
  symbols : Symbols
  types : TypeSystem
deriving DecidableEq, Repr

/-- `src/typesys/symbols.rs:48-55`: `Symbols::with`. `SmallOrdSet` holds at most 65535 entries. -/
def Symbols.with (libs : List Dependency) : Out SysError Symbols :=
  let libs := libs.foldl depInsert []
  if libs.length ≤ 65535 then .ok ⟨libs, []⟩ else .err .confinement

/-- `src/typesys/symbols.rs:57-74`: `Symbols::update_unchecked`. `MediumOrdSet` holds at most
2^24 - 1 entries. -/
def Symbols.updateUnchecked (s : Symbols) (id : SemId) (orig : Option TypeFqn) :
    Out SysError Symbols :=
  let sym : TypeSymbol := ⟨id, orig⟩
  match s.symbols.find? fun p => p = sym with
  | some present => .err (.repeatedType sym present)
  | none =>
    if 2 ^ 24 - 1 ≤ s.symbols.length then .err .confinement
    else .ok { s with symbols := OSet.insert s.symbols sym }

/-- `src/typesys/type_sys.rs:127-133`: `TypeSystem::insert_unchecked`; `Confined::insert` of
`amplify` refuses when the map is already full. -/
def TypeSystem.insertUnchecked (s : TypeSystem) (id : SemId) (ty : Ty SemId) :
    Out SysError TypeSystem :=
  if 2 ^ 24 - 1 ≤ s.length then .err .confinement else .ok (OMap.insert s id ty)

/-- `src/typesys/type_sys.rs:137-139`: `TypeSystem::extend`; `Confined::extend` of `amplify` inserts one entry
after another and refuses when the map is full before an insertion. Returns whether it succeeded and the
system afterwards: the code changes `self` in place, also if it fails. -/
def TypeSystem.extend (s : TypeSystem) : OMap SemId (Ty SemId) → Bool × TypeSystem
  | [] => (true, s)
  | (id, ty) :: other => if 2 ^ 24 - 1 ≤ s.length then (false, s) else TypeSystem.extend (OMap.insert s id ty) other

/-- `src/typesys/symbols.rs:131-134`: the loop of `SymbolicSys::with`. -/
def withLoop : OMap SemId SymTy → TypeSystem → Symbols → Out SysError (TypeSystem × Symbols)
  | [], sys, sym => .ok (sys, sym)
  | (id, info) :: rest, sys, sym => do
    let sys ← TypeSystem.insertUnchecked sys id info.ty
    let sym ← sym.updateUnchecked id info.orig
    withLoop rest sys sym

/-- `src/typesys/symbols.rs:124-140`: `SymbolicSys::with`. -/
def SymbolicSys.with (libs : List Dependency) (types : OMap SemId SymTy) :
    Out SysError SymbolicSys := do
  let sym ← Symbols.with libs
  let (sys, sym) ← withLoop types [] sym
  pure ⟨sym, sys⟩

/-- `src/typesys/translate.rs:125-134`: the check of inner types. The condition is the one of the
code, `!self.types.contains_key(sem_id)`, on the id of the outer type. -/
def innerErrors (debug : Bool) (types : OMap SemId SymTy) :
    OMap SemId SymTy → Out (List SysError) (List SysError)
  | [] => .ok []
  | (id, info) :: rest => do
    let refs ← info.ty.iterRefs debug
    let errs ← innerErrors debug types rest
    pure ((refs.filter fun _ => (types.get id).isNone).map (fun r => .innerTypeAbsent r id) ++ errs)

/-- `src/typesys/translate.rs:118-140`: `SystemBuilder::finalize`. -/
def SystemBuilder.finalize (debug : Bool) (b : SystemBuilder) : Out (List SysError) SymbolicSys := do
  let errs ← innerErrors debug b.types b.types
  let errs := b.pending.map SysError.absentImport ++ errs
  if errs.isEmpty then (SymbolicSys.with b.imported b.types).mapErr fun e => [e]
  else .err errs

/-- `src/typesys/symbols.rs:76-79`: `Symbols::get`. -/
def Symbols.get (s : Symbols) (fqn : TypeFqn) : Option SemId :=
  (s.symbols.find? fun p => p.fqn = some fqn).map TypeSymbol.id

/-- `src/typesys/symbols.rs:81-83`: `Symbols::lookup`. -/
def Symbols.lookup (s : Symbols) (id : SemId) : Option TypeFqn :=
  (s.symbols.find? fun p => p.id = id).bind TypeSymbol.fqn

/-- `src/value/typify.rs:38-48`: `TypeSpec`. -/
inductive TypeSpec where
  | semId (id : SemId)
  | fqn (fqn : TypeFqn)
deriving DecidableEq, Repr

/-- `src/typesys/symbols.rs:157`: `SymbolicSys::resolve`. -/
def SymbolicSys.resolve (s : SymbolicSys) (fqn : TypeFqn) : Option SemId := s.symbols.get fqn

/-- `src/typesys/symbols.rs:159`: `SymbolicSys::lookup`. -/
def SymbolicSys.lookup (s : SymbolicSys) (id : SemId) : Option TypeFqn := s.symbols.lookup id

/-- `src/typesys/symbols.rs:161-166`: `SymbolicSys::to_sem_id`. -/
def SymbolicSys.toSemId (s : SymbolicSys) : TypeSpec → Option SemId
  | .semId id => some id
  | .fqn fqn => s.resolve fqn

/-- `src/typesys/symbols.rs:146-149`: `SymbolicSys::get`. -/
def SymbolicSys.get (s : SymbolicSys) (spec : TypeSpec) : Option (Ty SemId) := do
  let id ← s.toSemId spec
  s.types.get id

/-- `src/typesys/translate.rs:74-89`: `Translate<TypeSymbol> for SemId`. -/
def SymbolicSys.toSymbol (s : SymbolicSys) (id : SemId) : TypeSymbol :=
  match s.lookup id with
  | none => ⟨id, none⟩
  | some fqn => ⟨id, some fqn⟩

end Verif
