import Verif.Model.Ast

/-!
# Reference types, semantic ids and libraries

Semantic ids are modelled by the exact byte string fed to the hash function.
-/

namespace Verif

/-- `src/typelib/type_lib.rs:50-53`: `ExternRef`. -/
structure ExternRef where
  libId : LibId
  semId : SemId
deriving DecidableEq, Repr

/-- `src/typelib/type_lib.rs:148-151`: `InlineRef2`. -/
inductive InlineRef2 where
  | named (id : SemId)
  | extern (ext : ExternRef)
deriving DecidableEq, Repr

/-- `src/typelib/type_lib.rs:106-111`: `InlineRef1`. -/
inductive InlineRef1 where
  | inline (ty : Ty InlineRef2)
  | named (id : SemId)
  | extern (ext : ExternRef)
deriving DecidableEq, Repr

/-- `src/typelib/type_lib.rs:64-69`: `InlineRef`. -/
inductive InlineRef where
  | inline (ty : Ty InlineRef1)
  | named (id : SemId)
  | extern (ext : ExternRef)
deriving DecidableEq, Repr

/-- `src/typelib/type_lib.rs:173-178`: `LibRef`. -/
inductive LibRef where
  | inline (ty : Ty InlineRef)
  | named (id : SemId)
  | extern (ext : ExternRef)
deriving DecidableEq, Repr

/-- `src/typelib/symbolic.rs:67-72`: `SymbolRef`. -/
structure SymbolRef where
  libName : Name
  tyName : Name
  libId : LibId
  semId : SemId
deriving DecidableEq, Repr

/-- `src/typelib/symbolic.rs:90-92`: `From<SymbolRef> for ExternRef`. -/
def SymbolRef.toExtern (r : SymbolRef) : ExternRef := ⟨r.libId, r.semId⟩

/-- `src/typelib/symbolic.rs:98-104`: `TranspileRef`. -/
inductive TranspileRef where
  | embedded (ty : Ty TranspileRef)
  | named (name : Name)
  | extern (sym : SymbolRef)

/-! ## Commitments -/

/-- `src/ast/id.rs:134-160`: commitment of a name: length byte and bytes. -/
def Name.commit (n : Name) : Bytes := BitVec.ofNat 8 n.bytes.length :: n.bytes

/-- `src/ast/id.rs:245-250`: commitment of a variant. -/
def Variant.commit (v : Variant) : Bytes := v.name.commit ++ [v.tag]

/-- `src/ast/id.rs:252-258`: commitment of a sizing. -/
def Sizing.commit (s : Sizing) : Bytes := le 8 s.min.toNat ++ le 8 s.max.toNat

/-- `src/ast/id.rs:168-243`: commitment of a type, given the commitment of references. -/
def Ty.commit {Ref : Type} (f : Ref → Bytes) (t : Ty Ref) : Bytes :=
  t.cls.code :: match t with
    | .primitive c => [c]
    | .enum vs => vs.flatMap Variant.commit
    | .union vs => vs.flatMap fun v => v.1.commit ++ f v.2
    | .tuple fs => fs.flatMap f
    | .struct fs => fs.flatMap fun p => p.1.commit ++ f p.2
    | .array ty len => f ty ++ le 2 len.toNat
    | .unicodeChar => []
    | .list ty sz => f ty ++ sz.commit
    | .set ty sz => f ty ++ sz.commit
    | .map key ty sz => f key ++ f ty ++ sz.commit

/-- `src/ast/id.rs:162-166`: commitment of a semantic id. -/
def SemId.commit (i : SemId) : Bytes := i.bytes

/-- `src/typelib/id.rs:146-148`: commitment of an external reference (the library id is not
committed to). -/
def ExternRef.commit (e : ExternRef) : Bytes := SemId.commit e.semId

/-- `src/typelib/id.rs:117-124`. -/
def InlineRef2.commit : InlineRef2 → Bytes
  | .named id => SemId.commit id
  | .extern ext => ext.commit

/-- `src/typelib/id.rs:126-134`. -/
def InlineRef1.commit : InlineRef1 → Bytes
  | .inline ty => ty.commit InlineRef2.commit
  | .named id => SemId.commit id
  | .extern ext => ext.commit

/-- `src/typelib/id.rs:136-144`. -/
def InlineRef.commit : InlineRef → Bytes
  | .inline ty => ty.commit InlineRef1.commit
  | .named id => SemId.commit id
  | .extern ext => ext.commit

/-- `src/typelib/id.rs:107-115`. -/
def LibRef.commit : LibRef → Bytes
  | .inline ty => ty.commit InlineRef.commit
  | .named id => SemId.commit id
  | .extern ext => ext.commit

mutual
/-- `src/typelib/id.rs:93-105`: commitment of a `TranspileRef`; together with the functions below it
spells out `Ty.commit TranspileRef.commit` by structural recursion (lemma `commitTy_eq`). -/
def TranspileRef.commit : TranspileRef → Bytes
  | .embedded ty => TranspileRef.commitTy ty
  | .named name => name.commit
  | .extern sym => SemId.commit sym.semId
/-- `src/ast/id.rs:168-199` for `TranspileRef`. -/
def TranspileRef.commitTy : Ty TranspileRef → Bytes
  | .primitive c => [Cls.primitive.code, c]
  | .enum vs => Cls.enum.code :: vs.flatMap Variant.commit
  | .union vs => Cls.union.code :: TranspileRef.commitVariants vs
  | .tuple fs => Cls.tuple.code :: TranspileRef.commitRefs fs
  | .struct fs => Cls.struct.code :: TranspileRef.commitFields fs
  | .array ty len => Cls.array.code :: (TranspileRef.commit ty ++ le 2 len.toNat)
  | .unicodeChar => [Cls.unicode.code]
  | .list ty sz => Cls.list.code :: (TranspileRef.commit ty ++ sz.commit)
  | .set ty sz => Cls.set.code :: (TranspileRef.commit ty ++ sz.commit)
  | .map key ty sz =>
    Cls.map.code :: (TranspileRef.commit key ++ TranspileRef.commit ty ++ sz.commit)
/-- `src/ast/id.rs:237-243` for `TranspileRef`. -/
def TranspileRef.commitRefs : List TranspileRef → Bytes
  | [] => []
  | r :: rs => TranspileRef.commit r ++ TranspileRef.commitRefs rs
/-- `src/ast/id.rs:220-227` for `TranspileRef`. -/
def TranspileRef.commitVariants : List (Variant × TranspileRef) → Bytes
  | [] => []
  | (v, r) :: rs => v.commit ++ TranspileRef.commit r ++ TranspileRef.commitVariants rs
/-- `src/ast/id.rs:229-235` for `TranspileRef`. -/
def TranspileRef.commitFields : List (Name × TranspileRef) → Bytes
  | [] => []
  | (n, r) :: rs => n.commit ++ TranspileRef.commit r ++ TranspileRef.commitFields rs
end

/-! ## Ids -/

/-- `SEM_ID_TAG`, `src/ast/id.rs:73`: ASCII of `urn:ubideco:strict-types:typ:v01`. -/
def SEM_ID_TAG : Bytes :=
  [117, 114, 110, 58, 117, 98, 105, 100, 101, 99, 111, 58, 115, 116, 114, 105, 99, 116, 45, 116,
   121, 112, 101, 115, 58, 116, 121, 112, 58, 118, 48, 49]

/-- `LIB_ID_TAG`, `src/typelib/id.rs:37`: ASCII of `urn:ubideco:strict-types:lib:v01`. -/
def LIB_ID_TAG : Bytes :=
  [117, 114, 110, 58, 117, 98, 105, 100, 101, 99, 111, 58, 115, 116, 114, 105, 99, 116, 45, 116,
   121, 112, 101, 115, 58, 108, 105, 98, 58, 118, 48, 49]

/-- `TYPESYS_ID_TAG`, `src/typesys/id.rs`: ASCII of `urn:ubideco:strict-types:sys:v01`. -/
def TYPESYS_ID_TAG : Bytes :=
  [117, 114, 110, 58, 117, 98, 105, 100, 101, 99, 111, 58, 115, 116, 114, 105, 99, 116, 45, 116,
   121, 112, 101, 115, 58, 115, 121, 115, 58, 118, 48, 49]

/-- Tagged hash: hash of the doubled tag hash followed by the data (`src/ast/id.rs:91-99`,
`src/typelib/id.rs:152-157`, `src/typesys/id.rs:77-82`). -/
def taggedHash (H : Hash) (tag data : Bytes) : Id32 :=
  H ((H tag).bytes ++ (H tag).bytes ++ data)

/-- `src/ast/id.rs:90-100`: `Ty::sem_id_inner`. -/
def Ty.semIdInner {Ref : Type} (H : Hash) (f : Ref → Bytes) (t : Ty Ref) (name : Option Name) :
    SemId :=
  taggedHash H SEM_ID_TAG <|
    (match name with
      | some n => n.commit
      | none => []) ++ t.commit f

/-- `src/ast/id.rs:115`: `Ty::sem_id_named`. -/
def Ty.semIdNamed {Ref : Type} (H : Hash) (f : Ref → Bytes) (t : Ty Ref) (name : Name) : SemId :=
  t.semIdInner H f (some name)

/-- `src/ast/id.rs:104-111,116-122`: `Ty::sem_id_unnamed`. `asTy` is `TypeRef::as_ty`. The recursion
into the wrapped type is bounded by `depth`. -/
def Ty.semIdUnnamedN {Ref : Type} (H : Hash) (f : Ref → Bytes) (asTy : Ref → Option (Ty Ref)) :
    Nat → Ty Ref → SemId
  | 0, t => t.semIdInner H f none
  | depth + 1, t =>
    match t.asWrappedTy asTy with
    | some inner => inner.semIdUnnamedN H f asTy depth
    | none => t.semIdInner H f none

/-- `src/ast/ty.rs:42`: the default `TypeRef::as_ty`, which is the one of `SemId`, `LibRef`,
`InlineRef`, `InlineRef1`, `InlineRef2` (no override in `src/ast/id.rs:79-82`,
`src/typelib/type_lib.rs:71-199`). -/
def asTyDefault {Ref : Type} : Ref → Option (Ty Ref) := fun _ => none

/-- `Ty::sem_id_unnamed` for the reference types with the default `as_ty`. The depth bound 1 is
enough because the wrapped type is never found. -/
def Ty.semIdUnnamed {Ref : Type} (H : Hash) (f : Ref → Bytes) (t : Ty Ref) : SemId :=
  t.semIdUnnamedN H f asTyDefault 1

/-- `src/typelib/symbolic.rs:128-133`: `TranspileRef::as_ty`. -/
def TranspileRef.asTy : TranspileRef → Option (Ty TranspileRef)
  | .embedded ty => some ty
  | .named _ => none
  | .extern _ => none

/-- `src/ast/id.rs:126-128`: `Ty<TranspileRef>::sem_id_named`. -/
def TranspileRef.semIdNamed (H : Hash) (t : Ty TranspileRef) (name : Name) : SemId :=
  taggedHash H SEM_ID_TAG (name.commit ++ TranspileRef.commitTy t)

/-- `src/typelib/symbolic.rs:113-124`: `TranspileRef::id`. -/
def TranspileRef.id (H : Hash) : TranspileRef → SemId
  | .extern sym => sym.semId
  | r => taggedHash H SEM_ID_TAG r.commit

/-- `src/ast/id.rs:53,76`: `SemId::unit()`. -/
def SemId.unit (H : Hash) : SemId := Ty.semIdUnnamed H SemId.commit Ty.UNIT
/-- `src/ast/id.rs:85`: `SemId::byte()`. -/
def SemId.byte (H : Hash) : SemId := Ty.semIdUnnamed H SemId.commit Ty.BYTE
/-- `src/ast/id.rs:86`: `SemId::unicode_char()`. -/
def SemId.unicodeChar (H : Hash) : SemId := Ty.semIdUnnamed H SemId.commit Ty.unicodeChar
/-- `src/ast/id.rs:81`: `<SemId as TypeRef>::is_byte`. -/
def SemId.isByte (H : Hash) (i : SemId) : Bool :=
  SemId.byte H = i || Ty.semIdUnnamed H SemId.commit Ty.U8 = i
/-- `src/ast/id.rs:80`: `<SemId as TypeRef>::is_unicode_char`. -/
def SemId.isUnicodeChar (H : Hash) (i : SemId) : Bool := SemId.unicodeChar H = i

/-! ## Libraries and systems -/

/-- `src/typelib/type_lib.rs:215-218`: `Dependency`. -/
structure Dependency where
  id : LibId
  name : Name
deriving DecidableEq, Repr

/-- `src/typelib/type_lib.rs:224-226`: `PartialEq for Dependency`. -/
def Dependency.eqv (a b : Dependency) : Bool := a.id = b.id || a.name = b.name

/-- `src/typelib/type_lib.rs:232-234`: `Ord for Dependency`, by id; used by `BTreeSet<Dependency>`. -/
instance : KeyOrd Dependency := ⟨fun a b => KeyOrd.lt a.id b.id⟩

/-- `BTreeSet<Dependency>::insert`: the set is sorted by id, and an element with an equal id is kept
as it is (the argument is dropped). -/
def depInsert : List Dependency → Dependency → List Dependency
  | [], d => [d]
  | e :: s, d =>
    if KeyOrd.lt d.id e.id then d :: e :: s
    else if d.id = e.id then e :: s
    else e :: depInsert s d

/-- `src/typelib/symbolic.rs:38`: `ExternTypes`. -/
abbrev ExternTypes := OMap Name (OMap SemId Name)

/-- `src/typelib/type_lib.rs:261-266`: `TypeLib`. Dependencies are a `BTreeSet`, i.e. sorted by id. -/
structure TypeLib where
  name : Name
  dependencies : List Dependency
  externTypes : ExternTypes
  types : OMap Name (Ty LibRef)
deriving DecidableEq, Repr

/-- `src/typelib/id.rs:74-91`: commitment of a library. -/
def TypeLib.commit (H : Hash) (l : TypeLib) : Bytes :=
  l.name.commit ++ [BitVec.ofNat 8 l.dependencies.length] ++
  (l.dependencies.flatMap fun d => d.id.bytes) ++
  le 2 l.types.length ++
  (l.types.flatMap fun p => (Ty.semIdNamed H LibRef.commit p.2 p.1).bytes)

/-- `src/typelib/id.rs:150-159`: `TypeLib::id`. -/
def TypeLib.id (H : Hash) (l : TypeLib) : LibId := taggedHash H LIB_ID_TAG (l.commit H)

/-- `src/typesys/type_sys.rs:117`: `TypeSystem`: at most 2^24-1 types sorted by id. -/
abbrev TypeSystem := OMap SemId (Ty SemId)

/-- `src/typesys/id.rs:66-73`: commitment of a type system (`u24` is written as 3 bytes). -/
def TypeSystem.commit (s : TypeSystem) : Bytes :=
  le 3 s.length ++ s.keys.flatMap fun i => i.bytes

/-- `src/typesys/id.rs:75-84`: `TypeSystem::id`. -/
def TypeSystem.id (H : Hash) (s : TypeSystem) : Id32 := taggedHash H TYPESYS_ID_TAG s.commit

end Verif
