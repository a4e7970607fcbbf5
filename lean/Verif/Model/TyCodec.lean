import Verif.Model.System

/-!
# Binary form of types, libraries and type systems

The strict encoding of the data structures themselves, as produced by the derives and by
`src/ast/encoding.rs`. Writers are functions to bytes, readers take the input and return the decoded
object with the bytes left. The derives and the codecs of the containers are external
(`strict_encoding`); they are modelled as described in DESIGN.md and checked against the files in
`stl/` by `tools/golden.py`.
-/

namespace Verif

/-- Kinds of the external `DecodeError`: end of input, invalid identifier, unknown enum tag, keys out
of order, repeated key, collection out of bounds; `left` is the error of
`StrictDeserialize::from_strict_serialized` when bytes are left. -/
inductive CErr where
  | io
  | name
  | tag
  | broken
  | repeated
  | confinement
  | left
deriving DecidableEq, Repr

/-! ## Elements -/

/-- Reading exactly `n` bytes (`read_raw`). -/
def decRaw (n : Nat) (bs : Bytes) : Out CErr (Bytes × Bytes) :=
  if n ≤ bs.length then .ok (bs.take n, bs.drop n) else .err .io

/-- Reading a little-endian number of `n` bytes (`u8`, `u16`, `u24`, `u64`). -/
def decNat (n : Nat) (bs : Bytes) : Out CErr (Nat × Bytes) := do
  let (b, bs) ← decRaw n bs
  pure (fromLe b, bs)

/-- Reading one byte (`u8`). -/
def decByte : Bytes → Out CErr (Byte × Bytes)
  | [] => .err .io
  | b :: bs => .ok (b, bs)

/-- Writing an identifier (`LibName`, `TypeName`, `FieldName`, `VariantName`): length byte and
characters. -/
def encName (n : Name) : Bytes := le 1 n.bytes.length ++ n.bytes

/-- Reading an identifier: anything invalid is an error. -/
def decName (bs : Bytes) : Out CErr (Name × Bytes) := do
  let (len, bs) ← decNat 1 bs
  let (s, bs) ← decRaw len bs
  let n ← Out.ofOption .name (Name.ofBytes? s)
  pure (n, bs)

/-- Writing a 32-byte id (`src/ast/id.rs:44`, `src/typelib/id.rs:44`). -/
def encId (i : Id32) : Bytes := i.bytes

/-- Reading a 32-byte id. -/
def decId (bs : Bytes) : Out CErr (Id32 × Bytes) :=
  if h : 32 ≤ bs.length then .ok (⟨bs.take 32, by simp; omega⟩, bs.drop 32) else .err .io

/-- Writing `Sizing` (external): two `u64`. -/
def encSizing (s : Sizing) : Bytes := le 8 s.min.toNat ++ le 8 s.max.toNat

/-- Reading `Sizing`: no check that `min ≤ max`. -/
def decSizing (bs : Bytes) : Out CErr (Sizing × Bytes) := do
  let (lo, bs) ← decNat 8 bs
  let (hi, bs) ← decNat 8 bs
  pure (⟨BitVec.ofNat 64 lo, BitVec.ofNat 64 hi⟩, bs)

/-- Writing `Variant` (external): name and tag. -/
def encVariant (v : Variant) : Bytes := encName v.name ++ [v.tag]

/-- Reading `Variant`. -/
def decVariant (bs : Bytes) : Out CErr (Variant × Bytes) := do
  let (n, bs) ← decName bs
  let (t, bs) ← decByte bs
  pure (⟨n, t⟩, bs)

/-! ## Containers -/

/-- Writing a collection: length of `w` bytes, then the items in order. -/
def encSeq {α : Type} (w : Nat) (f : α → Bytes) (l : List α) : Bytes :=
  le w l.length ++ l.flatMap f

/-- Reading `n` items one after the other. -/
def decN {α : Type} (f : Bytes → Out CErr (α × Bytes)) : Nat → Bytes → Out CErr (List α × Bytes)
  | 0, bs => .ok ([], bs)
  | n + 1, bs => do
    let (a, bs) ← f bs
    let (as, bs) ← decN f n bs
    pure (a :: as, bs)

/-- `Confined::try_from` for a collection with a lower bound; the upper bound is the one of the length
prefix. -/
def checkMin {α : Type} (lo : Nat) (l : List α) : Out CErr (List α) :=
  if lo ≤ l.length then .ok l else .err .confinement

/-- Reading `Confined<Vec<T>, lo, _>`. -/
def decVec {α : Type} (w lo : Nat) (f : Bytes → Out CErr (α × Bytes)) (bs : Bytes) :
    Out CErr (List α × Bytes) := do
  let (n, bs) ← decNat w bs
  let (l, bs) ← decN f n bs
  let l ← checkMin lo l
  pure (l, bs)

/-- `BTreeSet::insert` and `BTreeMap::insert` of a new key, `none` if an equal key is found. The
search walks the sorted keys. Simplification: exact for an order that is total and transitive; for
`Variant` exact for trees of one node (at most 11 keys) or if no two variants share a name. -/
def cmpInsert {α : Type} (cmp : α → α → Ordering) : List α → α → Option (List α)
  | [], x => some [x]
  | y :: m, x =>
    match cmp x y with
    | .lt => some (x :: y :: m)
    | .eq => none
    | .gt => (cmpInsert cmp m x).map (y :: ·)

/-- The last key is greater than the item (`col.last() > &item`). -/
def lastGt {α : Type} (cmp : α → α → Ordering) (acc : List α) (x : α) : Bool :=
  match acc.getLast? with
  | none => false
  | some l => cmp l x = .gt

/-- Loop reading `n` items of a `BTreeSet`, or entries of a `BTreeMap` if `cmp` compares keys. -/
def decOrd {α : Type} (cmp : α → α → Ordering) (f : Bytes → Out CErr (α × Bytes)) :
    Nat → List α → Bytes → Out CErr (List α × Bytes)
  | 0, acc, bs => .ok (acc, bs)
  | n + 1, acc, bs => do
    let (x, bs) ← f bs
    if lastGt cmp acc x then .err .broken
    else match cmpInsert cmp acc x with
      | none => .err .repeated
      | some acc => decOrd cmp f n acc bs

/-- Reading `Confined<BTreeSet<T>, lo, _>` or `Confined<BTreeMap<K, V>, lo, _>`. -/
def decSet {α : Type} (w lo : Nat) (cmp : α → α → Ordering) (f : Bytes → Out CErr (α × Bytes))
    (bs : Bytes) : Out CErr (List α × Bytes) := do
  let (n, bs) ← decNat w bs
  let (l, bs) ← decOrd cmp f n [] bs
  let l ← checkMin lo l
  pure (l, bs)

/-- `Ord::cmp` of keys. -/
def keyCmp {K : Type} [KeyOrd K] [DecidableEq K] (a b : K) : Ordering :=
  if KeyOrd.lt a b then .lt else if a = b then .eq else .gt

/-- Comparison of map entries by key. -/
def entryCmp {K V : Type} [KeyOrd K] [DecidableEq K] (a b : K × V) : Ordering := keyCmp a.1 b.1

/-- Writing a pair (map entries, two-field structures). -/
def encPair {α β : Type} (f : α → Bytes) (g : β → Bytes) (p : α × β) : Bytes := f p.1 ++ g p.2

/-- Reading a pair. -/
def decPair {α β : Type} (f : Bytes → Out CErr (α × Bytes)) (g : Bytes → Out CErr (β × Bytes))
    (bs : Bytes) : Out CErr ((α × β) × Bytes) := do
  let (a, bs) ← f bs
  let (b, bs) ← g bs
  pure ((a, b), bs)

/-! ## Types -/

/-- `src/ast/encoding.rs:44-54`: the map by tag built for writing a union. -/
def unionFields {Ref : Type} (vs : List (Variant × Ref)) : OMap Byte (Name × Ref) :=
  vs.foldl (fun m p => OMap.insert m p.1.tag (p.1.name, p.2)) []

/-- `src/ast/encoding.rs:56-71`: the variants rebuilt from the map by tag after reading. -/
def unionOfFields {Ref : Type} (m : OMap Byte (Name × Ref)) : List (Variant × Ref) :=
  m.foldl (fun acc e => variantInsert acc ⟨e.2.1, e.1⟩ e.2.2) []

/-- `src/ast/ty.rs:108-150`: derived writing of `Ty`, with the tags of the `strict_type` attributes;
the enum variants (`ty.rs:646`), fields (`ty.rs:348,370,445`) and union variants
(`src/ast/encoding.rs:43-55`) have one-byte lengths. The `expect` of `encoding.rs:53` cannot fail for
at most 255 variants. -/
def Ty.encode {Ref : Type} (f : Ref → Bytes) : Ty Ref → Bytes
  | .primitive c => [0, c]
  | .unicodeChar => [1]
  | .enum vs => 3 :: encSeq 1 encVariant vs
  | .union vs => 4 :: encSeq 1 (fun e => e.1 :: encPair encName f e.2) (unionFields vs)
  | .tuple fs => 5 :: encSeq 1 f fs
  | .struct fs => 6 :: encSeq 1 (encPair encName f) fs
  | .array ty len => 7 :: (f ty ++ le 2 len.toNat)
  | .list ty sz => 8 :: (f ty ++ encSizing sz)
  | .set ty sz => 9 :: (f ty ++ encSizing sz)
  | .map key ty sz => 10 :: (f key ++ f ty ++ encSizing sz)

/-- `src/ast/encoding.rs:56-71`: reading union variants. -/
def decUnion {Ref : Type} (f : Bytes → Out CErr (Ref × Bytes)) (bs : Bytes) :
    Out CErr (List (Variant × Ref) × Bytes) := do
  let (m, bs) ← decSet 1 0 entryCmp (decPair decByte (decPair decName f)) bs
  let vs ← checkMin 1 (unionOfFields m)
  pure (vs, bs)

/-- Comparison of enum variants in their `BTreeSet`. -/
def variantCmp : Variant → Variant → Ordering := Variant.cmp

/-- `src/ast/ty.rs:108-150`: derived reading of `Ty`, given the reading of references. -/
def decTy {Ref : Type} (f : Bytes → Out CErr (Ref × Bytes)) (bs : Bytes) :
    Out CErr (Ty Ref × Bytes) := do
  let (tag, bs) ← decByte bs
  match tag.toNat with
  | 0 => do
    let (c, bs) ← decByte bs
    pure (.primitive c, bs)
  | 1 => pure (.unicodeChar, bs)
  | 3 => do
    let (vs, bs) ← decSet 1 1 variantCmp decVariant bs
    pure (.enum vs, bs)
  | 4 => do
    let (vs, bs) ← decUnion f bs
    pure (.union vs, bs)
  | 5 => do
    let (fs, bs) ← decVec 1 1 f bs
    pure (.tuple fs, bs)
  | 6 => do
    let (fs, bs) ← decVec 1 1 (decPair decName f) bs
    pure (.struct fs, bs)
  | 7 => do
    let (ty, bs) ← f bs
    let (len, bs) ← decNat 2 bs
    pure (.array ty (BitVec.ofNat 16 len), bs)
  | 8 => do
    let (ty, bs) ← f bs
    let (sz, bs) ← decSizing bs
    pure (.list ty sz, bs)
  | 9 => do
    let (ty, bs) ← f bs
    let (sz, bs) ← decSizing bs
    pure (.set ty sz, bs)
  | 10 => do
    let (key, bs) ← f bs
    let (ty, bs) ← f bs
    let (sz, bs) ← decSizing bs
    pure (.map key ty sz, bs)
  | _ => .err .tag

/-! ## References -/

/-- `src/typelib/type_lib.rs:45-53`: writing `ExternRef`. -/
def encExtern (e : ExternRef) : Bytes := encId e.libId ++ encId e.semId

/-- `src/typelib/type_lib.rs:45-53`: reading `ExternRef`. -/
def decExtern (bs : Bytes) : Out CErr (ExternRef × Bytes) := do
  let (l, bs) ← decId bs
  let (s, bs) ← decId bs
  pure (⟨l, s⟩, bs)

/-- `src/typelib/type_lib.rs:144-151`: writing `InlineRef2` (tags by order). -/
def InlineRef2.encode : InlineRef2 → Bytes
  | .named id => 0 :: encId id
  | .extern e => 1 :: encExtern e

/-- `src/typelib/type_lib.rs:144-151`: reading `InlineRef2`. -/
def decRef2 (bs : Bytes) : Out CErr (InlineRef2 × Bytes) := do
  let (tag, bs) ← decByte bs
  match tag.toNat with
  | 0 => do
    let (id, bs) ← decId bs
    pure (.named id, bs)
  | 1 => do
    let (e, bs) ← decExtern bs
    pure (.extern e, bs)
  | _ => .err .tag

/-- `src/typelib/type_lib.rs:102-111`: writing `InlineRef1` (tags by order). -/
def InlineRef1.encode : InlineRef1 → Bytes
  | .inline ty => 0 :: ty.encode InlineRef2.encode
  | .named id => 1 :: encId id
  | .extern e => 2 :: encExtern e

/-- `src/typelib/type_lib.rs:102-111`: reading `InlineRef1`. -/
def decRef1 (bs : Bytes) : Out CErr (InlineRef1 × Bytes) := do
  let (tag, bs) ← decByte bs
  match tag.toNat with
  | 0 => do
    let (ty, bs) ← decTy decRef2 bs
    pure (.inline ty, bs)
  | 1 => do
    let (id, bs) ← decId bs
    pure (.named id, bs)
  | 2 => do
    let (e, bs) ← decExtern bs
    pure (.extern e, bs)
  | _ => .err .tag

/-- `src/typelib/type_lib.rs:59-69`: writing `InlineRef` (tags by order). -/
def InlineRef.encode : InlineRef → Bytes
  | .inline ty => 0 :: ty.encode InlineRef1.encode
  | .named id => 1 :: encId id
  | .extern e => 2 :: encExtern e

/-- `src/typelib/type_lib.rs:59-69`: reading `InlineRef`. -/
def decRef0 (bs : Bytes) : Out CErr (InlineRef × Bytes) := do
  let (tag, bs) ← decByte bs
  match tag.toNat with
  | 0 => do
    let (ty, bs) ← decTy decRef1 bs
    pure (.inline ty, bs)
  | 1 => do
    let (id, bs) ← decId bs
    pure (.named id, bs)
  | 2 => do
    let (e, bs) ← decExtern bs
    pure (.extern e, bs)
  | _ => .err .tag

/-- `src/typelib/type_lib.rs:168-178`: writing `LibRef` (tags by order). -/
def LibRef.encode : LibRef → Bytes
  | .inline ty => 0 :: ty.encode InlineRef.encode
  | .named id => 1 :: encId id
  | .extern e => 2 :: encExtern e

/-- `src/typelib/type_lib.rs:168-178`: reading `LibRef`. -/
def decLibRef (bs : Bytes) : Out CErr (LibRef × Bytes) := do
  let (tag, bs) ← decByte bs
  match tag.toNat with
  | 0 => do
    let (ty, bs) ← decTy decRef0 bs
    pure (.inline ty, bs)
  | 1 => do
    let (id, bs) ← decId bs
    pure (.named id, bs)
  | 2 => do
    let (e, bs) ← decExtern bs
    pure (.extern e, bs)
  | _ => .err .tag

/-! ## Libraries -/

/-- `src/typelib/type_lib.rs:211-218`: writing `Dependency`. -/
def encDep (d : Dependency) : Bytes := encId d.id ++ encName d.name

/-- `src/typelib/type_lib.rs:211-218`: reading `Dependency`. -/
def decDep (bs : Bytes) : Out CErr (Dependency × Bytes) := do
  let (id, bs) ← decId bs
  let (n, bs) ← decName bs
  pure (⟨id, n⟩, bs)

/-- `src/typelib/type_lib.rs:232-234`: `Ord for Dependency`. -/
def depCmp (a b : Dependency) : Ordering := keyCmp a.id b.id

/-- `src/typelib/symbolic.rs:38`: writing `ExternTypes`, a `TinyOrdMap` of `SmallOrdMap`s. -/
def encExternTypes (m : ExternTypes) : Bytes :=
  encSeq 1 (encPair encName (encSeq 2 (encPair encId encName))) m

/-- `src/typelib/symbolic.rs:38`: reading `ExternTypes`. -/
def decExternTypes (bs : Bytes) : Out CErr (ExternTypes × Bytes) :=
  decSet 1 0 entryCmp (decPair decName (decSet 2 0 entryCmp (decPair decId decName))) bs

/-- `src/typelib/type_lib.rs:256-266`: writing `TypeLib` (`TypeMap` has a two-byte length). -/
def TypeLib.encode (l : TypeLib) : Bytes :=
  encName l.name ++ encSeq 1 encDep l.dependencies ++ encExternTypes l.externTypes ++
    encSeq 2 (encPair encName (Ty.encode LibRef.encode)) l.types

/-- `src/typelib/type_lib.rs:256-266`: reading `TypeLib`. -/
def decTypeLib (bs : Bytes) : Out CErr (TypeLib × Bytes) := do
  let (name, bs) ← decName bs
  let (deps, bs) ← decSet 1 0 depCmp decDep bs
  let (ext, bs) ← decExternTypes bs
  let (types, bs) ← decSet 2 1 entryCmp (decPair decName (decTy decLibRef)) bs
  pure (⟨name, deps, ext, types⟩, bs)

/-! ## Type systems -/

/-- `src/typesys/type_sys.rs:112-117`: writing `TypeSystem` (`MediumOrdMap` has a three-byte
length). -/
def TypeSystem.encode (s : TypeSystem) : Bytes := encSeq 3 (encPair encId (Ty.encode encId)) s

/-- `src/typesys/type_sys.rs:112-117`: reading `TypeSystem`. -/
def decTypeSystem (bs : Bytes) : Out CErr (TypeSystem × Bytes) :=
  decSet 3 0 entryCmp (decPair decId (decTy decId)) bs

/-- Writing an `Option` (external): a tag byte and the value. -/
def encOption {α : Type} (f : α → Bytes) : Option α → Bytes
  | none => [0]
  | some a => 1 :: f a

/-- Reading an `Option`. -/
def decOption {α : Type} (f : Bytes → Out CErr (α × Bytes)) (bs : Bytes) :
    Out CErr (Option α × Bytes) := do
  let (tag, bs) ← decByte bs
  match tag.toNat with
  | 0 => pure (none, bs)
  | 1 => do
    let (a, bs) ← f bs
    pure (some a, bs)
  | _ => .err .tag

/-- `src/typesys/type_sys.rs:43-51`: writing `TypeFqn`. -/
def encFqn (q : TypeFqn) : Bytes := encName q.lib ++ encName q.name

/-- `src/typesys/type_sys.rs:43-51`: reading `TypeFqn`. -/
def decFqn (bs : Bytes) : Out CErr (TypeFqn × Bytes) := do
  let (l, bs) ← decName bs
  let (n, bs) ← decName bs
  pure (⟨l, n⟩, bs)

/-- `src/typesys/translate.rs:37-44`: writing `TypeSymbol`. -/
def encSymbol (s : TypeSymbol) : Bytes := encId s.id ++ encOption encFqn s.fqn

/-- `src/typesys/translate.rs:37-44`: reading `TypeSymbol`. -/
def decSymbol (bs : Bytes) : Out CErr (TypeSymbol × Bytes) := do
  let (id, bs) ← decId bs
  let (q, bs) ← decOption decFqn bs
  pure (⟨id, q⟩, bs)

/-- `src/typesys/symbols.rs:35-42`: writing `Symbols` (`SmallOrdSet`, `MediumOrdSet`). -/
def Symbols.encode (s : Symbols) : Bytes := encSeq 2 encDep s.libs ++ encSeq 3 encSymbol s.symbols

/-- `src/typesys/symbols.rs:35-42`: reading `Symbols`. -/
def decSymbols (bs : Bytes) : Out CErr (Symbols × Bytes) := do
  let (libs, bs) ← decSet 2 0 depCmp decDep bs
  let (syms, bs) ← decSet 3 0 keyCmp decSymbol bs
  pure (⟨libs, syms⟩, bs)

/-- `src/typesys/symbols.rs:110-118`: writing `SymbolicSys`. -/
def SymbolicSys.encode (s : SymbolicSys) : Bytes := s.symbols.encode ++ s.types.encode

/-- `src/typesys/symbols.rs:110-118`: reading `SymbolicSys`. -/
def decSymbolicSys (bs : Bytes) : Out CErr (SymbolicSys × Bytes) := do
  let (sym, bs) ← decSymbols bs
  let (sys, bs) ← decTypeSystem bs
  pure (⟨sym, sys⟩, bs)

/-- `StrictDeserialize::from_strict_serialized` (external; implemented for `TypeLib` at
`src/typelib/serialize.rs:35`, `TypeSystem` at `src/typesys/type_sys.rs:120`, `Symbols` and
`SymbolicSys` at `src/typesys/symbols.rs:45,121`): all bytes must be consumed. The limit on the input
length (a parameter of the caller) is not modelled. -/
def fromSerialized {α : Type} (f : Bytes → Out CErr (α × Bytes)) (bs : Bytes) : Out CErr α := do
  let (a, rest) ← f bs
  if rest.isEmpty then pure a else .err .left

/-! ## Symbolic libraries -/

/-- `src/typelib/symbolic.rs:62-72`: writing `SymbolRef`. -/
def encSymbolRef (r : SymbolRef) : Bytes :=
  encName r.libName ++ encName r.tyName ++ encId r.libId ++ encId r.semId

/-- `src/typelib/symbolic.rs:62-72`: reading `SymbolRef`. -/
def decSymbolRef (bs : Bytes) : Out CErr (SymbolRef × Bytes) := do
  let (l, bs) ← decName bs
  let (t, bs) ← decName bs
  let (i, bs) ← decId bs
  let (s, bs) ← decId bs
  pure (⟨l, t, i, s⟩, bs)

mutual
/-- `src/typelib/symbolic.rs:94-104`: writing `TranspileRef` (tags by order). Together with the
functions below it spells out `Ty.encode TranspileRef.encode` by structural recursion; the variants of
a union are written in the order they have, which is the order by tag for well-formed types (lemma
`encodeTy_eq`). -/
def TranspileRef.encode : TranspileRef → Bytes
  | .embedded ty => 0 :: TranspileRef.encodeTy ty
  | .named n => 1 :: encName n
  | .extern s => 2 :: encSymbolRef s
/-- `src/ast/ty.rs:108-150` for `TranspileRef`. -/
def TranspileRef.encodeTy : Ty TranspileRef → Bytes
  | .primitive c => [0, c]
  | .unicodeChar => [1]
  | .enum vs => 3 :: encSeq 1 encVariant vs
  | .union vs => 4 :: (le 1 vs.length ++ TranspileRef.encodeVariants vs)
  | .tuple fs => 5 :: (le 1 fs.length ++ TranspileRef.encodeRefs fs)
  | .struct fs => 6 :: (le 1 fs.length ++ TranspileRef.encodeFields fs)
  | .array ty len => 7 :: (TranspileRef.encode ty ++ le 2 len.toNat)
  | .list ty sz => 8 :: (TranspileRef.encode ty ++ encSizing sz)
  | .set ty sz => 9 :: (TranspileRef.encode ty ++ encSizing sz)
  | .map key ty sz =>
    10 :: (TranspileRef.encode key ++ TranspileRef.encode ty ++ encSizing sz)
/-- Items of `UnnamedFields` (`src/ast/ty.rs:445`) for `TranspileRef`. -/
def TranspileRef.encodeRefs : List TranspileRef → Bytes
  | [] => []
  | r :: rs => TranspileRef.encode r ++ TranspileRef.encodeRefs rs
/-- Entries of a union (`src/ast/encoding.rs:43-55`) for `TranspileRef`. -/
def TranspileRef.encodeVariants : List (Variant × TranspileRef) → Bytes
  | [] => []
  | (v, r) :: rs =>
    v.tag :: (encName v.name ++ TranspileRef.encode r) ++ TranspileRef.encodeVariants rs
/-- Items of `NamedFields` (`src/ast/ty.rs:348,370`) for `TranspileRef`. -/
def TranspileRef.encodeFields : List (Name × TranspileRef) → Bytes
  | [] => []
  | (n, r) :: rs => encName n ++ TranspileRef.encode r ++ TranspileRef.encodeFields rs
end

/-- `src/typelib/symbolic.rs:94-104`: reading `TranspileRef`. The nesting of embedded types is bounded
by `fuel`. -/
def decTranspileRef : Nat → Bytes → Out CErr (TranspileRef × Bytes)
  | 0, _ => .diverge
  | fuel + 1, bs => do
    let (tag, bs) ← decByte bs
    match tag.toNat with
    | 0 => do
      let (ty, bs) ← decTy (decTranspileRef fuel) bs
      pure (.embedded ty, bs)
    | 1 => do
      let (n, bs) ← decName bs
      pure (.named n, bs)
    | 2 => do
      let (s, bs) ← decSymbolRef bs
      pure (.extern s, bs)
    | _ => .err .tag

/-- `src/typelib/symbolic.rs:40-48`: writing `SymbolicLib`; the bound of `types` is the default
`usize::MAX`, hence an eight-byte length. -/
def SymbolicLib.encode (l : SymbolicLib) : Bytes :=
  encName l.name ++ encSeq 1 encDep l.dependencies ++ encExternTypes l.externTypes ++
    encSeq 8 (encPair encName TranspileRef.encodeTy) l.types

/-- `src/typelib/symbolic.rs:40-48`: reading `SymbolicLib`. -/
def decSymbolicLib (fuel : Nat) (bs : Bytes) : Out CErr (SymbolicLib × Bytes) := do
  let (name, bs) ← decName bs
  let (deps, bs) ← decSet 1 0 depCmp decDep bs
  let (ext, bs) ← decExternTypes bs
  let (types, bs) ← decSet 8 1 entryCmp (decPair decName (decTy (decTranspileRef fuel))) bs
  pure (⟨name, deps, ext, types⟩, bs)

end Verif
