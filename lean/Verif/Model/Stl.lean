import Verif.Model.Crates

/-!
# The libraries `Std` and `StrictTypes`

The Rust types of which this crate makes its own two libraries (`src/stl.rs`). Types and names which
are external (`strict_encoding`: character sets, identifiers, `Sizing`, `Variant`, `Primitive`, names
of generic types) are taken from the files in `stl/`. `Verif/Golden.lean` checks that the libraries
built from these definitions are the ones in `stl/`, byte for byte.
-/

namespace Verif.Stl

/-! ## Character sets -/

/-- The name with these characters; all uses below are valid names. -/
def ident (b : Bytes) : Name := (Name.ofBytes? b).getD LIB_EMBEDDED

/-- Capital letters: `_A`, `_B`, … with their ASCII codes (external). -/
def caps : List Variant :=
  (List.range 26).map fun i => ⟨ident [95, BitVec.ofNat 8 (65 + i)], BitVec.ofNat 8 (65 + i)⟩

/-- Small letters (external). -/
def small : List Variant :=
  (List.range 26).map fun i => ⟨ident [BitVec.ofNat 8 (97 + i)], BitVec.ofNat 8 (97 + i)⟩

/-- Digits (external). -/
def digits : List Variant := [⟨n!"zero", 48⟩, ⟨n!"one", 49⟩, ⟨n!"two", 50⟩, ⟨n!"three", 51⟩, ⟨n!"four", 52⟩,
  ⟨n!"five", 53⟩, ⟨n!"six", 54⟩, ⟨n!"seven", 55⟩, ⟨n!"eight", 56⟩, ⟨n!"nine", 57⟩]

/-- Dash (external). -/
def dash : Variant := ⟨n!"dash", 45⟩
/-- Dot (external). -/
def dot : Variant := ⟨n!"dot", 46⟩
/-- Underscore (external). -/
def lodash : Variant := ⟨n!"lodash", 95⟩

/-- Control characters (external). -/
def controls : List Variant := [⟨n!"nul", 0⟩, ⟨n!"soh", 1⟩, ⟨n!"stx", 2⟩, ⟨n!"etx", 3⟩, ⟨n!"eot", 4⟩, ⟨n!"enq", 5⟩,
  ⟨n!"ack", 6⟩, ⟨n!"bel", 7⟩, ⟨n!"bs", 8⟩, ⟨n!"ht", 9⟩, ⟨n!"lf", 10⟩, ⟨n!"vt", 11⟩, ⟨n!"ff", 12⟩, ⟨n!"cr", 13⟩,
  ⟨n!"so", 14⟩, ⟨n!"si", 15⟩, ⟨n!"dle", 16⟩, ⟨n!"dc1", 17⟩, ⟨n!"dc2", 18⟩, ⟨n!"dc3", 19⟩, ⟨n!"dc4", 20⟩,
  ⟨n!"nack", 21⟩, ⟨n!"syn", 22⟩, ⟨n!"etb", 23⟩, ⟨n!"can", 24⟩, ⟨n!"em", 25⟩, ⟨n!"sub", 26⟩, ⟨n!"esc", 27⟩,
  ⟨n!"fs", 28⟩, ⟨n!"gs", 29⟩, ⟨n!"rs", 30⟩, ⟨n!"us", 31⟩]

/-- Punctuation (external). -/
def signs : List Variant := [⟨n!"space", 32⟩, ⟨n!"excl", 33⟩, ⟨n!"quotes", 34⟩, ⟨n!"hash", 35⟩, ⟨n!"dollar", 36⟩,
  ⟨n!"percent", 37⟩, ⟨n!"ampersand", 38⟩, ⟨n!"apostrophe", 39⟩, ⟨n!"bracketL", 40⟩, ⟨n!"bracketR", 41⟩,
  ⟨n!"asterisk", 42⟩, ⟨n!"plus", 43⟩, ⟨n!"comma", 44⟩, ⟨n!"minus", 45⟩, dot, ⟨n!"slash", 47⟩,
  ⟨n!"colon", 58⟩, ⟨n!"semiColon", 59⟩, ⟨n!"less", 60⟩, ⟨n!"equal", 61⟩, ⟨n!"greater", 62⟩, ⟨n!"question", 63⟩,
  ⟨n!"at", 64⟩, ⟨n!"sqBracketL", 91⟩, ⟨n!"backSlash", 92⟩, ⟨n!"sqBracketR", 93⟩, ⟨n!"caret", 94⟩, lodash,
  ⟨n!"backtick", 96⟩, ⟨n!"cBracketL", 123⟩, ⟨n!"pipe", 124⟩, ⟨n!"cBracketR", 125⟩, ⟨n!"tilde", 126⟩]

/-- Hexadecimal digits above nine, from a letter on (external). -/
def hexLetters (a : Nat) : List Variant := [⟨n!"ten", BitVec.ofNat 8 a⟩, ⟨n!"eleven", BitVec.ofNat 8 (a + 1)⟩,
  ⟨n!"twelve", BitVec.ofNat 8 (a + 2)⟩, ⟨n!"thirteen", BitVec.ofNat 8 (a + 3)⟩,
  ⟨n!"fourteen", BitVec.ofNat 8 (a + 4)⟩, ⟨n!"fifteen", BitVec.ofNat 8 (a + 5)⟩]

/-- Decimal digits of a number below 1000. -/
def decimal (n : Nat) : Bytes :=
  let d := fun k => BitVec.ofNat 8 (48 + k % 10)
  if n < 10 then [d n] else if n < 100 then [d (n / 10), d n] else [d (n / 100), d (n / 10), d n]

/-- Numbers below `n`: `_0`, `_1`, … (external). -/
def numbers (n : Nat) : List Variant :=
  (List.range n).map fun i => ⟨ident (95 :: decimal i), BitVec.ofNat 8 i⟩

/-- A type of the library `Std`. -/
def std (name : Name) (vs : List Variant) : RTy := .enum n!"Std" (some name) vs

/-- `AlphaLodash`. -/
def alphaLodash : RTy := std n!"AlphaLodash" (caps ++ small ++ [lodash])
/-- `AlphaCapsLodash`. -/
def alphaCapsLodash : RTy := std n!"AlphaCapsLodash" (caps ++ [lodash])
/-- `AlphaSmallLodash`. -/
def alphaSmallLodash : RTy := std n!"AlphaSmallLodash" (small ++ [lodash])
/-- `AlphaNumLodash`. -/
def alphaNumLodash : RTy := std n!"AlphaNumLodash" (caps ++ small ++ digits ++ [lodash])

/-- `src/stl.rs:44-77`: the types of `Std`, in the order in which they are transpiled. -/
def stdTypes : List RTy := [
  std n!"Bool" [⟨n!"false", 0⟩, ⟨n!"true", 1⟩],
  std n!"U1" (numbers 2), std n!"U2" (numbers 4), std n!"U3" (numbers 8), std n!"U4" (numbers 16),
  std n!"U5" (numbers 32), std n!"U6" (numbers 64), std n!"U7" (numbers 128),
  std n!"Ascii" (controls ++ signs ++ digits ++ caps ++ small ++ [⟨n!"del", 127⟩]),
  std n!"AsciiPrintable" (signs ++ digits ++ caps ++ small),
  std n!"Alpha" (caps ++ small), std n!"AlphaDot" (caps ++ small ++ [dot]),
  std n!"AlphaDash" (caps ++ small ++ [dash]), alphaLodash,
  std n!"AlphaCaps" caps, std n!"AlphaCapsDot" (caps ++ [dot]), std n!"AlphaCapsDash" (caps ++ [dash]),
  alphaCapsLodash,
  std n!"AlphaSmall" small, std n!"AlphaSmallDot" (small ++ [dot]), std n!"AlphaSmallDash" (small ++ [dash]),
  alphaSmallLodash,
  std n!"Dec" digits, std n!"DecDot" (digits ++ [dot]), std n!"HexDecCaps" (digits ++ hexLetters 65),
  std n!"HexDecSmall" (digits ++ hexLetters 97),
  std n!"AlphaNum" (caps ++ small ++ digits), std n!"AlphaCapsNum" (caps ++ digits),
  std n!"AlphaNumDot" (caps ++ small ++ digits ++ [dot]), std n!"AlphaNumDash" (caps ++ small ++ digits ++ [dash]),
  alphaNumLodash]

/-- `src/stl.rs:44-80`: `Std`. -/
def stdCrate : Crate := ⟨n!"Std", stdTypes⟩

/-! ## Derived implementations -/

/-- The name of the library. -/
def lib : Name := n!"StrictTypes"

/-- A struct with named fields. -/
def rec2 (name : Name) (fs : List (Name × RTy)) : RTy :=
  .record lib (some name) false (fs.map fun f => (some f.1, f.2))

/-- A struct with a single unnamed field. -/
def newtype (name : Name) (t : RTy) : RTy := .record lib (some name) true [(none, t)]

/-- The payload of a variant. -/
def payload (ts : List RTy) : RTy := .record LIB_EMBEDDED none true (ts.map fun t => (none, t))

/-- An enum with payloads; `written` is the variant marked as `dumb`. -/
def union (name : Name) (written : Nat) (vs : List (Name × Byte × RTy)) : RTy :=
  .union lib (some name) (vs.map fun v => (⟨v.1, v.2.1⟩, v.2.2)) written

/-- `Option` (external). -/
def option (t : RTy) : RTy :=
  .union LIB_EMBEDDED none [(⟨n!"none", 0⟩, payload []), (⟨n!"some", 1⟩, payload [t])] 0

/-- `u8`. -/
def u8 : RTy := .prim 1
/-- `u16`. -/
def u16 : RTy := .prim 2
/-- `u32`. -/
def u32 : RTy := .prim 4
/-- `u64`. -/
def u64 : RTy := .prim 8

/-! ## Identifiers and ids -/

/-- The restricted string of an identifier (external). -/
def identString (first : RTy) : RTy := .rstring alphaNumLodash first ⟨1, 100⟩

/-- `Ident` (external). -/
def identTy : RTy := newtype n!"Ident" (identString alphaLodash)
/-- `TypeName` (external). -/
def typeName : RTy := newtype n!"TypeName" (identString alphaCapsLodash)
/-- `FieldName` (external). -/
def fieldName : RTy := newtype n!"FieldName" (identString alphaSmallLodash)
/-- `VariantName` (external). -/
def variantName : RTy := newtype n!"VariantName" (identString alphaSmallLodash)
/-- `LibName` (external). -/
def libName : RTy := newtype n!"LibName" (identString alphaCapsLodash)

/-- An array of 32 bytes. -/
def bytes32 : RTy := .array (.prim Ty.BYTE_CODE) 32
/-- `src/ast/id.rs:42-50`. -/
def semId : RTy := newtype n!"SemId" bytes32
/-- `src/typelib/id.rs:42-50`. -/
def typeLibId : RTy := newtype n!"TypeLibId" bytes32
/-- `src/typesys/id.rs:40-48`. -/
def typeSysId : RTy := newtype n!"TypeSysId" bytes32

/-! ## Types -/

/-- `Sizing` (external). -/
def sizing : RTy := rec2 n!"Sizing" [(n!"min", u64), (n!"max", u64)]
/-- `Primitive` (external). -/
def primitive : RTy := newtype n!"Primitive" u8
/-- `Variant` (external). -/
def variant : RTy := rec2 n!"Variant" [(n!"name", variantName), (n!"tag", u8)]
/-- The set in `EnumVariants`. -/
def variantSet : RTy := .set variant ⟨1, 255⟩
/-- `src/ast/ty.rs:643-646`. -/
def enumVariants : RTy := newtype n!"EnumVariants" variantSet

/-- The names of the generic types, which end in the name of the parameter (external). -/
structure Generic where
  ty : Name
  unionVariants : Name
  variantInfo : Name
  unnamedFields : Name
  namedFields : Name
  field : Name

section
variable (g : Generic) (r : RTy)

/-- `src/ast/encoding.rs:37-42`. -/
def variantInfo : RTy := rec2 g.variantInfo [(n!"name", variantName), (n!"ty", r)]
/-- The map of `src/ast/encoding.rs:46-53`. -/
def unionMap : RTy := .map u8 (variantInfo g r) ⟨0, 255⟩
/-- `src/ast/ty.rs:509-512`, `src/ast/encoding.rs:44-55`. -/
def unionVariants : RTy := newtype g.unionVariants (unionMap g r)
/-- The vector in `UnnamedFields`. -/
def unnamedList : RTy := .list r ⟨1, 255⟩
/-- `src/ast/ty.rs:442-445`. -/
def unnamedFields : RTy := newtype g.unnamedFields (unnamedList r)
/-- `src/ast/ty.rs:348-354`. -/
def field : RTy := rec2 g.field [(n!"name", fieldName), (n!"ty", r)]
/-- The vector in `NamedFields`. -/
def namedList : RTy := .list (field g r) ⟨1, 255⟩
/-- `src/ast/ty.rs:367-370`. -/
def namedFields : RTy := newtype g.namedFields (namedList g r)

/-- `src/ast/ty.rs:109-150`: `Ty<Ref>`. -/
def ty : RTy := union g.ty 1 [
  (n!"primitive", 0, payload [primitive]),
  (n!"unicode", 1, payload []),
  (n!"enum", 3, payload [enumVariants]),
  (n!"union", 4, payload [unionVariants g r]),
  (n!"tuple", 5, payload [unnamedFields g r]),
  (n!"struct", 6, payload [namedFields g r]),
  (n!"array", 7, payload [r, u16]),
  (n!"list", 8, payload [r, sizing]),
  (n!"set", 9, payload [r, sizing]),
  (n!"map", 10, payload [r, r, sizing])]

end

/-- Names for `LibRef`. -/
def gLibRef : Generic := ⟨n!"TyLibRef", n!"UnionVariantsLibRef", n!"VariantInfoLibRef", n!"UnnamedFieldsLibRef",
  n!"NamedFieldsLibRef", n!"FieldLibRef"⟩
/-- Names for `InlineRef`. -/
def gInlineRef : Generic := ⟨n!"TyInlineRef", n!"UnionVariantsInlineRef", n!"VariantInfoInlineRef",
  n!"UnnamedFieldsInlineRef", n!"NamedFieldsInlineRef", n!"FieldInlineRef"⟩
/-- Names for `InlineRef1`. -/
def gInlineRef1 : Generic := ⟨n!"TyInlineRef1", n!"UnionVariantsInlineRef1", n!"VariantInfoInlineRef1",
  n!"UnnamedFieldsInlineRef1", n!"NamedFieldsInlineRef1", n!"FieldInlineRef1"⟩
/-- Names for `InlineRef2`. -/
def gInlineRef2 : Generic := ⟨n!"TyInlineRef2", n!"UnionVariantsInlineRef2", n!"VariantInfoInlineRef2",
  n!"UnnamedFieldsInlineRef2", n!"NamedFieldsInlineRef2", n!"FieldInlineRef2"⟩
/-- Names for `SemId`. -/
def gSemId : Generic := ⟨n!"TySemId", n!"UnionVariantsSemId", n!"VariantInfoSemId", n!"UnnamedFieldsSemId",
  n!"NamedFieldsSemId", n!"FieldSemId"⟩

/-! ## References and libraries -/

/-- `src/typelib/type_lib.rs:46-53`. -/
def externRef : RTy := rec2 n!"ExternRef" [(n!"libId", typeLibId), (n!"semId", semId)]

/-- `src/typelib/type_lib.rs:145-151`: `InlineRef2`. -/
def inlineRef2 : RTy := union n!"InlineRef2" 0 [(n!"named", 0, payload [semId]), (n!"extern", 1, payload [externRef])]

/-- `src/typelib/type_lib.rs:60-69,103-111,169-178`: the other references, which may be inline types. -/
def reference (name : Name) (inner : RTy) : RTy :=
  union name 0 [(n!"inline", 0, payload [inner]), (n!"named", 1, payload [semId]), (n!"extern", 2, payload [externRef])]

/-- `Ty<InlineRef2>`. -/
def tyInlineRef2 : RTy := ty gInlineRef2 inlineRef2
/-- `src/typelib/type_lib.rs:103-111`. -/
def inlineRef1 : RTy := reference n!"InlineRef1" tyInlineRef2
/-- `Ty<InlineRef1>`. -/
def tyInlineRef1 : RTy := ty gInlineRef1 inlineRef1
/-- `src/typelib/type_lib.rs:60-69`. -/
def inlineRef : RTy := reference n!"InlineRef" tyInlineRef1
/-- `Ty<InlineRef>`. -/
def tyInlineRef : RTy := ty gInlineRef inlineRef
/-- `src/typelib/type_lib.rs:169-178`. -/
def libRef : RTy := reference n!"LibRef" tyInlineRef
/-- `Ty<LibRef>`. -/
def tyLibRef : RTy := ty gLibRef libRef

/-- `src/typelib/type_lib.rs:212-218`. -/
def dependency : RTy := rec2 n!"Dependency" [(n!"id", typeLibId), (n!"name", libName)]
/-- `TinyOrdSet<Dependency>`. -/
def depSet : RTy := .set dependency ⟨0, 255⟩
/-- `SmallOrdMap<SemId, TypeName>`. -/
def externNames : RTy := .map semId typeName ⟨0, 0xffff⟩
/-- `src/typelib/symbolic.rs:38`: `ExternTypes`. -/
def externTypes : RTy := .map libName externNames ⟨0, 255⟩
/-- `src/typelib/mod.rs` `TypeMap`: `NonEmptyOrdMap<TypeName, Ty<LibRef>, { u16::MAX as usize }>`. -/
def typeMap : RTy := .map typeName tyLibRef ⟨1, 0xffff⟩

/-- `src/typelib/type_lib.rs:258-266`. -/
def typeLib : RTy := rec2 n!"TypeLib" [(n!"name", libName), (n!"dependencies", depSet), (n!"externTypes", externTypes),
  (n!"types", typeMap)]

/-- `src/typelib/symbolic.rs:63-72`. -/
def symbolRef : RTy := rec2 n!"SymbolRef" [(n!"libName", libName), (n!"tyName", typeName), (n!"libId", typeLibId),
  (n!"semId", semId)]

/-! ## Type systems -/

/-- `src/typesys/type_sys.rs:43-51`. -/
def typeFqn : RTy := rec2 n!"TypeFqn" [(n!"lib", libName), (n!"name", typeName)]
/-- `Option<TypeFqn>`. -/
def optFqn : RTy := option typeFqn
/-- `Ty<SemId>`. -/
def tySemId : RTy := ty gSemId semId
/-- `src/typesys/translate.rs:37-44`. -/
def typeSymbol : RTy := rec2 n!"TypeSymbol" [(n!"id", semId), (n!"fqn", optFqn)]
/-- `SmallOrdSet<Dependency>`. -/
def libSet : RTy := .set dependency ⟨0, 0xffff⟩
/-- `MediumOrdSet<TypeSymbol>`. -/
def symbolSet : RTy := .set typeSymbol ⟨0, 0xffffff⟩
/-- `src/typesys/symbols.rs:35-42`. -/
def symbols : RTy := rec2 n!"Symbols" [(n!"libs", libSet), (n!"symbols", symbolSet)]
/-- `MediumOrdMap<SemId, Ty<SemId>>`. -/
def systemMap : RTy := .map semId tySemId ⟨0, 0xffffff⟩
/-- `src/typesys/type_sys.rs:112-117`. -/
def typeSystem : RTy := newtype n!"TypeSystem" systemMap
/-- `src/typesys/symbols.rs:110-118`. -/
def symbolicSys : RTy := rec2 n!"SymbolicSys" [(n!"symbols", symbols), (n!"types", typeSystem)]

/-! ## Layouts -/

/-- `src/ast/ty.rs:291-310`. -/
def itemCase : RTy := union n!"ItemCase" 3 [
  (n!"unnamedField", 0, payload [u8]),
  (n!"namedField", 1, payload [u8, fieldName]),
  (n!"unionVariant", 2, payload [u8, variantName]),
  (n!"arrayItem", 16, payload []),
  (n!"listItem", 17, payload []),
  (n!"setItem", 18, payload []),
  (n!"mapKey", 19, payload []),
  (n!"mapValue", 20, payload [])]

/-- `src/typesys/iter.rs:87-108`. -/
def nestedCase : RTy := union n!"NestedCase" 1 [
  (n!"newType", 0, payload [optFqn]),
  (n!"option", 1, payload []),
  (n!"byteStr", 16, payload []),
  (n!"asciiStr", 17, payload [optFqn]),
  (n!"uniStr", 18, payload []),
  (n!"rStr", 19, payload [optFqn, optFqn, sizing])]

/-- `TinyVec<NestedCase>`. -/
def nestedList : RTy := .list nestedCase ⟨0, 255⟩
/-- `src/typesys/iter.rs:117-127`. -/
def typeInfo : RTy := rec2 n!"TypeInfo" [(n!"depth", u32), (n!"ty", tySemId), (n!"fqn", optFqn),
  (n!"item", option itemCase), (n!"nested", nestedList)]
/-- `LargeVec<TypeInfo>`. -/
def infoList : RTy := .list typeInfo ⟨0, 0xffffffff⟩
/-- `src/layout/memory.rs:31-36`. -/
def memoryLayout : RTy := rec2 n!"MemoryLayout" [(n!"items", infoList)]

/-- `src/stl.rs:85-103`: `StrictTypes`. -/
def strictTypesCrate : Crate := ⟨lib, [identTy, typeName, fieldName, variantName, libName, symbolRef, typeLib,
  typeSysId, typeSymbol, symbolicSys, memoryLayout]⟩

end Verif.Stl
