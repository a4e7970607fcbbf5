import Verif.Model.Compile
import Verif.Model.System
import Verif.Model.Ston

/-!
# Text of types, libraries and systems

The `Display` implementations with default formatter options; the text of a library is its source
form (`.sty`). Texts of external types are parameters (`Glyphs`).
-/

namespace Verif

/-- Texts which come from other crates: primitive types and collection bounds (`strict_encoding`), ids
and their mnemonics (`baid64`). -/
structure Glyphs where
  prim : Byte → Bytes
  sizing : Sizing → Bytes
  id : Id32 → Bytes
  mnemo : Id32 → Bytes

/-! ## Types -/

/-- Texts with a separator between (loops over all items but the last, then the last). -/
def sepBy (sep : Bytes) : List Bytes → Bytes
  | [] => []
  | [a] => a
  | a :: b :: l => a ++ sep ++ sepBy sep (b :: l)

/-- A new line and 23 spaces. -/
def newLine : Bytes := 10 :: List.replicate 23 32

/-- `src/ast/ty.rs:428-432`: between fields. -/
def fieldSep (len : Nat) : Bytes := if 3 ≤ len then newLine ++ b!", " else b!", "

/-- `u8::saturating_add(1)`. -/
def satSucc (b : Byte) : Byte := if b = 255 then 255 else b + 1

/-- `src/ast/ty.rs:600-605,617-622,696-699,708-711`: the tag, shown if it is not the expected one. -/
def tagMark (last tag : Byte) : Bytes := if last = tag then [] else b!"#" ++ decimal tag.toNat

/-- `src/ast/ty.rs:598-612,615-630`: the variants of a union with payloads (given their text and whether
they are compound); the expected tag is the one after the tag before. -/
def unionItems : Byte → List (Variant × Bytes × Bool) → List Bytes
  | _, [] => []
  | last, (v, t, c) :: l =>
    (v.name.bytes ++ tagMark last v.tag ++ b!" " ++ parens c t) :: unionItems (satSucc v.tag) l

/-- `src/ast/ty.rs:591-640`: `Display for UnionVariants`. -/
def unionText (l : List (Variant × Bytes × Bool)) : Bytes :=
  if l.isEmpty then b!"(|)"
  else sepBy (newLine ++ b!"| ") (unionItems 0 l) ++ if l.length = 1 then b!" | (|)" else []

/-- `src/ast/ty.rs:695-700,707-712`: the variants of an enum. -/
def enumItems : Byte → List Variant → List Bytes
  | _, [] => []
  | last, v :: l => (v.name.bytes ++ tagMark last v.tag) :: enumItems (satSucc v.tag) l

/-- `src/ast/ty.rs:706-719`: the loop over lines of the text of an enum, with the number of variants for
the line. -/
def enumLines : Nat → Nat → List Bytes → Bytes
  | 0, _, _ => []
  | fuel + 1, k, items =>
    (items.take k).flatMap (b!" | " ++ ·) ++
      if (items.drop k).isEmpty then [10]
      else 10 :: List.replicate 22 32 ++ enumLines fuel 4 (items.drop k)

/-- `src/ast/ty.rs:687-725`: `Display for EnumVariants`. -/
def enumText (vs : List Variant) : Bytes :=
  match enumItems 0 vs with
  | [] => b!"(|)"
  | a :: l => a ++ (if vs.length = 1 then b!" | (|)" else []) ++ enumLines vs.length 3 l

/-- `src/ast/ty.rs:356-364`: `Display for Field`. -/
def fieldText (n : Name) (t : Bytes) : Bytes := n.bytes ++ b!" " ++ t

/-- `src/ast/ty.rs:250-290`: `Display for Ty`, given the text of references and whether they are
compound; structures `ty.rs:419-439`, tuples `ty.rs:491-506`. -/
def Ty.text {Ref : Type} (G : Glyphs) (f : Ref → Bytes) (c : Ref → Bool) (t : Ty Ref) : Bytes :=
  match t with
  | .primitive p => G.prim p
  | .unicodeChar => b!"Unicode"
  | .enum vs => enumText vs
  | .union vs =>
    match t.asSome with
    | some r => f r ++ b!"?"
    | none => unionText (vs.map fun v => (v.1, f v.2, c v.2))
  | .tuple fs => sepBy b!", " (fs.map f)
  | .struct fs => sepBy (fieldSep fs.length) (fs.map fun p => fieldText p.1 (f p.2))
  | .array r len => b!"[" ++ f r ++ b!" ^ " ++ decimal len.toNat ++ b!"]"
  | .list r sz => b!"[" ++ f r ++ G.sizing sz ++ b!"]"
  | .set r sz => b!"{" ++ f r ++ G.sizing sz ++ b!"}"
  | .map k r sz => b!"{" ++ f k ++ b!" ->" ++ G.sizing sz ++ b!" " ++ f r ++ b!"}"

/-! ## References -/

/-- `src/typelib/type_lib.rs:48`: text of `ExternRef`. -/
def ExternRef.text (G : Glyphs) (e : ExternRef) : Bytes := G.id e.libId ++ b!"." ++ G.id e.semId

/-- `src/typelib/type_lib.rs:159-166`: `Display for InlineRef2`. -/
def InlineRef2.text (G : Glyphs) : InlineRef2 → Bytes
  | .named id => G.id id
  | .extern e => e.text G

/-- `src/typelib/type_lib.rs:134-142`: `Display for InlineRef1`. -/
def InlineRef1.text (G : Glyphs) : InlineRef1 → Bytes
  | .inline ty => ty.text G (InlineRef2.text G) fun _ => false
  | .named id => G.id id
  | .extern e => e.text G

/-- `src/typelib/type_lib.rs:113-119`: `InlineRef1::is_compound`. -/
def InlineRef1.isCompound : InlineRef1 → Bool
  | .inline ty => ty.isCompound
  | _ => false

/-- `src/typelib/type_lib.rs:92-100`: `Display for InlineRef`. -/
def InlineRef.text (G : Glyphs) : InlineRef → Bytes
  | .inline ty => ty.text G (InlineRef1.text G) InlineRef1.isCompound
  | .named id => G.id id
  | .extern e => e.text G

/-- `src/typelib/type_lib.rs:71-77`: `InlineRef::is_compound`. -/
def InlineRef.isCompound : InlineRef → Bool
  | .inline ty => ty.isCompound
  | _ => false

/-- `src/typelib/type_lib.rs:201-209`: `Display for LibRef`. -/
def LibRef.text (G : Glyphs) : LibRef → Bytes
  | .inline ty => ty.text G (InlineRef.text G) InlineRef.isCompound
  | .named id => G.id id
  | .extern e => e.text G

/-- `src/typelib/type_lib.rs:180-186`: `LibRef::is_compound`. -/
def LibRef.isCompound : LibRef → Bool
  | .inline ty => ty.isCompound
  | _ => false

/-- `src/typelib/symbolic.rs:66`: text of `SymbolRef`. -/
def SymbolRef.text (s : SymbolRef) : Bytes := s.libName.bytes ++ b!"." ++ s.tyName.bytes

/-- `src/typelib/symbolic.rs:135-140`: `TranspileRef::is_compound`. -/
def TranspileRef.isCompound : TranspileRef → Bool
  | .embedded ty => ty.isCompound
  | _ => false

mutual
/-- `src/typelib/symbolic.rs:160-168`: `Display for TranspileRef`; together with the functions below it
spells out `Ty.text` by structural recursion (lemma `textTy_eq`). -/
def TranspileRef.text (G : Glyphs) : TranspileRef → Bytes
  | .embedded ty => TranspileRef.textTy G ty
  | .named name => name.bytes
  | .extern sym => sym.text
termination_by structural r => r
/-- `src/ast/ty.rs:250-290` for `TranspileRef`. -/
def TranspileRef.textTy (G : Glyphs) : Ty TranspileRef → Bytes
  | .primitive p => G.prim p
  | .unicodeChar => b!"Unicode"
  | .enum vs => enumText vs
  | .union vs =>
    match (Ty.union (TranspileRef.textVariants G vs)).asSome with
    | some t => t.1 ++ b!"?"
    | none => unionText (TranspileRef.textVariants G vs)
  | .tuple fs => sepBy b!", " (TranspileRef.textRefs G fs)
  | .struct fs => sepBy (fieldSep fs.length) (TranspileRef.textFields G fs)
  | .array r len => b!"[" ++ TranspileRef.text G r ++ b!" ^ " ++ decimal len.toNat ++ b!"]"
  | .list r sz => b!"[" ++ TranspileRef.text G r ++ G.sizing sz ++ b!"]"
  | .set r sz => b!"{" ++ TranspileRef.text G r ++ G.sizing sz ++ b!"}"
  | .map k r sz =>
    b!"{" ++ TranspileRef.text G k ++ b!" ->" ++ G.sizing sz ++ b!" " ++ TranspileRef.text G r ++ b!"}"
termination_by structural t => t
/-- `src/ast/ty.rs:491-506` for `TranspileRef`: the items. -/
def TranspileRef.textRefs (G : Glyphs) : List TranspileRef → List Bytes
  | [] => []
  | r :: rs => TranspileRef.text G r :: TranspileRef.textRefs G rs
termination_by structural l => l
/-- `src/ast/ty.rs:591-640` for `TranspileRef`: the payloads. -/
def TranspileRef.textVariants (G : Glyphs) : List (Variant × TranspileRef) → List (Variant × Bytes × Bool)
  | [] => []
  | (v, r) :: rs => (v, TranspileRef.text G r, r.isCompound) :: TranspileRef.textVariants G rs
termination_by structural l => l
/-- `src/ast/ty.rs:419-439` for `TranspileRef`: the fields. -/
def TranspileRef.textFields (G : Glyphs) : List (Name × TranspileRef) → List Bytes
  | [] => []
  | (n, r) :: rs => fieldText n (TranspileRef.text G r) :: TranspileRef.textFields G rs
termination_by structural l => l
end

/-! ## Libraries -/

/-- `src/typelib/type_lib.rs:249-253`: `Display for Dependency`. -/
def Dependency.text (G : Glyphs) (d : Dependency) : Bytes := d.name.bytes ++ b!"#" ++ G.mnemo d.id

/-- `{name:17}`: the text filled up with spaces to the width. -/
def padded (w : Nat) (s : Bytes) : Bytes := s ++ List.replicate (w - s.length) 32

/-- `src/typelib/serialize.rs:124-126`: the types used from a dependency. -/
def useText (G : Glyphs) (e : SemId × Name) : Bytes :=
  b!"  use " ++ e.2.bytes ++ b!"#" ++ G.mnemo e.1 ++ [10]

/-- `src/typelib/serialize.rs:121-129`: a dependency and the types used from it. -/
def importText (G : Glyphs) (ext : ExternTypes) (d : Dependency) : Bytes :=
  b!"import " ++ d.text G ++ [10] ++
    match OMap.get ext d.name with
    | some index => index.flatMap (useText G) ++ [10]
    | none => []

/-- `src/typelib/serialize.rs:135-144`: a definition of a library, with the mnemonic of its id. -/
def dataText (G : Glyphs) (H : Hash) (e : Name × Ty TranspileRef) : Bytes :=
  b!"@mnemonic(" ++ G.mnemo (TranspileRef.semIdNamed H e.2 e.1) ++ b!")" ++ [10] ++
    b!"data " ++ padded 17 e.1.bytes ++ b!" : " ++ TranspileRef.textTy G e.2 ++ [10, 10]

/-- `src/typelib/serialize.rs:116-147`: `Display for SymbolicLib`. -/
def SymbolicLib.text (G : Glyphs) (H : Hash) (l : SymbolicLib) : Bytes :=
  b!"@context" ++ [10] ++ b!"typelib " ++ l.name.bytes ++ [10, 10] ++
    l.dependencies.flatMap (importText G l.externTypes) ++
    (if l.dependencies.isEmpty then b!"-- no dependencies" ++ [10] else []) ++ [10] ++
    l.types.flatMap (dataText G H)

/-- `src/typelib/serialize.rs:149-167`: `Display for TypeLib`. -/
def TypeLib.text (G : Glyphs) (H : Hash) (l : TypeLib) : Bytes :=
  b!"typelib " ++ l.name.bytes ++ b!" -- " ++ G.id (l.id H) ++ [10, 10] ++
    (l.dependencies.flatMap fun d => b!"import " ++ d.text G ++ [10]) ++
    (if l.dependencies.isEmpty then b!"-- no dependencies" else []) ++ [10, 10] ++
    l.types.flatMap fun e =>
      b!"data " ++ padded 17 e.1.bytes ++ b!" : " ++ e.2.text G (LibRef.text G) LibRef.isCompound ++ [10, 10]

/-- `src/typelib/serialize.rs:67-75`: the source file of a library written by `TypeLib::serialize`, with
the version and the rest of the header. -/
def TypeLib.source (G : Glyphs) (H : Hash) (l : TypeLib) (s : SymbolicLib) (ver header : Bytes) : Bytes :=
  b!"{-" ++ [10] ++ b!"  Id: " ++ G.id (l.id H) ++ [10] ++ b!"  Name: " ++ l.name.bytes ++ [10] ++
    b!"  Version: " ++ ver ++ header ++ [10] ++ b!"-}" ++ [10, 10] ++ s.text G H ++ [10]

/-! ## Names -/

/-- `src/typesys/type_sys.rs:46`: text of `TypeFqn`. -/
def TypeFqn.text (f : TypeFqn) : Bytes := f.lib.bytes ++ b!"." ++ f.name.bytes

/-- `str::split_once('.')`. -/
def splitDot : Bytes → Option (Bytes × Bytes)
  | [] => none
  | c :: s => if c = 46 then some ([], s) else (splitDot s).map fun p => (c :: p.1, p.2)

/-- `src/typesys/type_sys.rs:62-72`: `From<&'static str> for TypeFqn`; texts without a dot and invalid
names panic. -/
def TypeFqn.fromStr (s : Bytes) : Out Unit TypeFqn := do
  let (lib, name) ← Out.expect (splitDot s)
  let lib ← Out.expect (Name.ofBytes? lib)
  let name ← Out.expect (Name.ofBytes? name)
  pure ⟨lib, name⟩

end Verif
