import Verif.Spec.Apart
import Verif.Spec.TyCodec
import Verif.Model.Stl
import Verif.Model.ByName

/-!
# Specification vocabulary for the libraries describing this crate

What libraries, type systems and symbol tables are as dynamic values. Newtypes are tuples of one element, collections
are what they are in Rust.
-/

namespace Verif

/-- Among the ids made of these texts the last thirty bytes of one are the first thirty bytes of one. -/
def Overlap (H : Hash) (D : Bytes → Prop) : Prop := ∃ x y, D x ∧ D y ∧
  (taggedHash H SEM_ID_TAG x).bytes.drop 2 = (taggedHash H SEM_ID_TAG y).bytes.take 30

/-- The crates behind the libraries `Std` and `StrictTypes`. -/
def Stl.crates : List Crate := [stdCrate, strictTypesCrate]

/-! ## Values -/

/-- A number. -/
def natVal (n : Nat) : Val := .num (.uint (BitVec.ofNat 64 n))

/-- An identifier. -/
def Name.val (n : Name) : Val := .tuple [.str n.bytes]

/-- An id of a type or of a library. -/
def Id32.val (i : Id32) : Val := .tuple [.bytes i.bytes]

/-- `Sizing`. -/
def Sizing.val (s : Sizing) : Val := .struct [(n!"min", .num (.uint s.min)), (n!"max", .num (.uint s.max))]

/-- `Variant`. -/
def Variant.val (v : Variant) : Val := .struct [(n!"name", v.name.val), (n!"tag", natVal v.tag.toNat)]

/-- A type, given the values of references. -/
def Ty.val {Ref : Type} (f : Ref → Val) : Ty Ref → Val
  | .primitive c => .union (.name n!"primitive") (.tuple [.tuple [natVal c.toNat]])
  | .unicodeChar => .union (.name n!"unicode") .unit
  | .enum vs => .union (.name n!"enum") (.tuple [.tuple [.set (vs.map Variant.val)]])
  | .union vs => .union (.name n!"union") (.tuple [.tuple [.map (vs.map fun v =>
      (natVal v.1.tag.toNat, .struct [(n!"name", v.1.name.val), (n!"ty", f v.2)]))]])
  | .tuple fs => .union (.name n!"tuple") (.tuple [.tuple [.list (fs.map f)]])
  | .struct fs => .union (.name n!"struct") (.tuple [.tuple [.list (fs.map fun p =>
      .struct [(n!"name", p.1.val), (n!"ty", f p.2)])]])
  | .array t len => .union (.name n!"array") (.tuple [f t, natVal len.toNat])
  | .list t sz => .union (.name n!"list") (.tuple [f t, sz.val])
  | .set t sz => .union (.name n!"set") (.tuple [f t, sz.val])
  | .map k t sz => .union (.name n!"map") (.tuple [f k, f t, sz.val])

/-- `ExternRef`. -/
def ExternRef.val (e : ExternRef) : Val := .struct [(n!"libId", e.libId.val), (n!"semId", e.semId.val)]

/-- A reference to a type of the same library. -/
def namedVal (id : SemId) : Val := .union (.name n!"named") (.tuple [id.val])

/-- A reference to a type of another library. -/
def externVal (e : ExternRef) : Val := .union (.name n!"extern") (.tuple [e.val])

/-- A type in the place of a reference. -/
def inlineVal (v : Val) : Val := .union (.name n!"inline") (.tuple [v])

/-- `InlineRef2`. -/
def InlineRef2.val : InlineRef2 → Val
  | .named id => namedVal id
  | .extern e => externVal e

/-- `InlineRef1`. -/
def InlineRef1.val : InlineRef1 → Val
  | .inline t => inlineVal (t.val InlineRef2.val)
  | .named id => namedVal id
  | .extern e => externVal e

/-- `InlineRef`. -/
def InlineRef.val : InlineRef → Val
  | .inline t => inlineVal (t.val InlineRef1.val)
  | .named id => namedVal id
  | .extern e => externVal e

/-- `LibRef`. -/
def LibRef.val : LibRef → Val
  | .inline t => inlineVal (t.val InlineRef.val)
  | .named id => namedVal id
  | .extern e => externVal e

/-- `Dependency`. -/
def Dependency.val (d : Dependency) : Val := .struct [(n!"id", d.id.val), (n!"name", d.name.val)]

/-- `TypeLib`. -/
def TypeLib.val (l : TypeLib) : Val := .struct [(n!"name", l.name.val),
  (n!"dependencies", .set (l.dependencies.map Dependency.val)),
  (n!"externTypes", .map (l.externTypes.map fun p => (p.1.val, .map (p.2.map fun q => (q.1.val, q.2.val))))),
  (n!"types", .map (l.types.map fun p => (p.1.val, p.2.val LibRef.val)))]

/-- `TypeSystem`. -/
def TypeSystem.val (s : TypeSystem) : Val := .tuple [.map (s.map fun p => (p.1.val, p.2.val Id32.val))]

/-- `TypeFqn`. -/
def TypeFqn.val (f : TypeFqn) : Val := .struct [(n!"lib", f.lib.val), (n!"name", f.name.val)]

/-- `TypeSymbol`. -/
def TypeSymbol.val (s : TypeSymbol) : Val := .struct [(n!"id", s.id.val), (n!"fqn", match s.fqn with
  | none => .union (.name n!"none") .unit
  | some f => .union (.name n!"some") (.tuple [f.val]))]

/-- `Symbols`. -/
def Symbols.val (s : Symbols) : Val := .struct [(n!"libs", .set (s.libs.map Dependency.val)),
  (n!"symbols", .set (s.symbols.map TypeSymbol.val))]

/-- `SymbolicSys`. -/
def SymbolicSys.val (s : SymbolicSys) : Val := .struct [(n!"symbols", s.symbols.val), (n!"types", s.types.val)]

/-! ## Letters of names

In Rust names of libraries and types begin with a capital letter or an underscore, names of fields and variants with a
small letter or an underscore. In the model all are the same kind of identifiers. -/

/-- Name of a library or a type. -/
def Name.Capital (n : Name) : Prop := ∀ b ∈ n.bytes.take 1, (65 ≤ b.toNat ∧ b.toNat ≤ 90) ∨ b.toNat = 95

/-- Name of a field or a variant. -/
def Name.Small (n : Name) : Prop := ∀ b ∈ n.bytes.take 1, (97 ≤ b.toNat ∧ b.toNat ≤ 122) ∨ b.toNat = 95

/-- Fields and variants of the type have such names. -/
def Ty.Small {Ref : Type} : Ty Ref → Prop
  | .enum vs => ∀ v ∈ vs, v.name.Small
  | .union vs => ∀ v ∈ vs, v.1.name.Small
  | .struct fs => ∀ f ∈ fs, f.1.Small
  | _ => True

/-- The same for types in the place of references. -/
def InlineRef1.Small : InlineRef1 → Prop
  | .inline t => t.Small
  | _ => True

@[inherit_doc InlineRef1.Small]
def InlineRef.Small : InlineRef → Prop
  | .inline t => t.Small ∧ ∀ r ∈ t.refs, r.Small
  | _ => True

@[inherit_doc InlineRef1.Small]
def LibRef.Small : LibRef → Prop
  | .inline t => t.Small ∧ ∀ r ∈ t.refs, r.Small
  | _ => True

/-- The names in the library begin with the right letters. -/
structure TypeLib.Cased (l : TypeLib) : Prop where
  name : l.name.Capital
  deps : ∀ d ∈ l.dependencies, d.name.Capital
  externs : ∀ p ∈ l.externTypes, p.1.Capital ∧ ∀ q ∈ p.2, q.2.Capital
  names : ∀ p ∈ l.types, p.1.Capital
  types : ∀ p ∈ l.types, p.2.Small ∧ ∀ r ∈ p.2.refs, r.Small

/-- The names in the type system begin with the right letters. -/
def TypeSystem.Cased (s : TypeSystem) : Prop := ∀ p ∈ s, p.2.Small

/-- The names in the symbol table begin with the right letters. -/
structure Symbols.Cased (s : Symbols) : Prop where
  libs : ∀ d ∈ s.libs, d.name.Capital
  symbols : ∀ p ∈ s.symbols, ∀ f, p.fqn = some f → f.lib.Capital ∧ f.name.Capital

/-! ## Reading and writing by the name of the type -/

/-- By the text `name` the bytes are read as the value, the value is accepted and not changed, it gets this id, and it is
written as the bytes. -/
def SymbolicSys.Describes (S : SymbolicSys) (E : Env) (fuel : Nat) (name : Bytes) (id : SemId) (v : Val) (bs : Bytes) : Prop :=
  ∃ spec, TypeSpec.ofText name = .ok spec ∧
    (∃ w, S.deserialize E fuel spec bs = .ok w ∧ w.val = v ∧ w.orig.id = id) ∧
    ∃ w, S.typify E fuel v spec = .ok w ∧ w.val = v ∧ w.orig.id = id ∧
      ∀ maxLen, bs.length ≤ maxLen → w.serialize E fuel maxLen = .ok bs

/-- Sizes of primitive types are what the standard library of types says, and values take less than a gigabyte each. -/
structure Env.Usual (E : Env) : Prop where
  small : 2 ^ 32 * (2 * E.valSize) < 2 ^ 63
  unsigned : ∀ n, 1 ≤ n → n ≤ 16 → E.primSize (BitVec.ofNat 8 n) = n
  signed : ∀ n, n = 1 ∨ n = 2 ∨ n = 4 ∨ n = 8 ∨ n = 16 → E.primSize (BitVec.ofNat 8 (0x40 + n)) = n
  byte : E.primSize Ty.BYTE_CODE = 1

/-- Types of crates with which all of reading, checking and writing work: see the theorems on violations in
`Props/Reflect.lean` and `Props/RustValues.lean` for the others. -/
structure RTy.Regular (q : RTy) : Prop where
  fields : q.DistinctFields
  ordinary : q.Ordinary
  noLookalike : ¬ q.LooksLikeString
  upTo64 : q.UpTo64
  noBareByte : ¬ q.BareByte
  noItemArray : ¬ q.ItemArray
  fewParts : q.parts.length < 255

end Verif
