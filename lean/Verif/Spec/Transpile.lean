import Verif.Model.Transpile
import Verif.Spec.Compile

/-!
# Specification vocabulary for building libraries from Rust types

The type a Rust type stands for, without any builder: a function of the description only.
-/

namespace Verif

/-- The Rust types mentioned directly. -/
def RTy.parts : RTy → List RTy
  | .prim _ => []
  | .unicode _ => []
  | .rstring c c1 _ => [c1, c]
  | .array t _ => [t]
  | .list t _ => [t]
  | .set t _ => [t]
  | .map k t _ => [k, t]
  | .record _ _ _ fs => fs.map Prod.snd
  | .enum _ _ _ => []
  | .union _ _ vs _ => vs.map Prod.snd

/-- The Rust type mentions the other one, directly or through others, or is it. -/
inductive RTy.Contains : RTy → RTy → Prop
  | refl (t : RTy) : Contains t t
  | step {t p s : RTy} : p ∈ t.parts → Contains p s → Contains t s

/-- What the types of a library are expressed in: the hash, the name of the library, and the ids of
the libraries it depends on. -/
structure View where
  H : Hash
  own : Name
  dep : Name → LibId

/-- A reference to a type: unnamed types are embedded, types of the library are referred to by name,
types of other libraries by the id. -/
def View.ref (V : View) (lib : Name) (name : Option Name) (ty : Ty TranspileRef) : TranspileRef :=
  match name with
  | none => .embedded ty
  | some n =>
    if lib = V.own then .named n else .extern ⟨lib, n, V.dep lib, TranspileRef.semIdNamed V.H ty n⟩

/-- The elements in the order of their tags. -/
def byTag {α : Type} (tag : α → Byte) (l : List α) : List α :=
  (List.range 256).flatMap fun k => l.filter fun x => (tag x).toNat = k

mutual
/-- The type a Rust type stands for. Variants are sorted by tag. -/
def RTy.ty (V : View) : RTy → Ty TranspileRef
  | .prim c => .primitive c
  | .unicode sz => .list (.embedded .unicodeChar) sz
  | .rstring c c1 sz => .tuple [V.ref c1.lib c1.name (RTy.ty V c1),
      .embedded (.list (V.ref c.lib c.name (RTy.ty V c)) ⟨sz.min - 1, sz.max - 1⟩)]
  | .array t len => .array (V.ref t.lib t.name (RTy.ty V t)) len
  | .list t sz => .list (V.ref t.lib t.name (RTy.ty V t)) sz
  | .set t sz => .set (V.ref t.lib t.name (RTy.ty V t)) sz
  | .map k t sz => .map (V.ref k.lib k.name (RTy.ty V k)) (V.ref t.lib t.name (RTy.ty V t)) sz
  | .record _ _ isTuple fs =>
    if fs.isEmpty then Ty.UNIT
    else if isTuple then .tuple ((RTy.tyFields V fs).map Prod.snd)
    else .struct ((RTy.tyFields V fs).filterMap fun f => f.1.map fun n => (n, f.2))
  | .enum _ _ vs => .enum (byTag Variant.tag vs)
  | .union _ _ vs _ => .union (byTag (fun v => v.1.tag) (RTy.tyVariants V vs))
termination_by structural t => t
/-- The fields with references to their types. -/
def RTy.tyFields (V : View) : List (Option Name × RTy) → List (Option Name × TranspileRef)
  | [] => []
  | f :: fs => RTy.tyField V f :: RTy.tyFields V fs
termination_by structural l => l
/-- A field with a reference to its type. -/
def RTy.tyField (V : View) : Option Name × RTy → Option Name × TranspileRef
  | (n, t) => (n, V.ref t.lib t.name (RTy.ty V t))
termination_by structural l => l
/-- The variants with references to their types. -/
def RTy.tyVariants (V : View) : List (Variant × RTy) → List (Variant × TranspileRef)
  | [] => []
  | v :: vs => RTy.tyVariant V v :: RTy.tyVariants V vs
termination_by structural l => l
/-- A variant with a reference to its type. -/
def RTy.tyVariant (V : View) : Variant × RTy → Variant × TranspileRef
  | (v, t) => (v, V.ref t.lib t.name (RTy.ty V t))
termination_by structural l => l
end

/-- The reference to the type a Rust type stands for. -/
def RTy.ref (V : View) (t : RTy) : TranspileRef := V.ref t.lib t.name (t.ty V)

/-- The Rust type mentions (or is) a type of this library and name standing for `ty`. -/
def RTy.Declares (V : View) (t : RTy) (lib name : Name) (ty : Ty TranspileRef) : Prop :=
  ∃ s, t.Contains s ∧ s.lib = lib ∧ s.name = some name ∧ s.ty V = ty

/-- The view of a library which knows these libraries: the id of a library is that of the first with the name. -/
def View.of (H : Hash) (own : Name) (known : List (Dependency × Option (List SemId))) : View :=
  ⟨H, own, fun lib => (((known.map Prod.fst).find? fun d => d.name = lib).map Dependency.id).getD (Id32.rep 0)⟩

/-- The texts hashed for the named types of other libraries which the Rust types mention. -/
def ExternText (V : View) (ts : List RTy) (x : Bytes) : Prop :=
  ∃ t ∈ ts, ∃ s n, t.Contains s ∧ s.lib ≠ V.own ∧ s.name = some n ∧ x = n.commit ++ TranspileRef.commitTy (s.ty V)

/-- A name of the library is used for one type only: Rust types with the same name stand for the same
type and mention the same types. -/
def Unambiguous (V : View) (ts : List RTy) : Prop :=
  ∀ t ∈ ts, ∀ t' ∈ ts, ∀ s s', t.Contains s → t'.Contains s' → s.lib = V.own → s'.lib = V.own →
    s.name ≠ none → s.name = s'.name →
    s.ty V = s'.ty V ∧ ∀ lib name ty, s.Declares V lib name ty ↔ s'.Declares V lib name ty

/-- The limits on one Rust type: at most 255 fields, all named unless it is a tuple; 1 to 255 variants
with distinct tags, one of which is the one of the dumb value; in debug builds the bounds of a
restricted string are not zero; libraries of named types are known. -/
def RTy.NodeOk (debug : Bool) (own : Name) (known : Name → Prop) (t : RTy) : Prop :=
  (t.name ≠ none → t.lib = own ∨ known t.lib) ∧
  match t with
  | .rstring _ _ sz => debug = true → sz.min ≠ 0 ∧ sz.max ≠ 0
  | .record _ _ isTuple fs => fs.length ≤ 255 ∧ (isTuple = false → ∀ f ∈ fs, f.1 ≠ none)
  | .enum _ _ vs => 1 ≤ vs.length ∧ vs.length ≤ 255
  | .union _ _ vs w => 1 ≤ vs.length ∧ vs.length ≤ 255 ∧ w < vs.length
  | _ => True

/-- Tags of the variants are distinct, as they are in Rust. -/
def RTy.DistinctTags : RTy → Prop
  | .enum _ _ vs => (vs.map Variant.tag).Nodup
  | .union _ _ vs _ => (vs.map fun v => v.1.tag).Nodup
  | _ => True

/-! ## Contents of a builder -/

/-- The builder has recorded the type under the name. -/
def LibBuilder.HasType (b : LibBuilder) (name : Name) (ty : Ty TranspileRef) : Prop :=
  hmGet b.types name = some ty

/-- The builder has recorded the id of a type of another library. -/
def LibBuilder.HasExtern (b : LibBuilder) (lib name : Name) (id : SemId) : Prop :=
  ∃ m, hmGet b.externTypes lib = some m ∧ OMap.get m id = some name

/-- Nothing the recorded types refer to is missing: names they mention are recorded; the types of other
libraries they use are recorded, and their library is known under the id they are used with. -/
structure LibBuilder.Complete (b : LibBuilder) : Prop where
  names : ∀ n ty, b.HasType n ty → ∀ m, ty.Mentions m → ∃ u, b.HasType m u
  uses : ∀ n ty, b.HasType n ty → ∀ s, ty.Uses s → s.libName ≠ b.libName ∧
    b.HasExtern s.libName s.tyName s.semId ∧
    ∃ d ids, (d, ids) ∈ b.knownLibs ∧ d.name = s.libName ∧ d.id = s.libId

/-- The builders have recorded the same types. -/
def LibBuilder.SameContents (b b' : LibBuilder) : Prop :=
  (∀ n ty, b.HasType n ty ↔ b'.HasType n ty) ∧ ∀ lib n id, b.HasExtern lib n id ↔ b'.HasExtern lib n id

/-! ## Types without variants -/

/-- Neither an enum nor a union. -/
def Ty.NoVariants : Ty TranspileRef → Prop
  | .enum _ => False
  | .union _ => False
  | _ => True

/-- No enum or union is embedded, at any depth. -/
inductive TranspileRef.Plain : TranspileRef → Prop
  | embedded {t : Ty TranspileRef} : t.NoVariants → (∀ r ∈ t.refs, Plain r) → Plain (.embedded t)
  | named (n : Name) : Plain (.named n)
  | extern (s : SymbolRef) : Plain (.extern s)

/-- Types that agree in everything but the variants of enums and unions: there are as many of them, and those at
the same place have the same tag or the same name. -/
inductive TranspileRef.Alike : TranspileRef → TranspileRef → Prop
  | named (n : Name) : Alike (.named n) (.named n)
  | extern (s : SymbolRef) : Alike (.extern s) (.extern s)
  | primitive (p : Byte) : Alike (.embedded (.primitive p)) (.embedded (.primitive p))
  | unicodeChar : Alike (.embedded .unicodeChar) (.embedded .unicodeChar)
  | enum {vs ws : List Variant} : vs.length = ws.length →
      (∀ p ∈ vs.zip ws, p.1.tag = p.2.tag ∨ p.1.name = p.2.name) → Alike (.embedded (.enum vs)) (.embedded (.enum ws))
  | union {vs ws : List (Variant × TranspileRef)} : vs.length = ws.length →
      (∀ p ∈ vs.zip ws, p.1.1.tag = p.2.1.tag ∨ p.1.1.name = p.2.1.name) →
      (∀ p ∈ vs.zip ws, Alike p.1.2 p.2.2) → Alike (.embedded (.union vs)) (.embedded (.union ws))
  | tuple {fs gs : List TranspileRef} : fs.length = gs.length → (∀ p ∈ fs.zip gs, Alike p.1 p.2) →
      Alike (.embedded (.tuple fs)) (.embedded (.tuple gs))
  | struct {fs gs : List (Name × TranspileRef)} : fs.map Prod.fst = gs.map Prod.fst →
      (∀ p ∈ fs.zip gs, Alike p.1.2 p.2.2) → Alike (.embedded (.struct fs)) (.embedded (.struct gs))
  | array {r s : TranspileRef} (len : BitVec 16) : Alike r s → Alike (.embedded (.array r len)) (.embedded (.array s len))
  | list {r s : TranspileRef} (sz : Sizing) : Alike r s → Alike (.embedded (.list r sz)) (.embedded (.list s sz))
  | set {r s : TranspileRef} (sz : Sizing) : Alike r s → Alike (.embedded (.set r sz)) (.embedded (.set s sz))
  | map {k l r s : TranspileRef} (sz : Sizing) : Alike k l → Alike r s →
      Alike (.embedded (.map k r sz)) (.embedded (.map l s sz))

end Verif
