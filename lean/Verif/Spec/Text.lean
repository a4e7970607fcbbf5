import Verif.Model.Text

/-!
# Specification vocabulary for the source form of libraries

What the source form says about a type, as a syntax tree: wrappers of a single item are not shown, and neither
are the ids of types from other libraries nor the payload of the absent option.
-/

namespace Verif

/-- The syntax of types in source form, and in the texts of systems, where ids are shown (`mark`), and of compiled
libraries, where the id of a type from another library comes after that of the library (`link`). A variant of a union has a payload with or without parentheses. -/
inductive Sty where
  | prim (p : Byte)
  | unicode
  | name (n : Name)
  | ext (lib name : Name)
  | mark (text : Bytes)
  | link (lib ty : Bytes)
  | opt (s : Sty)
  | array (s : Sty) (len : BitVec 16)
  | list (s : Sty) (sz : Sizing)
  | set (s : Sty) (sz : Sizing)
  | map (key s : Sty) (sz : Sizing)
  | tuple (l : List Sty)
  | struct (l : List (Name × Sty))
  | enum (vs : List Variant)
  | union (l : List (Variant × Bool × Sty))

/-- Payloads of variants which are put in parentheses: tuples and structs of several fields, enums, unions. -/
def TranspileRef.inParens : TranspileRef → Bool
  | .embedded (.tuple (_ :: _ :: _)) => true
  | .embedded (.struct (_ :: _ :: _)) => true
  | .embedded (.enum _) => true
  | .embedded (.union _) => true
  | _ => false

mutual
/-- The syntax tree of a reference. -/
def TranspileRef.surface : TranspileRef → Sty
  | .embedded ty => TranspileRef.surfaceTy ty
  | .named name => .name name
  | .extern sym => .ext sym.libName sym.tyName
termination_by structural r => r
/-- The syntax tree of a type. -/
def TranspileRef.surfaceTy : Ty TranspileRef → Sty
  | .primitive p => .prim p
  | .unicodeChar => .unicode
  | .enum vs => .enum vs
  | .union vs =>
    match (Ty.union (TranspileRef.surfaceVariants vs)).asSome with
    | some s => .opt s.2
    | none => .union (TranspileRef.surfaceVariants vs)
  | .tuple fs =>
    match TranspileRef.surfaceRefs fs with
    | [s] => s
    | l => .tuple l
  | .struct fs => .struct (TranspileRef.surfaceFields fs)
  | .array r len => .array r.surface len
  | .list r sz => .list r.surface sz
  | .set r sz => .set r.surface sz
  | .map k r sz => .map k.surface r.surface sz
termination_by structural t => t
def TranspileRef.surfaceRefs : List TranspileRef → List Sty
  | [] => []
  | r :: rs => r.surface :: TranspileRef.surfaceRefs rs
termination_by structural l => l
def TranspileRef.surfaceVariants : List (Variant × TranspileRef) → List (Variant × Bool × Sty)
  | [] => []
  | (v, r) :: rs => (v, r.inParens, r.surface) :: TranspileRef.surfaceVariants rs
termination_by structural l => l
def TranspileRef.surfaceFields : List (Name × TranspileRef) → List (Name × Sty)
  | [] => []
  | (n, r) :: rs => (n, r.surface) :: TranspileRef.surfaceFields rs
termination_by structural l => l
end

/-- Letters, digits and underscores, at least one. -/
def wordText (s : Bytes) : Prop := s ≠ [] ∧ ∀ c ∈ s, isAlphaNumLodash c = true

/-- Characters of bounds and mnemonics: letters, digits, underscores, dashes, dots. -/
def markChar (c : Byte) : Bool := isAlphaNumLodash c || c == 45 || c == 46

/-- First characters of ids: letters, digits and `_`, `~`, `$`, `!`. -/
def idStart (c : Byte) : Bool := isAlphaNumLodash c || c == 126 || c == 36 || c == 33

/-- Characters of ids: these, dashes, colons and `#`. -/
def idChar (c : Byte) : Bool := idStart c || c == 45 || c == 58 || c == 35

/-- Texts of ids: chunks of characters with dashes between, with a prefix and a mnemonic or without. -/
def idText (t : Bytes) : Bool :=
  t.all idChar && t.contains 45 && t.head?.any idStart && t.getLast? != some 58

/-- Requirements on the texts from other crates, for the primitive types in `P`: these are words or `()`, and
different; bounds of collections are omitted or start with ` ^ `, are different, and are not lengths of
arrays; mnemonics are words with dashes. -/
structure Glyphs.Clear (G : Glyphs) (P : Byte → Prop) : Prop where
  prim : ∀ p, P p → wordText (G.prim p) ∨ G.prim p = b!"()"
  prim_inj : ∀ p q, P p → P q → G.prim p = G.prim q → p = q
  prim_unicode : ∀ p, P p → G.prim p ≠ b!"Unicode"
  sizing : ∀ sz, G.sizing sz = [] ∨
    ∃ w, G.sizing sz = b!" ^ " ++ w ∧ w ≠ [] ∧ (∀ c ∈ w, markChar c = true) ∧ ∀ n, w ≠ decimal n
  sizing_inj : ∀ a b, G.sizing a = G.sizing b → a = b
  mnemo : ∀ id, ∀ c ∈ G.mnemo id, markChar c = true

/-- Types that can be told from their source form: no item of a tuple or struct and no optional type is itself
a tuple, struct, enum or union; the payloads of a union are so too, or are in parentheses; and names are not
those of primitive types. With `atom = true`, the type may be an item. -/
inductive Sty.Plain (G : Glyphs) (P : Byte → Prop) : Bool → Sty → Prop
  | prim {p : Byte} : P p → Plain G P true (.prim p)
  | unicode : Plain G P true .unicode
  | name {n : Name} : (∀ p, P p → n.bytes ≠ G.prim p) → n.bytes ≠ b!"Unicode" → Plain G P true (.name n)
  | ext {l n : Name} : Plain G P true (.ext l n)
  | mark {t : Bytes} : idText t = true → Plain G P true (.mark t)
  | link {a b : Bytes} : idText a = true → idText b = true → Plain G P true (.link a b)
  | opt {s : Sty} : Plain G P true s → Plain G P true (.opt s)
  | array {s : Sty} {len : BitVec 16} : Plain G P false s → Plain G P true (.array s len)
  | list {s : Sty} {sz : Sizing} : Plain G P false s → Plain G P true (.list s sz)
  | set {s : Sty} {sz : Sizing} : Plain G P false s → Plain G P true (.set s sz)
  | map {k s : Sty} {sz : Sizing} : Plain G P false k → Plain G P false s → Plain G P true (.map k s sz)
  | atom {s : Sty} : Plain G P true s → Plain G P false s
  | tuple {l : List Sty} : 2 ≤ l.length → (∀ s ∈ l, Plain G P true s) → Plain G P false (.tuple l)
  | struct {l : List (Name × Sty)} : l ≠ [] → (∀ f ∈ l, Plain G P true f.2) → Plain G P false (.struct l)
  | enum {vs : List Variant} : vs ≠ [] → Plain G P false (.enum vs)
  | union {l : List (Variant × Bool × Sty)} : l ≠ [] → (∀ v ∈ l, Plain G P (!v.2.1) v.2.2) →
      Plain G P false (.union l)

/-- What the source form says about a library: its name, its dependencies with the types used from them, and
its types; ids are shown by their mnemonics only. -/
structure LibView where
  name : Name
  deps : List ((Name × Bytes) × List (Name × Bytes))
  types : List ((Name × Bytes) × Sty)

def SymbolicLib.view (G : Glyphs) (H : Hash) (l : SymbolicLib) : LibView where
  name := l.name
  deps := l.dependencies.map fun d =>
    ((d.name, G.mnemo d.id), ((OMap.get l.externTypes d.name).getD []).map fun e => (e.2, G.mnemo e.1))
  types := l.types.map fun e =>
    ((e.1, G.mnemo (TranspileRef.semIdNamed H e.2 e.1)), TranspileRef.surfaceTy e.2)

/-! ## The texts in the shipped files -/

/-- Digits of a number with base 16, the last one first. -/
def hexRev : Nat → Nat → List Nat
  | 0, _ => []
  | fuel + 1, n => if n < 16 then [n] else n % 16 :: hexRev fuel (n / 16)

/-- `{:#04x}` for numbers from 16, as in the shipped source files. -/
def hexText (n : Nat) : Bytes := b!"0x" ++ (hexRev (n + 1) n).reverse.map hexDigit

/-- Bounds of collections, as in the shipped source files. -/
def boundText (s : Sizing) : Bytes :=
  if s.max = 0xffff then if s.min = 0 then [] else b!" ^ " ++ (decimal s.min.toNat ++ b!"..")
  else b!" ^ " ++ ((if s.min = 0 then [] else decimal s.min.toNat) ++ (b!".." ++ hexText s.max.toNat))

/-- The primitive types in the shipped source files. -/
def shownPrims : List (Byte × Bytes) :=
  [(0, b!"()"), (1, b!"U8"), (2, b!"U16"), (4, b!"U32"), (8, b!"U64"), (64, b!"Byte")]

/-- The texts in the shipped source files; ids and mnemonics as given. -/
def shownGlyphs (id mnemo : Id32 → Bytes) : Glyphs where
  prim p := (hmGet shownPrims p).getD (b!"Prim" ++ decimal p.toNat)
  sizing := boundText
  id := id
  mnemo := mnemo

/-- A primitive type in the shipped source files. -/
def Shown (p : Byte) : Prop := p ∈ shownPrims.map Prod.fst

/-! ## A check for types that can be told from their source form -/

mutual
def Sty.plainB (G : Glyphs) (ps : List Byte) : Bool → Sty → Bool
  | _, .prim p => ps.contains p
  | _, .unicode => true
  | _, .name n => ps.all (fun p => n.bytes != G.prim p) && n.bytes != b!"Unicode"
  | _, .ext _ _ => true
  | _, .mark t => idText t
  | _, .link a b => idText a && idText b
  | _, .opt s => Sty.plainB G ps true s
  | _, .array s _ => Sty.plainB G ps false s
  | _, .list s _ => Sty.plainB G ps false s
  | _, .set s _ => Sty.plainB G ps false s
  | _, .map k s _ => Sty.plainB G ps false k && Sty.plainB G ps false s
  | a, .tuple l => !a && decide (2 ≤ l.length) && Sty.plainAll G ps l
  | a, .struct l => !a && !l.isEmpty && Sty.plainFields G ps l
  | a, .enum vs => !a && !vs.isEmpty
  | a, .union l => !a && !l.isEmpty && Sty.plainVariants G ps l
termination_by structural _ s => s
def Sty.plainAll (G : Glyphs) (ps : List Byte) : List Sty → Bool
  | [] => true
  | s :: l => Sty.plainB G ps true s && Sty.plainAll G ps l
termination_by structural l => l
def Sty.plainFields (G : Glyphs) (ps : List Byte) : List (Name × Sty) → Bool
  | [] => true
  | (_, s) :: l => Sty.plainB G ps true s && Sty.plainFields G ps l
termination_by structural l => l
def Sty.plainVariants (G : Glyphs) (ps : List Byte) : List (Variant × Bool × Sty) → Bool
  | [] => true
  | (_, c, s) :: l => Sty.plainB G ps (!c) s && Sty.plainVariants G ps l
termination_by structural l => l
end

/-- All types of the library can be told from their source form. -/
def SymbolicLib.plainB (G : Glyphs) (ps : List Byte) (l : SymbolicLib) : Bool :=
  l.types.all fun e => Sty.plainB G ps false (TranspileRef.surfaceTy e.2)

end Verif
