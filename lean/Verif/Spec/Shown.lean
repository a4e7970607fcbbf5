import Verif.Spec.Tree

/-!
# What an item of a layout shows of its type
-/

namespace Verif

/-- The kind of a type. -/
inductive KindOf (H : Hash) (S : SymbolicSys) : Ty SemId → Pred → Prop
  | char {vs : List Variant} : CharVariants vs → KindOf H S (.enum vs) .char
  | enum {vs : List Variant} : ¬ CharVariants vs → KindOf H S (.enum vs) .enum
  | ascii {t : Ty SemId} {f : Option TypeFqn} : ShownAs S t (.asciiStr f) → KindOf H S t .ascii
  | rstring {t : Ty SemId} {f g : Option TypeFqn} {sz : Sizing} : ShownAs S t (.rStr f g sz) → KindOf H S t .ascii
  | byteList {t : Ty SemId} : ShownAs S t .byteStr → KindOf H S t .bytes
  | unicodeList {t : Ty SemId} : ShownAs S t .uniStr → KindOf H S t .str
  | byteArray {r : SemId} {len : BitVec 16} : ByteId H r → KindOf H S (.array r len) .bytes
  | array {r : SemId} {len : BitVec 16} : ¬ ByteId H r → KindOf H S (.array r len) .array
  | list {r : SemId} {sz : Sizing} : (∀ n, ¬ ShownAs S (.list r sz) n) → KindOf H S (.list r sz) .list
  | tuple {rs : List SemId} : (∀ n, ¬ ShownAs S (.tuple rs) n) → KindOf H S (.tuple rs) .tuple
  | set {r : SemId} {sz : Sizing} : KindOf H S (.set r sz) .set
  | map {k v : SemId} {sz : Sizing} : KindOf H S (.map k v sz) .map
  | struct {fs : List (Name × SemId)} : KindOf H S (.struct fs) .record
  | union {vs : List (Variant × SemId)} : KindOf H S (.union vs) .union
  | primitive {p : Byte} : KindOf H S (.primitive p) .is
  | unicodeChar : KindOf H S .unicodeChar .str

/-- The bounds of a type: its own, or those of the whole string. -/
inductive BoundsOf (S : SymbolicSys) : Ty SemId → BitVec 64 → BitVec 64 → Prop
  | list {r : SemId} {sz : Sizing} : BoundsOf S (.list r sz) sz.min sz.max
  | set {r : SemId} {sz : Sizing} : BoundsOf S (.set r sz) sz.min sz.max
  | map {k v : SemId} {sz : Sizing} : BoundsOf S (.map k v sz) sz.min sz.max
  | rstring {t : Ty SemId} {f g : Option TypeFqn} {sz : Sizing} : ShownAs S t (.rStr f g sz) → BoundsOf S t sz.min sz.max

/-- The type is called by this name. -/
def SymbolicSys.Calls (S : SymbolicSys) (id : SemId) (n : Name) : Prop := ∃ f, S.lookup id = some f ∧ f.name = n

/-- From one type to the other through wrappers and options: `some` for a wrapper with its name, `none` for an option. -/
inductive Leads (S : SymbolicSys) : SemId → List (Option (Option Name)) → SemId → Prop
  | here {id : SemId} : Leads S id [] id
  | wrapper {id r i : SemId} {l : List (Option (Option Name))} : S.types.get id = some (.tuple [r]) → Leads S r l i →
    Leads S id (some ((S.lookup id).map TypeFqn.name) :: l) i
  | option {id r i : SemId} {t : Ty SemId} {l : List (Option (Option Name))} : S.types.get id = some t → t.asSome = some r →
    Leads S r l i → Leads S id (none :: l) i

/-- The wrappers and options among the attributes, in order. -/
def Attr.layer? : Attr → Option (Option (Option Name))
  | .wrapped n => some (some n)
  | .option => some none
  | _ => none

/-- All that the head of an item says about the type. -/
structure Tells (H : Hash) (S : SymbolicSys) (t : Ty SemId) (e : VHead) : Prop where
  kind : KindOf H S t e.predicate
  bounds : ∀ a b, Attr.lenRange a b ∈ e.attributes ↔ BoundsOf S t a b
  length : ∀ n, Attr.len n ∈ e.attributes ↔ ∃ r, t = .array r n
  values : ∀ n tag, Attr.enumVariant tag n ∈ e.attributes ↔ ∃ vs, t = .enum vs ∧ ⟨n, tag⟩ ∈ vs
  prim : ∀ p, Attr.prim p ∈ e.attributes ↔ t = .primitive p ∧ p ≠ Ty.UNIT_CODE
  unit : Attr.unit ∈ e.attributes ↔ t = .primitive Ty.UNIT_CODE
  chars : ∀ n, Attr.asciiEnum n ∈ e.attributes ↔ ∃ r sz C, t = .list r sz ∧ S.types.get r = some (.enum C) ∧
    CharVariants C ∧ S.Calls r n
  first : ∀ n, Attr.asciiFirst n ∈ e.attributes ↔ ∃ a b r sz A C, t = .tuple [a, b] ∧ S.types.get a = some (.enum A) ∧
    CharVariants A ∧ S.types.get b = some (.list r sz) ∧ S.types.get r = some (.enum C) ∧ CharVariants C ∧ S.Calls a n
  rest : ∀ n, Attr.asciiRest n ∈ e.attributes ↔ ∃ a b r sz A C, t = .tuple [a, b] ∧ S.types.get a = some (.enum A) ∧
    CharVariants A ∧ S.types.get b = some (.list r sz) ∧ S.types.get r = some (.enum C) ∧ CharVariants C ∧ S.Calls r n

/-- Places which have names of their own. -/
inductive NamedPlace : Ty.ItemCase → Name → Prop
  | field (pos : Byte) (n : Name) : NamedPlace (.namedField pos n) n
  | variant (pos : Byte) (n : Name) : NamedPlace (.unionVariant pos n) n
  | key : NamedPlace .mapKey n!"key"
  | value : NamedPlace .mapValue n!"value"

/-- The word an item is shown under: the name of its place if this has one, otherwise the name of the type, otherwise
`element` for the items of lists and sets, and `_` for all others. -/
inductive Headed (fqn : Option TypeFqn) : Option Ty.ItemCase → Name → Prop
  | place {c : Ty.ItemCase} {n : Name} : NamedPlace c n → Headed fqn (some c) n
  | type {c : Option Ty.ItemCase} {f : TypeFqn} : fqn = some f → (∀ p n, c = some p → ¬ NamedPlace p n) → Headed fqn c f.name
  | listItem : fqn = none → Headed fqn (some .listItem) n!"element"
  | setItem : fqn = none → Headed fqn (some .setItem) n!"element"
  | arrayItem : fqn = none → Headed fqn (some .arrayItem) n!"_"
  | root : fqn = none → Headed fqn none n!"_"

end Verif
