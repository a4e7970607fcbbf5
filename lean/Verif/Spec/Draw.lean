import Verif.Spec.Apart
import Verif.Spec.Tree

/-!
# The tree of Rust types below a Rust type

What the layout of a Rust type should be, told without any type system: the fields and variants of the Rust type, in
order, each with what is below it.
-/

namespace Verif

/-- The full name of a Rust type. -/
def RTy.full (q : RTy) : Option TypeFqn := q.name.map fun n => ⟨q.lib, n⟩

/-- An item for a Rust type: its depth, the type with the ids of the types it refers to, its full name, its place and
the wrappers above it. -/
def RTy.info (H : Hash) (q : RTy) (d : Nat) (item : Option Ty.ItemCase) (nested : List NestedCase) : TypeInfo :=
  ⟨BitVec.ofNat 32 d, (q.sem H).mapRefs (TranspileRef.id H), q.full, item, nested⟩

/-- How something is drawn at a depth, in a place, below wrappers. -/
abbrev Drawing := Nat → Option Ty.ItemCase → List NestedCase → LTree

/-- What an optional type holds: there are two variants, `none` with the tag 0 and `some` with the tag 1. -/
def held? {α : Type} : List (Variant × α) → Option α
  | [(v, _), (w, a)] => if v = ⟨n!"none", 0⟩ ∧ w = ⟨n!"some", 1⟩ then some a else none
  | _ => none

mutual
/-- The tree of a Rust type. Strings, byte arrays, numbers and enumerations have nothing below. A one-field tuple is not
an item of its own, nor is an optional type. Fields of tuples have no place. Variants are in the order of tags. -/
def RTy.draw (H : Hash) : RTy → Drawing
  | .prim c, d, item, nested => .node ((RTy.prim c).info H d item nested) []
  | .unicode sz, d, item, nested => .node ((RTy.unicode sz).info H d item (nested ++ [.uniStr])) []
  | .rstring c c1 sz, d, item, nested =>
    .node ((RTy.rstring c c1 sz).info H d item (nested ++ [.rStr c1.full c.full sz])) []
  | .array t len, d, item, nested =>
    .node ((RTy.array t len).info H d item nested)
      (if t.isByte then [] else [RTy.draw H t (d + 1) (some .arrayItem) []])
  | .list t sz, d, item, nested =>
    if t.isByte then .node ((RTy.list t sz).info H d item (nested ++ [.byteStr])) []
    else if t.isLetters then .node ((RTy.list t sz).info H d item (nested ++ [.asciiStr t.full])) []
    else .node ((RTy.list t sz).info H d item nested) [RTy.draw H t (d + 1) (some .listItem) []]
  | .set t sz, d, item, nested =>
    .node ((RTy.set t sz).info H d item nested) [RTy.draw H t (d + 1) (some .setItem) []]
  | .map k t sz, d, item, nested =>
    .node ((RTy.map k t sz).info H d item nested)
      [RTy.draw H k (d + 1) (some .mapKey) [], RTy.draw H t (d + 1) (some .mapValue) []]
  | .record lib name true fs, d, item, nested =>
    match RTy.drawFields H fs with
    | [f] => f.2 d item (nested ++ [.newType (RTy.record lib name true fs).full])
    | l => .node ((RTy.record lib name true fs).info H d item nested) (l.map fun f => f.2 (d + 1) none [])
  | .record lib name false fs, d, item, nested =>
    .node ((RTy.record lib name false fs).info H d item nested)
      ((numbered 0 ((RTy.drawFields H fs).filterMap fun f => f.1.map fun n => (n, f.2))).map fun f =>
        f.2.2 (d + 1) (some (.namedField (BitVec.ofNat 8 f.1) f.2.1)) [])
  | .enum lib name vs, d, item, nested => .node ((RTy.enum lib name vs).info H d item nested) []
  | .union lib name vs w, d, item, nested =>
    match held? (byTag (fun v => v.1.tag) (RTy.drawVariants H vs)) with
    | some f => f (d + 1) (some (.unionVariant 1 n!"some")) (nested ++ [.option])
    | none => .node ((RTy.union lib name vs w).info H d item nested)
      ((numbered 0 (byTag (fun v => v.1.tag) (RTy.drawVariants H vs))).map fun v =>
        v.2.2 (d + 1) (some (.unionVariant (BitVec.ofNat 8 v.1) v.2.1.name)) [])
termination_by structural t => t
/-- The fields, each with its tree. -/
def RTy.drawFields (H : Hash) : List (Option Name × RTy) → List (Option Name × Drawing)
  | [] => []
  | f :: fs => RTy.drawField H f :: RTy.drawFields H fs
termination_by structural l => l
/-- A field with its tree. -/
def RTy.drawField (H : Hash) : Option Name × RTy → Option Name × Drawing
  | (n, t) => (n, RTy.draw H t)
termination_by structural l => l
/-- The variants, each with its tree. -/
def RTy.drawVariants (H : Hash) : List (Variant × RTy) → List (Variant × Drawing)
  | [] => []
  | v :: vs => RTy.drawVariant H v :: RTy.drawVariants H vs
termination_by structural l => l
/-- A variant with its tree. -/
def RTy.drawVariant (H : Hash) : Variant × RTy → Variant × Drawing
  | (v, t) => (v, RTy.draw H t)
termination_by structural l => l
end

/-! ## Limits -/

mutual
/-- The number of levels. -/
def RTy.height : RTy → Nat
  | .prim _ => 0
  | .unicode _ => 1
  | .rstring c c1 _ => max c.height c1.height + 2
  | .array t _ => t.height + 1
  | .list t _ => t.height + 1
  | .set t _ => t.height + 1
  | .map k t _ => max k.height t.height + 1
  | .record _ _ _ fs => RTy.heightFields fs + 1
  | .enum _ _ _ => 0
  | .union _ _ vs _ => RTy.heightVariants vs + 1
termination_by structural t => t
/-- The number of levels of the highest field. -/
def RTy.heightFields : List (Option Name × RTy) → Nat
  | [] => 0
  | f :: fs => max (RTy.heightField f) (RTy.heightFields fs)
termination_by structural l => l
/-- The number of levels of a field. -/
def RTy.heightField : Option Name × RTy → Nat
  | (_, t) => t.height
termination_by structural l => l
/-- The number of levels of the highest variant. -/
def RTy.heightVariants : List (Variant × RTy) → Nat
  | [] => 0
  | v :: vs => max (RTy.heightVariant v) (RTy.heightVariants vs)
termination_by structural l => l
/-- The number of levels of a variant. -/
def RTy.heightVariant : Variant × RTy → Nat
  | (_, t) => t.height
termination_by structural l => l
end

mutual
/-- At most this many one-field tuples and optional types directly contain each other: the type is none of them, or
what is directly inside has fewer. (For simplicity all variants of a union are counted.) -/
def RTy.wraps : RTy → Nat
  | .record _ _ true [f] => RTy.wrapsField f + 1
  | .union _ _ [v, w] _ => max (RTy.wrapsVariant v) (RTy.wrapsVariant w) + 1
  | _ => 0
termination_by structural t => t
/-- Those of a field. -/
def RTy.wrapsField : Option Name × RTy → Nat
  | (_, t) => t.wraps
termination_by structural l => l
/-- Those of a variant. -/
def RTy.wrapsVariant : Variant × RTy → Nat
  | (_, t) => t.wraps
termination_by structural l => l
end

mutual
/-- No optional type occurs in the Rust type or anywhere below it. -/
def RTy.optionFree : RTy → Bool
  | .prim _ => true
  | .unicode _ => true
  | .rstring c c1 _ => c.optionFree && c1.optionFree
  | .array t _ => t.optionFree
  | .list t _ => t.optionFree
  | .set t _ => t.optionFree
  | .map k t _ => k.optionFree && t.optionFree
  | .record _ _ _ fs => RTy.optionFreeFields fs
  | .enum _ _ _ => true
  | .union _ _ vs _ => (held? (byTag (fun v => v.1.tag) vs)).isNone && RTy.optionFreeVariants vs
termination_by structural t => t
/-- Nor in any of the fields. -/
def RTy.optionFreeFields : List (Option Name × RTy) → Bool
  | [] => true
  | f :: fs => RTy.optionFreeField f && RTy.optionFreeFields fs
termination_by structural l => l
/-- Nor in the field. -/
def RTy.optionFreeField : Option Name × RTy → Bool
  | (_, t) => t.optionFree
termination_by structural l => l
/-- Nor in any of the variants. -/
def RTy.optionFreeVariants : List (Variant × RTy) → Bool
  | [] => true
  | v :: vs => RTy.optionFreeVariant v && RTy.optionFreeVariants vs
termination_by structural l => l
/-- Nor in the variant. -/
def RTy.optionFreeVariant : Variant × RTy → Bool
  | (_, t) => t.optionFree
termination_by structural l => l
end

mutual
/-- The number of Rust types in the tree, each counted as often as it is mentioned. -/
def RTy.mentions : RTy → Nat
  | .prim _ => 1
  | .unicode _ => 1
  | .rstring _ _ _ => 1
  | .array t _ => t.mentions + 1
  | .list t _ => t.mentions + 1
  | .set t _ => t.mentions + 1
  | .map k t _ => k.mentions + t.mentions + 1
  | .record _ _ _ fs => RTy.mentionsFields fs + 1
  | .enum _ _ _ => 1
  | .union _ _ vs _ => RTy.mentionsVariants vs + 1
termination_by structural t => t
/-- Those of the fields. -/
def RTy.mentionsFields : List (Option Name × RTy) → Nat
  | [] => 0
  | f :: fs => RTy.mentionsField f + RTy.mentionsFields fs
termination_by structural l => l
/-- Those of the field. -/
def RTy.mentionsField : Option Name × RTy → Nat
  | (_, t) => t.mentions
termination_by structural l => l
/-- Those of the variants. -/
def RTy.mentionsVariants : List (Variant × RTy) → Nat
  | [] => 0
  | v :: vs => RTy.mentionsVariant v + RTy.mentionsVariants vs
termination_by structural l => l
/-- Those of the variant. -/
def RTy.mentionsVariant : Variant × RTy → Nat
  | (_, t) => t.mentions
termination_by structural l => l
end

/-- The number of values of an enumeration, none for other types. -/
def RTy.values : RTy → Nat
  | .enum _ _ vs => vs.length
  | _ => 0

/-- What layouts rely on: restricted strings are made of characters, other tuples do not look like them, in builds with
overflow checks the bounds of lists can be increased, and there are not too many levels and wrappers. -/
structure RTy.Drawable (debug : Bool) (q : RTy) : Prop where
  text : ∀ c c1 sz, q = .rstring c c1 sz → c.isLetters = true ∧ c1.isLetters = true
  clear : ¬ q.LooksLikeString
  bounds : debug = true → ∀ sz, q = .unicode sz ∨ (∃ t, q = .list t sz) →
    sz.min.toNat < 2 ^ 64 - 1 ∧ sz.max.toNat < 2 ^ 64 - 1
  few : debug = true → q.parts.length < 255
  levels : q.height < 2 ^ 32 - 4
  wrappers : q.wraps < 254

end Verif
