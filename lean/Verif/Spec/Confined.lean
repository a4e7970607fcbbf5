import Verif.Spec.Wire

/-!
# How long the data of a type is

The least and the largest number of bytes, from the declarations alone.
-/

namespace Verif

/-- The least number of items: the declared one (`strict`), or none. -/
def leastItems (strict : Bool) (min : Nat) : Nat := if strict then min else 0

/-- The largest number of items: the declared one (`strict`), or what the length can express. -/
def mostItems (strict : Bool) (max : Nat) : Nat := if strict then max else 256 ^ prefixWidth max - 1

/-- The data of the type has between `lo` and `hi` bytes, given these numbers `R` for the types it references. -/
inductive Spans (E : Env) (strict : Bool) (R : SemId → Nat → Nat → Prop) : Ty SemId → Nat → Nat → Prop
  | unit : Spans E strict R Ty.UNIT 0 0
  | primitive {p : Byte} : p ≠ Ty.UNIT_CODE → Spans E strict R (.primitive p) (E.primSize p) (E.primSize p)
  | char : Spans E strict R .unicodeChar 1 4
  | enum {vs : List Variant} : Spans E strict R (.enum vs) 1 1
  | union {vs : List (Variant × SemId)} {lo hi : Nat} : (∀ p ∈ vs, ∃ a b, R p.2 a b ∧ lo ≤ a ∧ b ≤ hi) →
      (∃ p ∈ vs, ∃ b, R p.2 lo b) → (∃ p ∈ vs, ∃ a, R p.2 a hi) →
      Spans E strict R (.union vs) (1 + lo) (1 + hi)
  | tuple {ids : List SemId} {los his : List Nat} : (∀ A C sz, ¬ E.RString ids A C sz) → All3 R ids los his →
      Spans E strict R (.tuple ids) los.sum his.sum
  | rstring {ids : List SemId} {A C : List Variant} {sz : Sizing} : E.RString ids A C sz →
      Spans E strict R (.tuple ids) (prefixWidth (sz.max.toNat + 1) + leastItems strict (sz.min.toNat + 1))
        (prefixWidth (sz.max.toNat + 1) + mostItems strict (sz.max.toNat + 1))
  | struct {req : List (Name × SemId)} {los his : List Nat} : All3 (fun r => R r.2) req los his →
      Spans E strict R (.struct req) los.sum his.sum
  | array {i : SemId} {len : BitVec 16} {lo hi : Nat} : R i lo hi →
      Spans E strict R (.array i len) (len.toNat * lo) (len.toNat * hi)
  /-- texts are counted in bytes, not in characters -/
  | text {i : SemId} {sz : Sizing} : i.isByte E.H = false → i.isUnicodeChar E.H = true →
      Spans E strict R (.list i sz) (prefixWidth sz.max.toNat + leastItems strict sz.min.toNat)
        (prefixWidth sz.max.toNat + mostItems strict sz.max.toNat)
  | list {i : SemId} {sz : Sizing} {lo hi : Nat} : i.isByte E.H = true ∨ i.isUnicodeChar E.H = false → R i lo hi →
      Spans E strict R (.list i sz) (prefixWidth sz.max.toNat + leastItems strict sz.min.toNat * lo)
        (prefixWidth sz.max.toNat + mostItems strict sz.max.toNat * hi)
  | set {i : SemId} {sz : Sizing} {lo hi : Nat} : R i lo hi →
      Spans E strict R (.set i sz) (prefixWidth sz.max.toNat + leastItems strict sz.min.toNat * lo)
        (prefixWidth sz.max.toNat + mostItems strict sz.max.toNat * hi)
  | map {k i : SemId} {sz : Sizing} {lo hi lo' hi' : Nat} : R k lo hi → R i lo' hi' →
      Spans E strict R (.map k i sz) (prefixWidth sz.max.toNat + leastItems strict sz.min.toNat * (lo + lo'))
        (prefixWidth sz.max.toNat + mostItems strict sz.max.toNat * (hi + hi'))

/-- The same, in at most so many layers. -/
def SpanN (E : Env) (strict : Bool) : Nat → SemId → Nat → Nat → Prop
  | 0, _, _, _ => False
  | n + 1, id, lo, hi => ∃ t, E.find id = some t ∧ Spans E strict (SpanN E strict n) t lo hi

/-- Data of the type has between `lo` and `hi` bytes, as the type declares (`strict`) or as the lengths can express. -/
def Span (E : Env) (strict : Bool) (id : SemId) (lo hi : Nat) : Prop := ∃ n, SpanN E strict n id lo hi

end Verif
