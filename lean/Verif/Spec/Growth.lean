import Verif.Spec.Value

/-!
# Extended types

Types which differ in that one has further variants of enums and unions or wider limits on the sizes of collections. Types
which refer to each other are related by a relation between their ids.
-/

namespace Verif

/-- The limits are wider, a length has the same number of bytes, and no limit is the largest 64-bit number. -/
def Sizing.Grows (a b : Sizing) : Prop :=
  b.min.toNat ≤ a.min.toNat ∧ a.max.toNat ≤ b.max.toNat ∧ prefixWidth a.max.toNat = prefixWidth b.max.toNat ∧
    a.min.toNat < 2 ^ 64 - 1 ∧ b.max.toNat < 2 ^ 64 - 1

/-- One type is an extension of the other, given the related ids. -/
inductive Ty.Grows (E F : Env) (Q : SemId → SemId → Prop) : Ty SemId → Ty SemId → Prop
  | primitive {p : Byte} : Grows E F Q (.primitive p) (.primitive p)
  | unicodeChar : Grows E F Q .unicodeChar .unicodeChar
  /-- further variants; characters stay characters -/
  | enum {vs us : List Variant} : (∀ v ∈ vs, v ∈ us) → (CharVariants vs ↔ CharVariants us) → Grows E F Q (.enum vs) (.enum us)
  /-- further variants -/
  | union {vs us : List (Variant × SemId)} : (∀ v ∈ vs, ∃ j, (v.1, j) ∈ us ∧ Q v.2 j) → Grows E F Q (.union vs) (.union us)
  | tuple {ids jds : List SemId} : All2 Q ids jds →
      (∀ A C sz A' C' sz', E.RString ids A C sz → F.RString jds A' C' sz' →
        prefixWidth (sz.max.toNat + 1) = prefixWidth (sz'.max.toNat + 1)) → Grows E F Q (.tuple ids) (.tuple jds)
  | struct {fs gs : List (Name × SemId)} : All2 (fun f g => f.1 = g.1 ∧ Q f.2 g.2) fs gs → Grows E F Q (.struct fs) (.struct gs)
  | array {i j : SemId} {len : BitVec 16} : Q i j → i.isByte E.H = j.isByte F.H →
      i.isUnicodeChar E.H = j.isUnicodeChar F.H → Grows E F Q (.array i len) (.array j len)
  | list {i j : SemId} {sz sz' : Sizing} : Q i j → i.isByte E.H = j.isByte F.H →
      i.isUnicodeChar E.H = j.isUnicodeChar F.H → sz.Grows sz' → Grows E F Q (.list i sz) (.list j sz')
  | set {i j : SemId} {sz sz' : Sizing} : Q i j → sz.Grows sz' → Grows E F Q (.set i sz) (.set j sz')
  | map {k i l j : SemId} {sz sz' : Sizing} : Q k l → Q i j → sz.Grows sz' → Grows E F Q (.map k i sz) (.map l j sz')

/-- The types of the second system are extensions of those of the first with related ids, for the same build of the program. -/
structure Env.Grows (E F : Env) (Q : SemId → SemId → Prop) : Prop where
  types : ∀ i j, Q i j → ∃ t u, E.find i = some t ∧ F.find j = some u ∧ t.Grows E F Q u
  debug : E.debug = F.debug
  primSize : E.primSize = F.primSize
  valSize : E.valSize = F.valSize

/-- No text which names a variant is the letter which a further variant has as its tag, and optional types stay optional. -/
structure Env.KeepsText (E F : Env) (Q : SemId → SemId → Prop) : Prop where
  letters : ∀ i j vs us, Q i j → E.find i = some (.enum vs) → F.find j = some (.enum us) →
    ∀ v ∈ vs, ∀ u ∈ us, u ∉ vs → v.name.bytes ≠ [u.tag]
  options : ∀ i j a b us, Q i j → E.find i = some (.union [(⟨n!"none", 0⟩, a), (⟨n!"some", 1⟩, b)]) →
    F.find j = some (.union us) → ∃ a' b', us = [(⟨n!"none", 0⟩, a'), (⟨n!"some", 1⟩, b')]

end Verif
