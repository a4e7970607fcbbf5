import Verif.Spec.System
import Verif.Model.TyCodec

/-!
# Specification vocabulary for the binary form of types, libraries and systems
-/

namespace Verif

/-- A reader undoes a writer on `a`: whatever follows the encoding is left unread. -/
def ReadsBack {α : Type} (enc : α → Bytes) (dec : Bytes → Out CErr (α × Bytes)) (a : α) : Prop :=
  ∀ rest, dec (enc a ++ rest) = .ok (a, rest)

/-- Whatever is read as `a` is the encoding of `a`. -/
def Canonical {α : Type} (enc : α → Bytes) (dec : Bytes → Out CErr (α × Bytes)) : Prop :=
  ∀ bs a rest, dec bs = .ok (a, rest) → bs = enc a ++ rest

/-- Whatever is read as `a` satisfying `P` is the encoding of `a`, or longer than that. -/
def NearCanonical {α : Type} (enc : α → Bytes) (dec : Bytes → Out CErr (α × Bytes))
    (P : α → Prop) : Prop :=
  ∀ bs a rest, dec bs = .ok (a, rest) → P a →
    bs = enc a ++ rest ∨ (enc a).length + rest.length < bs.length

/-- A successful reader has looked only at the bytes `c` it consumed: it does the same whatever
follows, and hits the end of input when these bytes are cut short. -/
def PrefixOnly {α : Type} (dec : Bytes → Out CErr (α × Bytes)) : Prop :=
  ∀ bs a rest, dec bs = .ok (a, rest) → ∃ c, bs = c ++ rest ∧
    (∀ ext, dec (c ++ ext) = .ok (a, ext)) ∧ ∀ p q, c = p ++ q → q ≠ [] → dec p = .err .io

/-- A file is accepted by `load` as a whole only: with anything appended it is refused because of what
is left, with anything cut off as incomplete. -/
def WholeOnly {α : Type} (load : Bytes → Out CErr α) : Prop :=
  ∀ bs a, load bs = .ok a → (∀ ext, ext ≠ [] → load (bs ++ ext) = .err .left) ∧
    ∀ p q, bs = p ++ q → q ≠ [] → load p = .err .io

/-- On inputs shorter than `k` the reader returns, with an error or with at most the input left. -/
def ReturnsBelow {α : Type} (k : Nat) (dec : Bytes → Out CErr (α × Bytes)) : Prop :=
  ∀ bs, bs.length < k → (∃ e, dec bs = .err e) ∨
    ∃ a rest, dec bs = .ok (a, rest) ∧ rest.length ≤ bs.length

/-- Number of components in the limits of the containers. -/
def Ty.Sized {Ref : Type} : Ty Ref → Prop
  | .enum vs => 1 ≤ vs.length ∧ vs.length ≤ 255
  | .union vs => 1 ≤ vs.length ∧ vs.length ≤ 255
  | .tuple fs => 1 ≤ fs.length ∧ fs.length ≤ 255
  | .struct fs => 1 ≤ fs.length ∧ fs.length ≤ 255
  | _ => True

/-- What the containers of a type system enforce: increasing ids, at most 2^24 - 1 types, and the
limits of every type. -/
structure TypeSystem.Held (s : TypeSystem) : Prop where
  sorted : OMap.Sorted s
  few : s.length ≤ 2 ^ 24 - 1
  types : ∀ p ∈ s, p.2.WF

/-- What the containers of a symbol table enforce. -/
structure Symbols.Held (s : Symbols) : Prop where
  libs : DepsSorted s.libs
  fewLibs : s.libs.length ≤ 65535
  symbols : OSet.Sorted s.symbols
  fewSymbols : s.symbols.length ≤ 2 ^ 24 - 1

/-- What the containers of a symbolic system enforce. -/
structure SymbolicSys.Held (s : SymbolicSys) : Prop where
  symbols : s.symbols.Held
  types : s.types.Held

/-- The bytes of a type which list variants of which two have the same name: the kind of the type, the number of variants, and
for each its name behind the length of it, and its tag, which for unions comes first and is followed by the type. -/
inductive NamesTwice : Bytes → Prop
  | enum {vs : List Variant} : vs.length < 256 → ¬(vs.map Variant.name).Nodup →
      NamesTwice (3 :: BitVec.ofNat 8 vs.length ::
        vs.flatMap fun v => BitVec.ofNat 8 v.name.bytes.length :: (v.name.bytes ++ [v.tag]))
  | union {vs : List (Variant × SemId)} : vs.length < 256 → ¬(vs.map fun v => v.1.name).Nodup →
      NamesTwice (4 :: BitVec.ofNat 8 vs.length ::
        vs.flatMap fun v => v.1.tag :: BitVec.ofNat 8 v.1.name.bytes.length :: (v.1.name.bytes ++ v.2.bytes))

end Verif
