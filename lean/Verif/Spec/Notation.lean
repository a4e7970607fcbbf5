import Verif.Spec.Value
import Verif.Model.Util

/-!
# Ways to write values

In which forms, other than its own, a typed value may be given. The conditions of the type (ranges, sizes, alphabets,
repetitions) are not repeated here: they are conditions on the value meant, see `Spec/Value`.
-/

namespace Verif

/-- Three lists of the same length, item by item. -/
def All3 {α β γ : Type} (R : α → β → γ → Prop) : List α → List β → List γ → Prop
  | [], [], [] => True
  | a :: l, b :: m, c :: k => R a b c ∧ All3 R l m k
  | _, _, _ => False

/-- Values which, given for an optional type, are about the option itself and never just what is in it. -/
inductive Val.Marked : Val → Prop
  | unit : Marked .unit
  | union (t : Tag) (v : Val) : Marked (.union t v)
  | pair (a b : Val) : Marked (.tuple [a, b])

/-- The parts of an optional type: the payloads of `none` and `some`. -/
def OptionOf (vs : List (Variant × SemId)) (n s : SemId) : Prop := vs = [(⟨n!"none", 0⟩, n), (⟨n!"some", 1⟩, s)]

/-- The first value is a way to write the second one as a value of the type, given the ways `R` to write its parts. -/
inductive Way (R : Val → SemId → Val → Prop) : Val → Ty SemId → Val → Prop
  /-- the unit, and all sorts of things with nothing in them -/
  | unit : Way R .unit Ty.UNIT .unit
  | noFields : Way R (.tuple []) Ty.UNIT .unit
  | noNames : Way R (.struct []) Ty.UNIT .unit
  | noItems : Way R (.list []) Ty.UNIT .unit
  | noEntries : Way R (.map []) Ty.UNIT .unit
  /-- numbers as they are, and numbers without a sign for types with a sign -/
  | uint {p : Byte} {x : BitVec 64} : p.toNat ≤ 16 → Way R (.num (.uint x)) (.primitive p) (.num (.uint x))
  | int {p : Byte} {x : BitVec 64} : 64 ≤ p.toNat → p.toNat < 80 → Way R (.num (.int x)) (.primitive p) (.num (.int x))
  | positive {p : Byte} {x : BitVec 64} : 64 ≤ p.toNat → p.toNat < 80 → x.toNat < 2 ^ 63 →
      Way R (.num (.uint x)) (.primitive p) (.num (.int x))
  | bigUint {p : Byte} {x : BitVec 1024} : 16 < p.toNat → p.toNat < 64 →
      Way R (.num (.bigUint x)) (.primitive p) (.num (.bigUint x))
  | bigInt {p : Byte} {x : BitVec 1024} : 80 ≤ p.toNat → p.toNat < 128 →
      Way R (.num (.bigInt x)) (.primitive p) (.num (.bigInt x))
  /-- strings and arrays as they are, and text for bytes -/
  | char {b : Byte} : Way R (.str [b]) .unicodeChar (.str [b])
  | text {i : SemId} {sz : Sizing} {s : Bytes} : Way R (.str s) (.list i sz) (.str s)
  | rstring {ids : List SemId} {s : Bytes} : Way R (.str s) (.tuple ids) (.str s)
  | bytes {i : SemId} {sz : Sizing} {s : Bytes} : Way R (.bytes s) (.list i sz) (.bytes s)
  | textBytes {i : SemId} {sz : Sizing} {s : Bytes} : Way R (.str s) (.list i sz) (.bytes s)
  | array {i : SemId} {len : BitVec 16} {v : Val} : Way R v (.array i len) v
  /-- a variant by its name, by its tag, by its tag as a number, or by its name as text, unless this is one letter which is
  the tag of some variant -/
  | name {vs : List Variant} {n : Name} : Way R (.enum (.name n)) (.enum vs) (.enum (.name n))
  | tag {vs : List Variant} {n : Name} {t : Byte} : ⟨n, t⟩ ∈ vs → Way R (.enum (.ord t)) (.enum vs) (.enum (.name n))
  | number {vs : List Variant} {n : Name} {t : Byte} {x : BitVec 64} : ⟨n, t⟩ ∈ vs → x.toNat = t.toNat →
      Way R (.num (.uint x)) (.enum vs) (.enum (.name n))
  | word {vs : List Variant} {n : Name} : (∀ b, n.bytes = [b] → ¬ InAlphabet vs b) →
      Way R (.str n.bytes) (.enum vs) (.enum (.name n))
  /-- a variant of a union by its name -/
  | variant {vs : List (Variant × SemId)} {n : Name} {t : Byte} {i : SemId} {v w : Val} : (⟨n, t⟩, i) ∈ vs → R v i w →
      Way R (.union (.name n) v) (.union vs) (.union (.name n) w)
  /-- an option as the unit or as what is in it, or with the words `none` and `some` -/
  | none {vs : List (Variant × SemId)} {n s : SemId} : OptionOf vs n s → Way R .unit (.union vs) (.union (.name n!"none") .unit)
  | noneWord {vs : List (Variant × SemId)} {n s : SemId} : OptionOf vs n s →
      Way R (.tuple [.str b!"none", .unit]) (.union vs) (.union (.name n!"none") .unit)
  | some {vs : List (Variant × SemId)} {n s : SemId} {v w : Val} : OptionOf vs n s → ¬ v.Marked → R v s w →
      Way R v (.union vs) (.union (.name n!"some") w)
  | someWord {vs : List (Variant × SemId)} {n s : SemId} {v w : Val} : OptionOf vs n s → R v s w →
      Way R (.tuple [.str b!"some", v]) (.union vs) (.union (.name n!"some") w)
  /-- a tuple as a tuple or as a list (of which items in excess are not looked at), and a wrapper as what is in it -/
  | tuple {ids : List SemId} {l ws : List Val} : All3 R l ids ws → Way R (.tuple l) (.tuple ids) (.tuple ws)
  | items {ids : List SemId} {l more ws : List Val} : All3 R l ids ws → Way R (.list (l ++ more)) (.tuple ids) (.tuple ws)
  | wrapped {i : SemId} {v w : Val} : (∀ l, v ≠ .tuple l) → (∀ l, v ≠ .list l) → R v i w →
      Way R v (.tuple [i]) (.tuple [w])
  /-- a structure as a structure, or as a map with the names of its fields as text -/
  | struct {req : List (Name × SemId)} {fs ws : List (Name × Val)} :
      All3 (fun f r w => f.1 = r.1 ∧ w.1 = r.1 ∧ R f.2 r.2 w.2) fs req ws → Way R (.struct fs) (.struct req) (.struct ws)
  | entries {req : List (Name × SemId)} {es : List (Val × Val)} {ws : List (Name × Val)} :
      All3 (fun e r w => e.1 = .str r.1.bytes ∧ w.1 = r.1 ∧ R e.2 r.2 w.2) es req ws →
      Way R (.map es) (.struct req) (.struct ws)
  /-- collections item by item -/
  | list {i : SemId} {sz : Sizing} {l ws : List Val} : All2 (fun v w => R v i w) l ws →
      Way R (.list l) (.list i sz) (.list ws)
  | set {i : SemId} {sz : Sizing} {l ws : List Val} : All2 (fun v w => R v i w) l ws → Way R (.set l) (.set i sz) (.set ws)
  | map {k i : SemId} {sz : Sizing} {l ws : List (Val × Val)} :
      All2 (fun v w => R v.1 k w.1 ∧ R v.2 i w.2) l ws → Way R (.map l) (.map k i sz) (.map ws)

/-- A way to write the value, in at most so many layers. -/
def MeansN (E : Env) : Nat → Val → SemId → Val → Prop
  | 0, _, _, _ => False
  | n + 1, v, id, w => ∃ t, E.find id = some t ∧ Way (MeansN E n) v t w

/-- The first value, given for the type, is a way to write the second one. -/
def Means (E : Env) (v : Val) (id : SemId) (w : Val) : Prop := ∃ n, MeansN E n v id w

/-- No structure and no map in the value has two entries under the same name. -/
inductive Val.Unrepeated : Val → Prop
  | unit : Unrepeated .unit
  | num (n : Num) : Unrepeated (.num n)
  | str (s : Bytes) : Unrepeated (.str s)
  | bytes (b : Bytes) : Unrepeated (.bytes b)
  | enum (t : Tag) : Unrepeated (.enum t)
  | union {t : Tag} {v : Val} : Unrepeated v → Unrepeated (.union t v)
  | struct {fs : List (Name × Val)} : (fs.map Prod.fst).Nodup → (∀ f ∈ fs, Unrepeated f.2) → Unrepeated (.struct fs)
  | list {l : List Val} : (∀ v ∈ l, Unrepeated v) → Unrepeated (.list l)
  | set {l : List Val} : (∀ v ∈ l, Unrepeated v) → Unrepeated (.set l)
  | tuple {l : List Val} : (∀ v ∈ l, Unrepeated v) → Unrepeated (.tuple l)
  | map {l : List (Val × Val)} : (l.Pairwise fun a b => ∀ s, a.1 = .str s → b.1 ≠ .str s) →
      (∀ p ∈ l, Unrepeated p.1) → (∀ p ∈ l, Unrepeated p.2) → Unrepeated (.map l)

end Verif
