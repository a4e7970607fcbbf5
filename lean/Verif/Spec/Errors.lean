import Verif.Spec.Part
import Verif.Spec.Reach
import Verif.Model.Codec

/-!
# Specification vocabulary for error messages

What each error of `typify` says about a place in the value and the type expected there.
-/

namespace Verif

/-- The second value occurs within the first one, whatever the types. -/
inductive Occurs : Val → Val → Prop
  | refl (v : Val) : Occurs v v
  | tuple {l : List Val} {v w : Val} : v ∈ l → Occurs v w → Occurs (.tuple l) w
  | list {l : List Val} {v w : Val} : v ∈ l → Occurs v w → Occurs (.list l) w
  | set {l : List Val} {v w : Val} : v ∈ l → Occurs v w → Occurs (.set l) w
  | field {fs : List (Name × Val)} {n : Name} {v w : Val} : (n, v) ∈ fs → Occurs v w →
      Occurs (.struct fs) w
  | key {l : List (Val × Val)} {k v w : Val} : (k, v) ∈ l → Occurs k w → Occurs (.map l) w
  | value {l : List (Val × Val)} {k v w : Val} : (k, v) ∈ l → Occurs v w → Occurs (.map l) w
  | content {t : Tag} {v w : Val} : Occurs v w → Occurs (.union t v) w

/-- The value has an entry for a field of that name: it is a structure, or a map with string keys. -/
def Val.HasEntry (n : Name) : Val → Prop
  | .struct fs => ∃ v, (n, v) ∈ fs
  | .map l => ∃ v, (Val.str n.bytes, v) ∈ l
  | _ => False

/-- The value picks a variant that is not among the given ones: by name, by tag, by the name as a
string or by the tag as a number. -/
inductive Picks (vs : List Variant) : Val → Prop
  | name {n : Name} : (∀ x ∈ vs, x.name ≠ n) → Picks vs (.enum (.name n))
  | ord {t : Byte} : (∀ x ∈ vs, x.tag ≠ t) → Picks vs (.enum (.ord t))
  | str {s : Bytes} {n : Name} : n.bytes = s → (∀ x ∈ vs, x.name ≠ n) → Picks vs (.str s)
  | num {k : BitVec 64} : (∀ x ∈ vs, x.tag.toNat ≠ k.toNat) → Picks vs (.num (.uint k))

/-- The number of items of the value is not among those the collection type admits. -/
inductive BadCount : Ty SemId → Val → Prop
  | array {i : SemId} {len : BitVec 16} {v : Val} {c : Nat} : Counts v c → len.toNat < c →
      BadCount (.array i len) v
  | list {i : SemId} {sz : Sizing} {v : Val} {c : Nat} : Counts v c →
      ¬(sz.min.toNat ≤ c ∧ c ≤ sz.max.toNat) → BadCount (.list i sz) v
  | set {i : SemId} {sz : Sizing} {v : Val} {c : Nat} : Counts v c →
      ¬(sz.min.toNat ≤ c ∧ c ≤ sz.max.toNat) → BadCount (.set i sz) v
  | map {k i : SemId} {sz : Sizing} {v : Val} {c : Nat} : Counts v c →
      ¬(sz.min.toNat ≤ c ∧ c ≤ sz.max.toNat) → BadCount (.map k i sz) v

/-- Two items of the list, at different positions, are accepted for the type as equal values. -/
def Repeats (E : Env) (i : SemId) (l : List Val) : Prop :=
  ∃ a x b y c n x' y', l = a ++ x :: (b ++ y :: c) ∧ typify E n x i = .ok x' ∧
    typify E n y i = .ok y' ∧ x'.eqv y' = true

/-- What the error claims about a value `w` for which the type `id` is expected. -/
def Fault (E : Env) (id : SemId) (w : Val) : TErr → Prop
  | .typeAbsent i => i = id ∧ E.find i = none ∧ i ≠ SemId.unit E.H
  | .outOfBounds => ∃ t, E.find id = some t ∧ BadCount t w
  | .repeatedSetValue => ∃ i sz l, E.find id = some (.set i sz) ∧ w = .set l ∧ Repeats E i l
  | .repeatedKeyValue => ∃ k i sz l, E.find id = some (.map k i sz) ∧ w = .map l ∧
      Repeats E k (l.map Prod.fst)
  | .fieldNumberMismatch =>
      (∃ ids l, E.find id = some (.tuple ids) ∧ w = .tuple l ∧ l.length ≠ ids.length) ∨
      (∃ req fs, E.find id = some (.struct req) ∧ w = .struct fs ∧ fs.length ≠ req.length)
  | .extraField n => ∃ req, E.find id = some (.struct req) ∧ (∀ f ∈ req, f.1 ≠ n) ∧ w.HasEntry n
  | .invalidFieldName => ∃ req l s v, E.find id = some (.struct req) ∧ w = .map l ∧
      (Val.str s, v) ∈ l ∧ ∀ n : Name, n.bytes ≠ s
  | .mapNotStructure => ∃ req l k v, E.find id = some (.struct req) ∧ w = .map l ∧ (k, v) ∈ l ∧
      ∀ s, k ≠ .str s
  | .enumTagInvalid => ∃ vs, E.find id = some (.enum vs) ∧ Picks vs w
  | .unionTagInvalid => ∃ vs t v, E.find id = some (.union vs) ∧ w = .union t v ∧
      Picks (vs.map Prod.fst) (.enum t)
  | .invalidOptional => ∃ vs a b, E.find id = some (.union vs) ∧ (Ty.union vs).isOption = true ∧
      w = .tuple [a, b] ∧ a ≠ .str Ty.someName.bytes ∧ (a ≠ .str Ty.noneName.bytes ∨ b ≠ .unit)
  | .typeMismatch => ∀ n, typify E (n + 1) w id = .err .typeMismatch

/-- The error is true of some place of the value: of a value that occurs in it and of a type that is
reached from the expected one. -/
def Blames (E : Env) (id : SemId) (v : Val) (e : TErr) : Prop :=
  ∃ j w, Reach E.sys (· = id) j ∧ Occurs v w ∧ Fault E j w e

/-- The bytes start with a length prefix and that many bytes, which are not as `ok` requires. -/
def BadText (ok : Bytes → Bool) (bs : Bytes) : Prop :=
  ∃ len s rest, bs = len ++ (s ++ rest) ∧ s.length = fromLe len ∧ ok s = false

/-- What an error of reading claims about the bytes `bs` from which the type `id` is read. -/
def ReadFault (E : Env) (id : SemId) (bs : Bytes) : DErr → Prop
  | .typeAbsent i => i = id ∧ E.find i = none
  | .unknownType i => i = id ∧ E.find i = none
  | .notImplemented => ∃ p, E.find id = some (.primitive p) ∧ ¬ReadablePrim p
  | .enumTag => ∃ t rest vs, bs = t :: rest ∧ (∀ x ∈ vs, x.tag ≠ t) ∧
      (E.find id = some (.enum vs) ∨ ∃ us, E.find id = some (.union us) ∧ us.map Prod.fst = vs)
  | .io => ∀ n, read E (n + 1) id bs = .err .io
  | .ascii => BadText isAscii bs ∧ ((∃ i sz vs, E.find id = some (.list i sz) ∧
      E.find i = some (.enum vs)) ∨ ∃ a b i sz, E.find id = some (.tuple [a, b]) ∧
      E.find b = some (.list i sz))
  | .utf8 => BadText utf8Valid bs ∧ ∃ sz, E.find id = some (.list (SemId.unicodeChar E.H) sz)
  | .notEntirelyConsumed => False

/-- The error is true of some place of the data: of a type that is reached from the expected one and
of the bytes from some position on. -/
def ReadBlames (E : Env) (id : SemId) (e : DErr) (bs : Bytes) : Prop :=
  ∃ j c bs', Reach E.sys (· = id) j ∧ bs = c ++ bs' ∧ ReadFault E j bs' e

/-- The error names a list type of the system whose item type is absent. -/
def NamesList (E : Env) (id : SemId) (e : DErr) : Prop :=
  ∃ i j sz, e = .typeAbsent i ∧ Reach E.sys (· = id) i ∧ E.find i = some (.list j sz) ∧
    E.find j = none

/-- What an error of writing claims about a value `w` written as the type `id`. -/
def WriteFault (E : Env) (id : SemId) (w : Val) : EErr → Prop
  | .missingField n => ∃ req fs, E.find id = some (.struct req) ∧ w = .struct fs ∧
      (∃ i, (n, i) ∈ req) ∧ ∀ f ∈ fs, f.1 ≠ n

/-- The error of writing is true of some place of the value. -/
def WriteBlames (E : Env) (id : SemId) (v : Val) (e : EErr) : Prop :=
  ∃ j w, Reach E.sys (· = id) j ∧ Occurs v w ∧ WriteFault E j w e

end Verif
