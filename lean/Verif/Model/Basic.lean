/-!
# Basic vocabulary of the model

Bytes, little-endian numbers, identifiers, 32-byte ids, outcomes of fallible functions and
ordered maps. Nothing here is specific to strict-types except where a comment cites a file.
-/

namespace Verif

/-- A byte (`u8`). -/
abbrev Byte := BitVec 8
/-- A byte string (`Vec<u8>`, `&[u8]`). -/
abbrev Bytes := List Byte

/-- Outcome of a Rust function: normal return, returned error, panic, or non-termination
(the model ran out of fuel). -/
inductive Out (ε α : Type) where
  | ok (a : α)
  | err (e : ε)
  | panic
  | diverge
deriving DecidableEq, Repr

namespace Out

/-- Sequencing: the first non-`ok` outcome wins (`?` operator of Rust). -/
@[inline] def bind {ε α β : Type} (x : Out ε α) (f : α → Out ε β) : Out ε β :=
  match x with
  | ok a => f a
  | err e => err e
  | panic => panic
  | diverge => diverge

instance {ε : Type} : Monad (Out ε) where
  pure := ok
  bind := bind

@[simp] theorem pure_eq {ε α : Type} (a : α) : (pure a : Out ε α) = ok a := rfl
@[simp] theorem bind_ok {ε α β : Type} (a : α) (f : α → Out ε β) : (ok a >>= f) = f a := rfl
@[simp] theorem bind_err {ε α β : Type} (e : ε) (f : α → Out ε β) :
    ((err e : Out ε α) >>= f) = err e := rfl
@[simp] theorem bind_panic {ε α β : Type} (f : α → Out ε β) :
    ((panic : Out ε α) >>= f) = panic := rfl
@[simp] theorem bind_diverge {ε α β : Type} (f : α → Out ε β) :
    ((diverge : Out ε α) >>= f) = diverge := rfl

theorem bind_eq_ok {ε α β : Type} {x : Out ε α} {f : α → Out ε β} {b : β} :
    (x >>= f) = ok b ↔ ∃ a, x = ok a ∧ f a = ok b := by
  cases x <;> simp

/-- `Result::map_err`. -/
def mapErr {ε ε' α : Type} (f : ε → ε') : Out ε α → Out ε' α
  | ok a => ok a
  | err e => err (f e)
  | panic => panic
  | diverge => diverge

/-- `Option::ok_or`. -/
def ofOption {ε α : Type} (e : ε) : Option α → Out ε α
  | some a => ok a
  | none => err e

/-- `Option::expect` / `unwrap`: absence is a panic. -/
def expect {ε α : Type} : Option α → Out ε α
  | some a => ok a
  | none => panic

/-- `debug_assert!`: a panic in debug builds only. -/
def debugAssert {ε : Type} (debug : Bool) (b : Bool) : Out ε Unit :=
  if debug && !b then panic else ok ()

/-- Did the function return (with a value or an error)? -/
def returned {ε α : Type} : Out ε α → Bool
  | ok _ => true
  | err _ => true
  | _ => false

end Out

/-! ## Little-endian numbers -/

/-- The `k` low bytes of `n`, least significant first (`to_le_bytes()[0..k]`). -/
def le : Nat → Nat → Bytes
  | 0, _ => []
  | k + 1, n => BitVec.ofNat 8 n :: le k (n / 256)

/-- Number denoted by little-endian bytes (`from_le_bytes`). -/
def fromLe : Bytes → Nat
  | [] => 0
  | b :: bs => b.toNat + 256 * fromLe bs

/-! ## Identifiers and ids -/

/-- ASCII letter or underscore. -/
def isAlphaLodash (b : Byte) : Bool :=
  let n := b.toNat
  (65 ≤ n && n ≤ 90) || (97 ≤ n && n ≤ 122) || n == 95

/-- ASCII letter, digit or underscore. -/
def isAlphaNumLodash (b : Byte) : Bool :=
  isAlphaLodash b || (48 ≤ b.toNat && b.toNat ≤ 57)

/-- Validity of an identifier: 1 to 100 characters, the first a letter or underscore, the others
letters, digits or underscores (`stl/StrictTypes@0.1.0.sty`, types `Ident`, `LibName`, `TypeName`,
`FieldName`, `VariantName`). Simplification: the four kinds of names differ in the case of the first letter;
the model uses the union of them. -/
def nameOk : Bytes → Bool
  | [] => false
  | b :: bs => isAlphaLodash b && bs.all isAlphaNumLodash && bs.length ≤ 99

/-- An identifier (`LibName`, `TypeName`, `FieldName`, `VariantName` of `strict_encoding`). -/
structure Name where
  bytes : Bytes
  ok : nameOk bytes = true
deriving DecidableEq

instance : Repr Name where
  reprPrec n _ := Std.Format.text (String.ofList (n.bytes.map fun b => Char.ofNat b.toNat))

/-- `VariantName::try_from(String)`, `FieldName::try_from(String)`: validity check of a string. -/
def Name.ofBytes? (bs : Bytes) : Option Name :=
  if h : nameOk bs = true then some ⟨bs, h⟩ else none

/-- `n!"abc"` is the identifier `abc`, expanded to a literal byte list. -/
macro:max "n!" s:str : term => do
  let bs := s.getString.toUTF8.toList
  let elems ← bs.toArray.mapM fun b => do
    let lit := Lean.Syntax.mkNumLit (toString b.toNat)
    `((BitVec.ofNat 8 $lit))
  `((Verif.Name.mk [$elems,*] (by decide) : Verif.Name))

/-- 32-byte id (`SemId`, `TypeLibId`, `TypeSysId`: `src/ast/id.rs:45`, `src/typelib/id.rs:45`,
`src/typesys/id.rs`). -/
structure Id32 where
  bytes : Bytes
  len : bytes.length = 32
deriving DecidableEq

instance : Repr Id32 where
  reprPrec i _ := repr (i.bytes.map BitVec.toNat)

/-- Id made of 32 equal bytes, for examples. -/
def Id32.rep (b : Byte) : Id32 := ⟨List.replicate 32 b, by simp⟩

abbrev SemId := Id32
abbrev LibId := Id32

/-- A hash function with 32-byte output (`sha2::Sha256`), arbitrary. -/
abbrev Hash := Bytes → Id32

/-! ## Order on keys and ordered maps -/

/-- Lexicographic order on byte strings (`Ord` of `[u8]`, `str` and `Bytes32`). -/
def bytesLt : Bytes → Bytes → Bool
  | [], [] => false
  | [], _ :: _ => true
  | _ :: _, [] => false
  | a :: as, b :: bs => a.toNat < b.toNat || (a == b && bytesLt as bs)

/-- Strict order used as key order of `BTreeMap`/`BTreeSet`. -/
class KeyOrd (K : Type) where
  lt : K → K → Bool

instance : KeyOrd Id32 := ⟨fun a b => bytesLt a.bytes b.bytes⟩
instance : KeyOrd Name := ⟨fun a b => bytesLt a.bytes b.bytes⟩
instance : KeyOrd Byte := ⟨fun a b => a.toNat < b.toNat⟩

/-- `BTreeMap`: association list sorted by key. -/
abbrev OMap (K V : Type) := List (K × V)

namespace OMap
variable {K V : Type}

/-- Keys strictly increasing. -/
def Sorted [KeyOrd K] (m : OMap K V) : Prop := m.Pairwise fun a b => KeyOrd.lt a.1 b.1 = true

/-- `BTreeMap::get`. -/
def get [DecidableEq K] (m : OMap K V) (k : K) : Option V :=
  match m with
  | [] => none
  | (k', v) :: m => if k' = k then some v else get m k

/-- `BTreeMap::insert`: an equal key keeps its place and gets the new value. -/
def insert [KeyOrd K] [DecidableEq K] (m : OMap K V) (k : K) (v : V) : OMap K V :=
  match m with
  | [] => [(k, v)]
  | (k', v') :: m =>
    if KeyOrd.lt k k' then (k, v) :: (k', v') :: m
    else if k = k' then (k', v) :: m
    else (k', v') :: insert m k v

/-- `BTreeMap::remove`. -/
def erase [DecidableEq K] (m : OMap K V) (k : K) : OMap K V := m.filter fun p => p.1 ≠ k

/-- `BTreeMap::keys`. -/
def keys (m : OMap K V) : List K := m.map Prod.fst

end OMap

/-- `BTreeSet`: sorted list. -/
abbrev OSet (K : Type) := List K

namespace OSet
variable {K : Type}

/-- Strictly increasing. -/
def Sorted [KeyOrd K] (s : OSet K) : Prop := s.Pairwise fun a b => KeyOrd.lt a b = true

/-- `BTreeSet::insert`. -/
def insert [KeyOrd K] [DecidableEq K] (s : OSet K) (k : K) : OSet K :=
  match s with
  | [] => [k]
  | k' :: s => if KeyOrd.lt k k' then k :: k' :: s else if k = k' then k' :: s else k' :: insert s k

/-- `BTreeSet::extend` / collecting an iterator. -/
def extend [KeyOrd K] [DecidableEq K] (s : OSet K) (ks : List K) : OSet K := ks.foldl insert s

end OSet

end Verif
