import Verif.Spec.World
import Verif.Spec.Value

/-!
# Specification vocabulary for values of Rust types

What a value of a Rust type looks like as bytes and as a dynamic value. The bytes are those of
`StrictEncode` (external): fields one after another, one byte for the tag of a variant, a length in
front of a collection, little-endian numbers. Nothing here uses a type system.
-/

namespace Verif

/-- `u8` and `Byte`. -/
def RTy.isByte : RTy → Bool
  | .prim c => c = 1 || c = Ty.BYTE_CODE
  | _ => false

/-- The variants of an enum of which every tag is an ASCII character. -/
def RTy.letters? : RTy → Option (List Variant)
  | .enum _ _ vs => if vs.all (fun v => 32 ≤ v.tag.toNat && v.tag.toNat ≤ 127) then some vs else none
  | _ => none

/-- The type is an enum of ASCII characters. -/
def RTy.isLetters (t : RTy) : Bool := t.letters?.isSome

/-- The byte is one of the characters of the type. -/
def RTy.Letter (t : RTy) (b : Byte) : Prop := ∃ vs, t.letters? = some vs ∧ ∃ v ∈ vs, v.tag = b

/-- Values of numeric types: `n` bytes for the types with a code up to 16, a byte for `Byte`, two's
complement for signed types of 1, 2, 4, 8 and 16 bytes, nothing for the unit. Numbers of more than 64 bits are
big numbers as dynamic values. Numbers of more than 128 bits, which are not part of Rust, and floats are left out. -/
inductive PrimWrites : Byte → Val → Bytes → Prop
  | unit : PrimWrites Ty.UNIT_CODE .unit []
  | uint {n : Nat} {x : BitVec 64} : 1 ≤ n → n ≤ 8 → x.toNat < 256 ^ n →
      PrimWrites (BitVec.ofNat 8 n) (.num (.uint x)) (le n x.toNat)
  | byte {b : Byte} : PrimWrites Ty.BYTE_CODE (.num (.uint (BitVec.ofNat 64 b.toNat))) [b]
  | int {n : Nat} {x : BitVec 64} : n = 1 ∨ n = 2 ∨ n = 4 ∨ n = 8 →
      -(2 : Int) ^ (8 * n - 1) ≤ x.toInt → x.toInt < (2 : Int) ^ (8 * n - 1) →
      PrimWrites (BitVec.ofNat 8 (0x40 + n)) (.num (.int x)) (le n x.toNat)
  | bigUint {n : Nat} {x : BitVec 1024} : 8 < n → n ≤ 16 → x.toNat < 256 ^ n →
      PrimWrites (BitVec.ofNat 8 n) (.num (.bigUint x)) (le n x.toNat)
  | bigInt {x : BitVec 1024} : -(2 : Int) ^ (8 * 16 - 1) ≤ x.toInt → x.toInt < (2 : Int) ^ (8 * 16 - 1) →
      PrimWrites (BitVec.ofNat 8 (0x40 + 16)) (.num (.bigInt x)) (le 16 x.toNat)

/-- The number of items is within the bounds. -/
def Sizing.Allows (sz : Sizing) (n : Nat) : Prop := sz.min.toNat ≤ n ∧ n ≤ sz.max.toNat

/-- Length prefix of `n` items of a collection. -/
def lenPrefix (sz : Sizing) (n : Nat) : Bytes := le (prefixWidth sz.max.toNat) n

mutual
/-- A value of the Rust type is written as these bytes, and is this dynamic value. Arrays and lists of
bytes are byte strings, lists of characters are strings. -/
def RTy.Writes : RTy → Val → Bytes → Prop
  | .prim c, v, bs => PrimWrites c v bs
  | .unicode sz, v, bs => ∃ s, v = .str s ∧ Utf8 s ∧ sz.Allows s.length ∧
      bs = lenPrefix sz s.length ++ s
  | .rstring c c1 sz, v, bs => ∃ s, v = .str s ∧ (∀ b ∈ s.take 1, c1.Letter b) ∧ (∀ b ∈ s.drop 1, c.Letter b) ∧
      sz.Allows s.length ∧ bs = lenPrefix sz s.length ++ s
  | .array t len, v, bs =>
    if t.isByte then v = .bytes bs ∧ bs.length = len.toNat
    else ∃ l bss, v = .list l ∧ All2 (RTy.Writes t) l bss ∧ l.length = len.toNat ∧ bs = bss.flatten
  | .list t sz, v, bs =>
    if t.isByte then ∃ b, v = .bytes b ∧ sz.Allows b.length ∧ bs = lenPrefix sz b.length ++ b
    else if t.isLetters then
      ∃ s, v = .str s ∧ (∀ b ∈ s, t.Letter b) ∧ sz.Allows s.length ∧ bs = lenPrefix sz s.length ++ s
    else ∃ l bss, v = .list l ∧ All2 (RTy.Writes t) l bss ∧ sz.Allows l.length ∧
      bs = lenPrefix sz l.length ++ bss.flatten
  | .set t sz, v, bs => ∃ l bss, v = .set l ∧ All2 (RTy.Writes t) l bss ∧ sz.Allows l.length ∧
      bs = lenPrefix sz l.length ++ bss.flatten
  | .map k t sz, v, bs => ∃ (l : List (Val × Val)) (bss : List (Bytes × Bytes)), v = .map l ∧
      All2 (fun p q => RTy.Writes k p.1 q.1 ∧ RTy.Writes t p.2 q.2) l bss ∧ sz.Allows l.length ∧
      bs = lenPrefix sz l.length ++ (bss.map fun q => q.1 ++ q.2).flatten
  | .record _ _ isTuple fs, v, bs =>
    if fs.isEmpty then v = .unit ∧ bs = []
    else if isTuple then ∃ l, v = .tuple (l.map Prod.snd) ∧ RTy.WritesFields fs l bs
    else ∃ l, v = .struct (l.filterMap fun p => p.1.map fun n => (n, p.2)) ∧ RTy.WritesFields fs l bs
  | .enum _ _ vs, v, bs => ∃ x ∈ vs, v = .enum (.name x.name) ∧ bs = [x.tag]
  | .union _ _ vs _, v, bs => RTy.WritesVariants vs v bs
termination_by structural t => t
/-- The fields, each with its name, and their bytes. -/
def RTy.WritesFields : List (Option Name × RTy) → List (Option Name × Val) → Bytes → Prop
  | [], l, bs => l = [] ∧ bs = []
  | f :: fs, l, bs => ∃ v l' a b, l = (f.1, v) :: l' ∧ bs = a ++ b ∧ RTy.WritesField f v a ∧
      RTy.WritesFields fs l' b
termination_by structural fs => fs
/-- One field. -/
def RTy.WritesField : Option Name × RTy → Val → Bytes → Prop
  | (_, t), v, bs => RTy.Writes t v bs
termination_by structural f => f
/-- One of the variants, with its payload. -/
def RTy.WritesVariants : List (Variant × RTy) → Val → Bytes → Prop
  | [], _, _ => False
  | x :: vs, v, bs => RTy.WritesVariant x v bs ∨ RTy.WritesVariants vs v bs
termination_by structural vs => vs
/-- This variant, with its payload. -/
def RTy.WritesVariant : Variant × RTy → Val → Bytes → Prop
  | (x, t), v, bs => ∃ w b, v = .union (.name x.name) w ∧ bs = x.tag :: b ∧ RTy.Writes t w b
termination_by structural x => x
end

/-! ## Conditions -/

/-- Fields of a struct have distinct names, as they have in Rust. -/
def RTy.DistinctFields : RTy → Prop
  | .record _ _ false fs => (fs.map Prod.fst).Nodup
  | _ => True

/-- A tuple of a character and a list of characters. -/
def RTy.LooksLikeString : RTy → Prop
  | .record _ _ true [(_, c1), (_, .list c _)] => c1.isLetters = true ∧ c.isLetters = true
  | _ => False

/-- What the deserialiser relies on: restricted strings are made of characters and are not empty;
collections are declared for at most `2 ^ 32 - 1` items. -/
def RTy.Ordinary : RTy → Prop
  | .unicode sz => sz.min.toNat ≤ sz.max.toNat ∧ sz.max.toNat < 2 ^ 32
  | .rstring c c1 sz => c.isLetters = true ∧ c1.isLetters = true ∧ 1 ≤ sz.min.toNat ∧
      sz.min.toNat ≤ sz.max.toNat ∧ sz.max.toNat < 2 ^ 32
  | .list _ sz => sz.min.toNat ≤ sz.max.toNat ∧ sz.max.toNat < 2 ^ 32
  | .set _ sz => sz.max.toNat < 2 ^ 32
  | .map _ _ sz => sz.max.toNat < 2 ^ 32
  | _ => True

/-- An array of something else than bytes. -/
def RTy.ItemArray : RTy → Prop
  | .array t _ => t.isByte = false
  | _ => False

/-- Integers of up to 64 bits, the unit and `Byte`. -/
def RTy.UpTo64 : RTy → Prop
  | .prim c => ReadablePrim c
  | _ => True

/-- Integers of up to 128 bits, the unit and `Byte`. -/
def RTy.UpTo128 : RTy → Prop
  | .prim c => ReadablePrim c ∨ (8 < c.toNat ∧ c.toNat ≤ 16) ∨ c.toNat = 0x50
  | _ => True

/-- Unsigned integers of more than 64 and up to 128 bits. -/
def RTy.WideUint : RTy → Prop
  | .prim c => 8 < c.toNat ∧ c.toNat ≤ 16
  | _ => False

/-- Raw bytes (`Byte`) as something else than the items of a byte string. -/
def RTy.BareByte (t : RTy) : Prop :=
  match t with
  | .list _ _ => False
  | .array _ _ => False
  | t => .prim Ty.BYTE_CODE ∈ t.parts

/-- No set in the value has the same item twice and no map the same key, as in Rust. -/
inductive Val.Tidy : Val → Prop
  | unit : Tidy .unit
  | num (n : Num) : Tidy (.num n)
  | str (s : Bytes) : Tidy (.str s)
  | bytes (b : Bytes) : Tidy (.bytes b)
  | enum (t : Tag) : Tidy (.enum t)
  | struct {fs : List (Name × Val)} : (∀ f ∈ fs, Tidy f.2) → Tidy (.struct fs)
  | union {t : Tag} {v : Val} : Tidy v → Tidy (.union t v)
  | list {l : List Val} : (∀ v ∈ l, Tidy v) → Tidy (.list l)
  | tuple {l : List Val} : (∀ v ∈ l, Tidy v) → Tidy (.tuple l)
  | set {l : List Val} : (∀ v ∈ l, Tidy v) → (l.Pairwise fun a b => a.eqv b = false) → Tidy (.set l)
  | map {l : List (Val × Val)} : (∀ p ∈ l, Tidy p.1) → (∀ p ∈ l, Tidy p.2) →
      ((l.map Prod.fst).Pairwise fun a b => a.eqv b = false) → Tidy (.map l)

/-! ## Contents of type systems -/

/-- What a type system has for a Rust type: the type itself, the character of a unicode string, and the
tail of a restricted string. -/
inductive RTy.Entry (H : Hash) : RTy → SemId → Ty SemId → Prop
  | self (q : RTy) : Entry H q (q.semId H) ((q.sem H).mapRefs (TranspileRef.id H))
  | char (sz : Sizing) : Entry H (.unicode sz) (SemId.unicodeChar H) .unicodeChar
  | tail (c c1 : RTy) (sz : Sizing) : Entry H (.rstring c c1 sz)
      ((TranspileRef.embedded (.list (absolute H c.lib c.name (c.sem H)) ⟨sz.min - 1, sz.max - 1⟩)).id H)
      (.list (c.semId H) ⟨sz.min - 1, sz.max - 1⟩)

end Verif
