import Verif.Model.Refs

/-!
# Strict values

`StrictVal`, its equality, constructors, unwrapping functions and path access.
-/

namespace Verif

/-- `src/value/val.rs:184-227`: `StrictNum`. Machine integers are bit vectors; signed ones are in
two's complement. -/
inductive Num where
  | uint (n : BitVec 64)
  | bigUint (n : BitVec 1024)
  | int (n : BitVec 64)
  | bigInt (n : BitVec 1024)
deriving DecidableEq, Repr

/-- `src/value/val.rs:249-254`: `EnumTag`. -/
inductive Tag where
  | name (n : Name)
  | ord (t : Byte)
deriving DecidableEq, Repr

/-- `src/value/val.rs:323-389`: `StrictVal`. A `String` is represented by its UTF-8 bytes (Rust
guarantees `utf8Valid`); a `Struct` is an `IndexMap`, i.e. an insertion-ordered list with distinct
keys. -/
inductive Val where
  | unit
  | num (n : Num)
  | str (s : Bytes)
  | bytes (b : Bytes)
  | struct (fs : List (Name × Val))
  | enum (t : Tag)
  | union (t : Tag) (v : Val)
  | list (l : List Val)
  | set (l : List Val)
  | tuple (l : List Val)
  | map (l : List (Val × Val))

/-! ## Strings -/

/-- `str::is_ascii`, `AsciiString` validity: all bytes below 128. -/
def isAscii (s : Bytes) : Bool := s.all fun b => b.toNat < 128

/-- A UTF-8 continuation byte. -/
def isCont (b : Byte) : Bool := 0x80 ≤ b.toNat && b.toNat ≤ 0xBF

/-- Validity of UTF-8 (`String::from_utf8`, table 3-7 of the Unicode standard). -/
def utf8Valid : Bytes → Bool
  | [] => true
  | a :: r =>
    if a.toNat < 0x80 then utf8Valid r
    else match r with
      | [] => false
      | b :: r =>
        if 0xC2 ≤ a.toNat && a.toNat ≤ 0xDF then isCont b && utf8Valid r
        else match r with
          | [] => false
          | c :: r =>
            if a.toNat = 0xE0 then 0xA0 ≤ b.toNat && b.toNat ≤ 0xBF && isCont c && utf8Valid r
            else if a.toNat = 0xED then 0x80 ≤ b.toNat && b.toNat ≤ 0x9F && isCont c && utf8Valid r
            else if 0xE1 ≤ a.toNat && a.toNat ≤ 0xEF then isCont b && isCont c && utf8Valid r
            else match r with
              | [] => false
              | d :: r =>
                if a.toNat = 0xF0 then
                  0x90 ≤ b.toNat && b.toNat ≤ 0xBF && isCont c && isCont d && utf8Valid r
                else if a.toNat = 0xF4 then
                  0x80 ≤ b.toNat && b.toNat ≤ 0x8F && isCont c && isCont d && utf8Valid r
                else if 0xF1 ≤ a.toNat && a.toNat ≤ 0xF3 then
                  isCont b && isCont c && isCont d && utf8Valid r
                else false

/-- `s.chars().count()` for valid UTF-8: the number of non-continuation bytes. -/
def charCount (s : Bytes) : Nat := (s.filter fun b => !isCont b).length

/-! ## Equality -/

/-- Lookup in an `IndexMap` (`IndexMap::get`). -/
def imGet {V : Type} (m : List (Name × V)) (n : Name) : Option V :=
  (m.find? fun p => p.1 == n).map Prod.snd

/-- `IndexMap::insert`: replaces the value in place if the key is present, else appends. -/
def imInsert {V : Type} : List (Name × V) → Name → V → List (Name × V)
  | [], n, v => [(n, v)]
  | (m, w) :: l, n, v => if m = n then (m, v) :: l else (m, w) :: imInsert l n v

mutual
/-- `src/value/val.rs:317`: derived `PartialEq for StrictVal`; `IndexMap` equality ignores the order
of the fields. -/
def Val.eqv : Val → Val → Bool
  | .unit, .unit => true
  | .num a, .num b => a == b
  | .str a, .str b => a == b
  | .bytes a, .bytes b => a == b
  | .struct fs, .struct gs => fs.length == gs.length && Val.eqvFields fs gs
  | .enum a, .enum b => a == b
  | .union a v, .union b w => a == b && Val.eqv v w
  | .list l, .list m => Val.eqvList l m
  | .set l, .set m => Val.eqvList l m
  | .tuple l, .tuple m => Val.eqvList l m
  | .map l, .map m => Val.eqvPairs l m
  | _, _ => false
termination_by structural v => v
/-- Equality of `Vec<StrictVal>`. -/
def Val.eqvList : List Val → List Val → Bool
  | [], [] => true
  | v :: l, w :: m => Val.eqv v w && Val.eqvList l m
  | _, _ => false
termination_by structural v => v
/-- Equality of `IndexMap`s of equal length: every entry of the first is found in the second. -/
def Val.eqvFields : List (Name × Val) → List (Name × Val) → Bool
  | [], _ => true
  | f :: fs, gs => Val.eqvField f gs && Val.eqvFields fs gs
termination_by structural v => v
/-- One entry of an `IndexMap` is found in another `IndexMap`. -/
def Val.eqvField : Name × Val → List (Name × Val) → Bool
  | (n, v), gs =>
    match imGet gs n with
    | some w => Val.eqv v w
    | none => false
termination_by structural v => v
/-- Equality of `Vec<(StrictVal, StrictVal)>`. -/
def Val.eqvPairs : List (Val × Val) → List (Val × Val) → Bool
  | [], [] => true
  | p :: l, q :: m => Val.eqvPair p q && Val.eqvPairs l m
  | _, _ => false
termination_by structural v => v
/-- Equality of `(StrictVal, StrictVal)`. -/
def Val.eqvPair : Val × Val → Val × Val → Bool
  | (k, v), (j, w) => Val.eqv k j && Val.eqv v w
termination_by structural v => v
end

/-! ## Constructors and unwrapping -/

/-- `src/value/val.rs:415`: `StrictVal::none`. -/
def Val.none : Val := .union (.name Ty.noneName) .unit
/-- `src/value/val.rs:416`: `StrictVal::some`. -/
def Val.some (v : Val) : Val := .union (.name Ty.someName) v
/-- `src/value/val.rs:403`: `StrictVal::newtype`. -/
def Val.newtype (v : Val) : Val := .tuple [v]
/-- `src/value/val.rs:411`: `StrictVal::bool`. -/
def Val.bool (b : Bool) : Val := .enum (.ord (if b then 1 else 0))

/-- `src/value/val.rs:429-437`: `StrictVal::skip_wrapper`. -/
def Val.skipWrapper : Val → Val
  | .tuple [v] => Val.skipWrapper v
  | v => v

/-- `src/value/val.rs:439-454`: `StrictVal::unwrap_option`. -/
def Val.unwrapOption (v : Val) : Out Unit (Option Val) :=
  match v.skipWrapper with
  | .union tag content =>
    match tag with
    | .name n =>
      if n = Ty.noneName ∧ content.eqv .unit then .ok Option.none
      else if n = Ty.someName then .ok (Option.some content)
      else .panic
    | .ord t =>
      if t = 0 ∧ content.eqv .unit then .ok Option.none
      else if t = 1 then .ok (Option.some content)
      else .panic
  | _ => .panic

/-- `src/value/val.rs:456-461`: `StrictVal::unwrap_num`. -/
def Val.unwrapNum (v : Val) : Out Unit Num :=
  match v.skipWrapper with
  | .num n => .ok n
  | _ => .panic

/-- `src/value/val.rs:232-238,463-466`: `StrictVal::unwrap_uint` into a type holding numbers below
`bound`. -/
def Val.unwrapUint (bound : Nat) (v : Val) : Out Unit Nat := do
  match ← v.unwrapNum with
  | .uint n => if n.toNat < bound then .ok n.toNat else .panic
  | _ => .panic

/-- `src/value/val.rs:511-516`: `StrictVal::unwrap_enum_tag`. -/
def Val.unwrapEnumTag (v : Val) : Out Unit Tag :=
  match v.skipWrapper with
  | .enum t => .ok t
  | _ => .panic

/-- `src/value/val.rs:261-268`: `EnumTag::unwrap_ord`. -/
def Tag.unwrapOrd : Tag → Out Unit Byte
  | .name _ => .panic
  | .ord t => .ok t

/-- Left-to-right evaluation of a fallible function on a list. -/
def outMap {ε α β : Type} (f : α → Out ε β) : List α → Out ε (List β)
  | [] => .ok []
  | a :: l => do
    let b ← f a
    let bs ← outMap f l
    pure (b :: bs)

/-- `matches!(c, StrictVal::Enum(_))`. -/
def Val.isEnum : Val → Bool
  | .enum _ => true
  | _ => false

/-- `String::from_utf8(..).expect(..)`. -/
def expectUtf8 (b : Bytes) : Out Unit Bytes := if utf8Valid b then .ok b else .panic

/-- `src/value/val.rs:468-486`: `StrictVal::unwrap_string`. -/
def Val.unwrapString (v : Val) : Out Unit Bytes :=
  match v.skipWrapper with
  | .str s => .ok s
  | .bytes b => expectUtf8 b
  | .list l =>
    if l.isEmpty then .ok []
    else if l.all Val.isEnum then do
      let tags ← outMap Val.unwrapEnumTag l
      let bs ← outMap Tag.unwrapOrd tags
      expectUtf8 bs
    else .panic
  | _ => .panic

/-- `src/value/val.rs:488-493`: `StrictVal::unwrap_bytes`. -/
def Val.unwrapBytes (v : Val) : Out Unit Bytes :=
  match v.skipWrapper with
  | .bytes b => .ok b
  | _ => .panic

/-- `src/value/val.rs:495-501`: `StrictVal::unwrap_tuple`. -/
def Val.unwrapTuple (v : Val) (no : BitVec 16) : Out Unit Val :=
  match v.skipWrapper with
  | .tuple l => .expect l[no.toNat]?
  | _ => .panic

/-- `src/value/val.rs:503-509`: `StrictVal::unwrap_struct`. -/
def Val.unwrapStruct (v : Val) (field : Name) : Out Unit Val :=
  match v.skipWrapper with
  | .struct fs => .expect (imGet fs field)
  | _ => .panic

/-- `src/value/val.rs:536-541`: `StrictVal::unwrap_union`. -/
def Val.unwrapUnion (v : Val) : Out Unit (Tag × Val) :=
  match v.skipWrapper with
  | .union t c => .ok (t, c)
  | _ => .panic

/-- `src/value/val.rs:543-550`: `StrictVal::unwrap_pos`. -/
def Val.unwrapPos (v : Val) (no : Nat) : Out Unit Val :=
  match v.skipWrapper with
  | .set l => .expect l[no]?
  | .list l => .expect l[no]?
  | _ => .panic

/-- `src/value/val.rs:552-561`: `StrictVal::unwrap_key`. -/
def Val.unwrapKey (v : Val) (key : Val) : Out Unit Val :=
  match v.skipWrapper with
  | .map l => .expect ((l.find? fun p => p.1.eqv key).map Prod.snd)
  | _ => .panic

/-! ## Paths into values -/

/-- `src/value/path.rs:40-49`: `KeyStep`. -/
inductive KeyStep where
  | number (n : BitVec 128)
  | blob (b : Bytes)
  | string (s : Bytes)
deriving DecidableEq, Repr

/-- `src/value/path.rs:51-71`: `KeyStep::has_match`. -/
def KeyStep.hasMatch (k : KeyStep) (v : Val) : Bool :=
  match k, v with
  | .number n, .enum (.ord t) => t.toNat == n.toNat
  | .number n, .num (.uint m) => n.toNat == m.toNat
  | .blob a, .bytes b => a == b
  | .string a, .str b => a == b
  | _, _ => false

/-- `src/value/path.rs:96-111`: `Step` of a value path. -/
inductive VStep where
  | namedField (n : Name)
  | unnamedField (i : Byte)
  | index (i : BitVec 32)
  | key (k : KeyStep)
deriving DecidableEq, Repr

/-- `src/value/path.rs:149-160`: `PathError`. -/
inductive PathErr where
  | collectionIndexOutOfBounds
  | fieldNoOutOfBounds
  | unknownFieldName
  | unknownKey
  | typeMismatch
deriving DecidableEq, Repr

/-- `src/value/path.rs:168-194`: the access done for the first step. -/
def Val.atStep (v : Val) (s : VStep) : Out PathErr Val :=
  match v, s with
  | .tuple l, .unnamedField i => .ofOption .fieldNoOutOfBounds l[i.toNat]?
  | .struct fs, .namedField n => .ofOption .unknownFieldName (imGet fs n)
  | .list l, .index i => .ofOption .collectionIndexOutOfBounds l[i.toNat]?
  | .set l, .index i => .ofOption .collectionIndexOutOfBounds l[i.toNat]?
  | .map l, .key k => .ofOption .unknownKey ((l.find? fun p => k.hasMatch p.1).map Prod.snd)
  | _, _ => .err .typeMismatch

/-- `src/value/path.rs:163-195`: `StrictVal::at_path`: only the first step is taken from the
iterator (line 168). -/
def Val.atPath (v : Val) (path : List VStep) : Out PathErr Val :=
  match path with
  | [] => .ok v
  | s :: _ => v.atStep s

end Verif
