import Verif.Model.Basic

/-!
# Abstract syntax of types

`Ty Ref` is the type of definitions whose inner references are of type `Ref`. It is a plain
(non-recursive) inductive type, as `Ty<Ref>` in the code: the nesting of inline types is done by
the reference type.
-/

namespace Verif

/-- `strict_encoding::Variant` (external): name and tag of an enum or union variant. -/
structure Variant where
  name : Name
  tag : Byte
deriving DecidableEq, Repr

/-- `Variant: PartialEq` (external): two variants are "equal" if the tag *or* the name agree. -/
def Variant.eqv (a b : Variant) : Bool := a.tag == b.tag || a.name == b.name

/-- `Variant: Ord` (external): equal if `eqv`, otherwise ordered by tag. -/
def Variant.cmp (a b : Variant) : Ordering :=
  if a.eqv b then .eq else if a.tag.toNat < b.tag.toNat then .lt else .gt

/-- `strict_encoding::Sizing` (external): bounds of a collection. -/
structure Sizing where
  min : BitVec 64
  max : BitVec 64
deriving DecidableEq, Repr

/-- `src/ast/ty.rs:60-73`: `Cls`, type classes. -/
inductive Cls where
  | primitive | unicode | asciiStr | enum | union | struct | tuple | array | list | set | map
deriving DecidableEq, Repr

/-- `src/ast/ty.rs:60-73`: discriminants of `Cls`. -/
def Cls.code : Cls → Byte
  | .primitive => 0
  | .unicode => 1
  | .asciiStr => 2
  | .enum => 3
  | .union => 4
  | .struct => 5
  | .tuple => 6
  | .array => 7
  | .list => 8
  | .set => 9
  | .map => 10

/-- `src/ast/ty.rs:112-150`: `Ty<Ref>`. A primitive is represented by its code byte (external type
`strict_encoding::Primitive`). Enum variants are a `BTreeSet<Variant>`, union variants a
`BTreeMap<Variant, Ref>`, fields are vectors; the size and order constraints are in `Ty.WF`. -/
inductive Ty (Ref : Type) where
  | primitive (code : Byte)
  | unicodeChar
  | enum (variants : List Variant)
  | union (variants : List (Variant × Ref))
  | tuple (fields : List Ref)
  | struct (fields : List (Name × Ref))
  | array (ty : Ref) (len : BitVec 16)
  | list (ty : Ref) (sizing : Sizing)
  | set (ty : Ref) (sizing : Sizing)
  | map (key : Ref) (ty : Ref) (sizing : Sizing)
deriving DecidableEq, Repr

/-- Variant list as held by a `BTreeSet<Variant>`/`BTreeMap<Variant, _>` in which no two variants
share a tag or a name: 1 to 255 entries in increasing tag order (`src/ast/ty.rs:512,646`). -/
def VariantsWF (vs : List Variant) : Prop :=
  1 ≤ vs.length ∧ vs.length ≤ 255 ∧
  (vs.Pairwise fun a b => a.tag.toNat < b.tag.toNat) ∧ (vs.Pairwise fun a b => a.name ≠ b.name)

instance (vs : List Variant) : Decidable (VariantsWF vs) := by
  unfold VariantsWF; infer_instance

namespace Ty
variable {Ref : Type}

/-- Constraints enforced by the containers of `src/ast/ty.rs:370,445,512,646` (non-empty, at most
255 entries, sorted variants with distinct tags and names). -/
def WF : Ty Ref → Prop
  | enum vs => VariantsWF vs
  | union vs => VariantsWF (vs.map Prod.fst)
  | tuple fs => 1 ≤ fs.length ∧ fs.length ≤ 255
  | struct fs => 1 ≤ fs.length ∧ fs.length ≤ 255
  | _ => True

instance (t : Ty Ref) : Decidable t.WF := by
  cases t <;> unfold WF <;> infer_instance

/-- Code of `Primitive::UNIT` (external). -/
def UNIT_CODE : Byte := 0x00
/-- Code of `Primitive::BYTE` (external). -/
def BYTE_CODE : Byte := 0x40
/-- Code of `Primitive::U8` (external). -/
def U8_CODE : Byte := 0x01

/-- `src/ast/ty.rs:153`. -/
abbrev UNIT : Ty Ref := primitive UNIT_CODE
/-- `src/ast/ty.rs:154`. -/
abbrev BYTE : Ty Ref := primitive BYTE_CODE
/-- `src/ast/ty.rs:156`. -/
abbrev U8 : Ty Ref := primitive U8_CODE

/-- `src/ast/ty.rs:92-105`: `Ty::cls`. -/
def cls : Ty Ref → Cls
  | primitive _ => .primitive
  | enum _ => .enum
  | union _ => .union
  | struct _ => .struct
  | tuple _ => .tuple
  | array _ _ => .array
  | unicodeChar => .unicode
  | list _ _ => .list
  | set _ _ => .set
  | map _ _ _ => .map

/-- `src/ast/ty.rs:207-214`: `Ty::is_compound`. -/
def isCompound : Ty Ref → Bool
  | tuple fs => fs.length > 1
  | struct fs => fs.length > 1
  | enum _ => true
  | union _ => true
  | _ => false

/-- `src/ast/ty.rs:215`: `Ty::is_primitive`. -/
def isPrimitive : Ty Ref → Bool
  | primitive _ => true
  | unicodeChar => true
  | _ => false

/-- `src/ast/ty.rs:216-218`: `Ty::is_collection`. -/
def isCollection : Ty Ref → Bool
  | array .. => true
  | list .. => true
  | set .. => true
  | map .. => true
  | _ => false

/-- `src/ast/ty.rs:220`: `Ty::is_newtype`. -/
def isNewtype : Ty Ref → Bool
  | tuple fs => fs.length == 1
  | _ => false

/-- `vname!("none")`. -/
def noneName : Name := n!"none"
/-- `vname!("some")`. -/
def someName : Name := n!"some"

/-- `src/ast/ty.rs:223-236`: `Ty::as_some`. -/
def asSome : Ty Ref → Option Ref
  | union vs =>
    if vs.length = 2 then
      match vs.head?, vs.getLast? with
      | some first, some last =>
        if first.1.name = noneName ∧ first.1.tag = 0 ∧ last.1.name = someName ∧ last.1.tag = 1
        then some last.2 else none
      | _, _ => none
    else none
  | _ => none

/-- `src/ast/ty.rs:222`: `Ty::is_option`. -/
def isOption (t : Ty Ref) : Bool := t.asSome.isSome

/-- `src/ast/ty.rs:238-247`: `Ty::as_wrapped_ty`; `asTy` is `TypeRef::as_ty` of the reference
type. -/
def asWrappedTy (asTy : Ref → Option (Ty Ref)) : Ty Ref → Option (Ty Ref)
  | tuple [r] => asTy r
  | _ => none

/-- `src/ast/ty.rs:343`: `Ty::is_byte`. -/
def isByte : Ty Ref → Bool
  | primitive c => c == BYTE_CODE || c == U8_CODE
  | _ => false

/-- `src/ast/ty.rs:344`: `Ty::is_unicode_char`. -/
def isUnicodeChar : Ty Ref → Bool
  | unicodeChar => true
  | _ => false

/-- `src/ast/ty.rs:198-206`: `Ty::is_char_enum`. The recursion through one-field tuples follows
`as_ty` of the reference type; for semantic ids (the only use) `as_ty` is `None`, so the result for
a tuple is `false`. This is the version for such references. -/
def isCharEnum : Ty Ref → Bool
  | enum vs => vs.all fun v => 32 ≤ v.tag.toNat && v.tag.toNat ≤ 127
  | _ => false

/-! ### Positions and iteration -/

/-- `src/ast/ty.rs:293-310`: `ItemCase`. -/
inductive ItemCase where
  | unnamedField (pos : Byte)
  | namedField (pos : Byte) (name : Name)
  | unionVariant (pos : Byte) (name : Name)
  | arrayItem
  | listItem
  | setItem
  | mapKey
  | mapValue
deriving DecidableEq, Repr

/-- `src/ast/ty.rs:313-324`: `Ty::ty_at` (with `ty_by_pos` of `ty.rs:413,488,579`). -/
def tyAt (t : Ty Ref) (pos : Byte) : Option Ref :=
  match t with
  | union vs => (vs.map Prod.snd)[pos.toNat]?
  | struct fs => (fs.map Prod.snd)[pos.toNat]?
  | tuple fs => fs[pos.toNat]?
  | array ty _ => if pos = 0 then some ty else none
  | list ty _ => if pos = 0 then some ty else none
  | set ty _ => if pos = 0 then some ty else none
  | map key ty _ => if pos = 0 then some key else if pos = 1 then some ty else none
  | _ => none

/-- `src/ast/ty.rs:325-341`: `Ty::case_at`. -/
def caseAt (t : Ty Ref) (pos : Byte) : Option ItemCase :=
  match t with
  | union vs => (vs[pos.toNat]?).map fun v => .unionVariant pos v.1.name
  | struct fs => (fs[pos.toNat]?).map fun f => .namedField pos f.1
  | tuple fs => if BitVec.ofNat 8 fs.length = pos then some (.unnamedField pos) else none
  | array _ _ => if pos = 0 then some .arrayItem else none
  | list _ _ => if pos = 0 then some .listItem else none
  | set _ _ => if pos = 0 then some .setItem else none
  | map _ _ _ => if pos = 0 then some .mapKey else if pos = 1 then some .mapValue else none
  | _ => none

/-- State of `Iter`/`IntoIter` (`src/ast/iter.rs:43-46,69-72`): the type and the next position. -/
structure IterState (Ref : Type) where
  ty : Ty Ref
  pos : Byte

/-- `src/ast/iter.rs:82-84`: `Iter::from(&Ty)`. -/
def iterStart (t : Ty Ref) : IterState Ref := ⟨t, 0⟩

/-- `self.pos += 1` on a `u8` (`src/ast/iter.rs:64,103`): panics at 255 when overflow checks are
on, wraps otherwise. -/
def incPos (debug : Bool) (pos : Byte) : Out Unit Byte :=
  if debug && pos == 255 then .panic else .ok (pos + 1)

/-- `src/ast/iter.rs:97-106`: `Iter::next`. -/
def iterNext (debug : Bool) (s : IterState Ref) :
    Out Unit (Option (Ref × Option ItemCase) × IterState Ref) := do
  let r := s.ty.tyAt s.pos
  let item := s.ty.caseAt s.pos
  let pos ← incPos debug s.pos
  pure (r.map fun r => (r, item), ⟨s.ty, pos⟩)

/-- `src/ast/iter.rs:59-67`: `IntoIter::next`. -/
def intoIterNext (debug : Bool) (s : IterState Ref) :
    Out Unit (Option Ref × IterState Ref) := do
  let r := s.ty.tyAt s.pos
  let pos ← incPos debug s.pos
  pure (r, ⟨s.ty, pos⟩)

/-- Consuming an iterator with a `for` loop: `next` is called until it returns `None`. `fuel` bounds
the number of calls; running out is `diverge`. -/
def collectIter {σ α : Type} (next : σ → Out Unit (Option α × σ)) :
    Nat → σ → Out Unit (List α)
  | 0, _ => .diverge
  | fuel + 1, s => do
    let (o, s') ← next s
    match o with
    | none => pure []
    | some a =>
      let rest ← collectIter next fuel s'
      pure (a :: rest)

/-- The direct references of a type in declaration order. This is what the `for` loops over
`ty.type_refs()`/`ty.iter()` see (theorems `C44_into_iter_enumerates_partial`, `C44_iter_enumerates_partial`). Used by the models of functions
that iterate (`src/typesys/translate.rs:126`, `src/typesys/type_sys.rs:149`). -/
def refs : Ty Ref → List Ref
  | primitive _ => []
  | unicodeChar => []
  | enum _ => []
  | union vs => vs.map Prod.snd
  | tuple fs => fs
  | struct fs => fs.map Prod.snd
  | array ty _ => [ty]
  | list ty _ => [ty]
  | set ty _ => [ty]
  | map key ty _ => [key, ty]

/-- `src/ast/path.rs:132-144`: `Ty::count_type_refs` (`len_u8` truncates to a byte). -/
def countTypeRefs : Ty Ref → Byte
  | primitive _ => 0
  | enum _ => 0
  | union vs => BitVec.ofNat 8 vs.length
  | struct fs => BitVec.ofNat 8 fs.length
  | tuple fs => BitVec.ofNat 8 fs.length
  | array _ _ => 1
  | unicodeChar => 0
  | list _ _ => 1
  | set _ _ => 1
  | map _ _ _ => 2

/-! ### Lookups -/

/-- `src/ast/ty.rs:414-416`: `NamedFields::ty_by_name`. -/
def fieldTy (fs : List (Name × Ref)) (name : Name) : Option Ref :=
  (fs.find? fun f => f.1 == name).map Prod.snd

/-- `src/ast/ty.rs:567-569`: `UnionVariants::by_tag`. -/
def unionByTag (vs : List (Variant × Ref)) (tag : Byte) : Option (Variant × Ref) :=
  vs.find? fun v => v.1.tag == tag

/-- `src/ast/ty.rs:570-572`: `UnionVariants::by_name`. -/
def unionByName (vs : List (Variant × Ref)) (name : Name) : Option (Variant × Ref) :=
  vs.find? fun v => v.1.name == name

/-- `src/ast/ty.rs:566`: `UnionVariants::has_tag`. -/
def unionHasTag (vs : List (Variant × Ref)) (tag : Byte) : Bool := vs.any fun v => v.1.tag == tag

/-- `src/ast/ty.rs:576-578`: `UnionVariants::ty_by_tag`. -/
def unionTyByTag (vs : List (Variant × Ref)) (tag : Byte) : Option Ref :=
  (vs.find? fun v => v.1.tag == tag).map Prod.snd

/-- `src/ast/ty.rs:573-575`: `UnionVariants::ty_by_name`. -/
def unionTyByName (vs : List (Variant × Ref)) (name : Name) : Option Ref :=
  (vs.find? fun v => v.1.name == name).map Prod.snd

/-- `src/ast/ty.rs:580-582`: `UnionVariants::tag_by_name`. -/
def unionTagByName (vs : List (Variant × Ref)) (name : Name) : Option Byte :=
  ((vs.map Prod.fst).find? fun v => v.name == name).map Variant.tag

/-- `src/ast/ty.rs:583-585`: `UnionVariants::name_by_tag`. -/
def unionNameByTag (vs : List (Variant × Ref)) (tag : Byte) : Option Name :=
  ((vs.map Prod.fst).find? fun v => v.tag == tag).map Variant.name

/-- `src/ast/ty.rs:673-675`: `EnumVariants::tag_by_name`. -/
def enumTagByName (vs : List Variant) (name : Name) : Option Byte :=
  (vs.find? fun v => v.name == name).map Variant.tag

/-- `src/ast/ty.rs:676-678`: `EnumVariants::name_by_tag`. -/
def enumNameByTag (vs : List Variant) (tag : Byte) : Option Name :=
  (vs.find? fun v => v.tag == tag).map Variant.name

/-- `src/ast/ty.rs:679`: `EnumVariants::has_tag`. -/
def enumHasTag (vs : List Variant) (tag : Byte) : Bool := vs.any fun v => v.tag == tag

/-- `src/ast/ty.rs:680`: `EnumVariants::has_name`. -/
def enumHasName (vs : List Variant) (name : Name) : Bool := vs.any fun v => v.name == name

/-- `src/ast/ty.rs:681`: `EnumVariants::by_tag`. -/
def enumByTag (vs : List Variant) (tag : Byte) : Option Variant := vs.find? fun v => v.tag == tag

/-- `src/ast/ty.rs:682-684`: `EnumVariants::by_name`. -/
def enumByName (vs : List Variant) (name : Name) : Option Variant :=
  vs.find? fun v => v.name == name

/-! ### Paths -/

/-- `src/ast/path.rs:36-64`: `Step` of a type path. -/
inductive Step where
  | namedField (name : Name)
  | unnamedField (pos : Byte)
  | variant (name : Name)
  | index
  | list
  | set
  | mapKey
  | mapValue
deriving DecidableEq, Repr

/-- `src/ast/path.rs:112-123`: the reference selected by one step from a type. -/
def stepRef (t : Ty Ref) (s : Step) : Option Ref :=
  match t, s with
  | struct fs, .namedField name => fieldTy fs name
  | union vs, .variant name => unionTyByName vs name
  | struct fs, .unnamedField pos => (fs.map Prod.snd)[pos.toNat]?
  | union vs, .unnamedField tag => unionTyByTag vs tag
  | array ty _, .index => some ty
  | list ty _, .list => some ty
  | set ty _, .set => some ty
  | map key _ _, .mapKey => some key
  | map _ ty _, .mapValue => some ty
  | _, _ => none

/-- Loop of `src/ast/path.rs:111-128`; the argument is the path reversed (`path.pop()` takes the
last step). Every step is matched against `self` (`path.rs:112`), the current type only being
replaced. The error carries the steps seen so far, in the order they were taken. -/
def atPathLoop (asTy : Ref → Option (Ty Ref)) (self : Ty Ref) :
    List Step → List Step → Ty Ref → Out (List Step) (Ty Ref)
  | [], _, cur => .ok cur
  | s :: rest, seen, _ =>
    match (self.stepRef s).bind asTy with
    | some t => atPathLoop asTy self rest (seen ++ [s]) t
    | none => .err (seen ++ [s])

/-- `src/ast/path.rs:107-130`: `Ty::at_path`. -/
def atPath (asTy : Ref → Option (Ty Ref)) (self : Ty Ref) (path : List Step) :
    Out (List Step) (Ty Ref) :=
  atPathLoop asTy self path.reverse [] self

end Ty

/-! ### Ordered collections of variants (external `BTreeMap`/`BTreeSet` with the order of
`Variant`) -/

/-- `BTreeMap<Variant, V>::insert` with the order `Variant.cmp`. The search walks the sorted keys:
an "equal" key keeps the old key and gets the new value; the entry goes before the first greater
key. Simplification: exact for maps held in one tree node (at most 11 entries), and for any size
when no two variants share a name. -/
def variantInsert {V : Type} (m : List (Variant × V)) (k : Variant) (v : V) :
    List (Variant × V) :=
  match m with
  | [] => [(k, v)]
  | (k', v') :: m =>
    match k.cmp k' with
    | .lt => (k, v) :: (k', v') :: m
    | .eq => (k', v) :: m
    | .gt => (k', v') :: variantInsert m k v

/-! ### Structural translation -/

/-- Left-to-right traversal of a list with a stateful, fallible function: the `for` loops of
`src/ast/translate.rs:82-84,102-107,125-127`. -/
def traverseList {σ ε α β : Type} (f : α → σ → Out ε (β × σ)) :
    List α → σ → Out ε (List β × σ)
  | [], s => .ok ([], s)
  | a :: as, s => do
    let (b, s) ← f a s
    let (bs, s) ← traverseList f as s
    pure (b :: bs, s)

/-- `src/ast/translate.rs:82-84`: translating union variants in order and inserting them into a new
`BTreeMap`. -/
def traverseVariants {σ ε α β : Type} (f : α → σ → Out ε (β × σ)) :
    List (Variant × α) → List (Variant × β) → σ → Out ε (List (Variant × β) × σ)
  | [], acc, s => .ok (acc, s)
  | (v, a) :: vs, acc, s => do
    let (b, s) ← f a s
    traverseVariants f vs (variantInsert acc v b) s

/-- `Confined::from_checked`, `try_from(..).expect(..)` with bounds 1..255: panics when out of
bounds (`src/ast/translate.rs:85,108,128`). -/
def checkLen {ε α : Type} (l : List α) : Out ε (List α) :=
  if 1 ≤ l.length ∧ l.length ≤ 255 then .ok l else .panic

/-- `src/ast/translate.rs:40-130`: `Translate<Ty<ToRef>> for Ty<Ref>`, given the translation of
references `f` (which threads the builder). -/
def Ty.translate {σ ε α β : Type} (f : α → σ → Out ε (β × σ)) (t : Ty α) (s : σ) :
    Out ε (Ty β × σ) :=
  match t with
  | .primitive c => .ok (.primitive c, s)
  | .enum vs => .ok (.enum vs, s)
  | .union vs => do
    let (vs', s) ← traverseVariants f vs [] s
    let vs' ← checkLen vs'
    pure (.union vs', s)
  | .struct fs => do
    let (rs, s) ← traverseList (fun (p : Name × α) s => do
      let (b, s) ← f p.2 s
      pure ((p.1, b), s)) fs s
    let rs ← checkLen rs
    pure (.struct rs, s)
  | .tuple fs => do
    let (rs, s) ← traverseList f fs s
    let rs ← checkLen rs
    pure (.tuple rs, s)
  | .array ty len => do
    let (r, s) ← f ty s
    pure (.array r len, s)
  | .unicodeChar => .ok (.unicodeChar, s)
  | .list ty sz => do
    let (r, s) ← f ty s
    pure (.list r sz, s)
  | .set ty sz => do
    let (r, s) ← f ty s
    pure (.set r sz, s)
  | .map key ty sz => do
    let (k, s) ← f key s
    let (r, s) ← f ty s
    pure (.map k r sz, s)

end Verif
