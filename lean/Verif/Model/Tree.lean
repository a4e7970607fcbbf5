import Verif.Model.System

/-!
# Walking the types below a type, and the memory layout
-/

namespace Verif

/-- `src/typesys/iter.rs:87-108`: `NestedCase`. -/
inductive NestedCase where
  | newType (fqn : Option TypeFqn)
  | option
  | byteStr
  | asciiStr (fqn : Option TypeFqn)
  | uniStr
  | rStr (first rest : Option TypeFqn) (sizing : Sizing)
deriving DecidableEq

/-- `src/typesys/iter.rs:117-126`: `TypeInfo`. -/
structure TypeInfo where
  depth : BitVec 32
  ty : Ty SemId
  fqn : Option TypeFqn
  item : Option Ty.ItemCase
  nested : List NestedCase
deriving DecidableEq

/-- `src/ast/ty.rs:221`: `Ty::is_byte_array` for references by semantic id. -/
def Ty.isByteArray (H : Hash) : Ty SemId → Bool
  | .array ty _ => SemId.isByte H ty
  | _ => false

/-- `src/typesys/iter.rs:142-150`: the state of `TypeTreeIter` without the reference to the type
system. The end of the list `path` is at its head. -/
structure TreeIter where
  semId : SemId
  ty : Option (Ty SemId)
  item : Option Ty.ItemCase
  depth : BitVec 32
  path : List (BitVec 32 × Ty.IterState SemId)
  nested : List NestedCase

/-- `+= 1` on an unsigned integer: panics on overflow when overflow checks are on, wraps otherwise
(`src/typesys/iter.rs:184-185,212`). -/
def incr {n : Nat} (debug : Bool) (k : BitVec n) : Out Unit (BitVec n) :=
  if debug && k == BitVec.allOnes n then .panic else .ok (k + 1)

/-- What `src/typesys/iter.rs:160-208` decides about a type: the nested cases to add, whether to
increase the depth, whether and from which position to visit the children, whether to report the
type itself. -/
structure Visit where
  nested : List NestedCase
  dive : Bool
  push : Option (Ty.IterState SemId)
  ret : Bool

/-- `src/typesys/iter.rs:160-208`: the case distinction of `TypeTreeIter::next`. -/
def visit (H : Hash) (debug : Bool) (S : SymbolicSys) (fqn : Option TypeFqn) (ty : Ty SemId) :
    Out Unit Visit :=
  if ty.isNewtype then .ok ⟨[.newType fqn], false, some ty.iterStart, false⟩
  else if ty.isOption then do
    let (_, it) ← Ty.iterNext debug ty.iterStart
    pure ⟨[.option], true, some it, false⟩
  else match ty with
    | .tuple [a, b] =>
      match S.types.get a, S.types.get b with
      | some first, some (.list rest sizing) =>
        if first.isCharEnum && ((S.types.get rest).map Ty.isCharEnum).getD false then do
          let min ← incr debug sizing.min
          let max ← incr debug sizing.max
          let (_, it) ← Ty.iterNext debug ty.iterStart
          let (_, it) ← Ty.iterNext debug it
          pure ⟨[.rStr (S.symbols.lookup a) (S.symbols.lookup rest) ⟨min, max⟩], true, some it, true⟩
        else .ok ⟨[], true, some ty.iterStart, true⟩
      | _, _ => .ok ⟨[], true, some ty.iterStart, true⟩
    | .list inner _ =>
      match S.types.get inner with
      | none => .panic
      | some innerTy =>
        if innerTy.isCharEnum then .ok ⟨[.asciiStr (S.symbols.lookup inner)], false, none, true⟩
        else if innerTy.isByte then .ok ⟨[.byteStr], false, none, true⟩
        else if innerTy.isUnicodeChar then .ok ⟨[.uniStr], false, none, true⟩
        else .ok ⟨[], true, some ty.iterStart, true⟩
    | _ =>
      if ty.isByteArray H then .ok ⟨[], true, none, true⟩
      else .ok ⟨[], true, some ty.iterStart, true⟩

/-- `src/typesys/iter.rs:156-231`: `TypeTreeIter::next` while `self.ty` is set. `TinyVec` holds at
most 255 nested cases, `Confined::from_checked` panics above that. -/
def TreeIter.enter (H : Hash) (debug : Bool) (S : SymbolicSys) (s : TreeIter) (ty : Ty SemId) :
    Out Unit (Option TypeInfo × TreeIter) := do
  let fqn := S.symbols.lookup s.semId
  let v ← visit H debug S fqn ty
  let depth ← if v.dive then incr debug s.depth else .ok s.depth
  let path := match v.push with
    | some it => (depth, it) :: s.path
    | none => s.path
  let nested := s.nested ++ v.nested
  if v.ret then
    if nested.length ≤ 255 then
      pure (some ⟨s.depth, ty, fqn, s.item, nested⟩,
        { s with ty := none, depth := depth, path := path, item := none, nested := [] })
    else .panic
  else pure (none, { s with ty := none, depth := depth, path := path, nested := nested })

/-- `matches!(self.nested.last(), Some(NestedCase::NewType(_)))` (`src/typesys/iter.rs:243`). -/
def lastIsNewType (nested : List NestedCase) : Bool :=
  match nested.getLast? with
  | some (.newType _) => true
  | _ => false

/-- `src/typesys/iter.rs:155-251`: `TypeTreeIter::next`. Every turn of the loop and every recursive
call takes one unit of fuel. -/
def TreeIter.next (H : Hash) (debug : Bool) (S : SymbolicSys) :
    Nat → TreeIter → Out Unit (Option TypeInfo × TreeIter)
  | 0, _ => .diverge
  | fuel + 1, s =>
    match s.ty with
    | some ty => do
      let (o, s) ← s.enter H debug S ty
      match o with
      | some info => pure (some info, s)
      | none => TreeIter.next H debug S fuel s
    | none =>
      match s.path with
      | [] => pure (none, s)
      | (depth, it) :: path => do
        let (o, it) ← Ty.iterNext debug it
        match o with
        | none => TreeIter.next H debug S fuel { s with depth := depth, path := path, nested := [] }
        | some (id, item) =>
          TreeIter.next H debug S fuel
            { semId := id
              ty := S.types.get id
              item := if lastIsNewType s.nested then s.item else item
              depth := depth
              path := (depth, it) :: path
              nested := s.nested }

/-- `src/typesys/iter.rs:46-56`: `TypeTree::iter`. -/
def TreeIter.start (S : SymbolicSys) (id : SemId) : Out Unit TreeIter :=
  match S.types.get id with
  | some ty => .ok ⟨id, some ty, none, 0, [], []⟩
  | none => .panic

/-- The items a loop over the iterator collects; `room` is what still fits. The fuel bounds both the
number of items and the steps of each call. -/
def TreeIter.collect (H : Hash) (debug : Bool) (S : SymbolicSys) :
    Nat → Nat → TreeIter → Out Unit (List TypeInfo)
  | 0, _, _ => .diverge
  | fuel + 1, room, s => do
    let (o, s) ← TreeIter.next H debug S (fuel + 1) s
    match o with
    | none => pure []
    | some i =>
      match room with
      | 0 => .panic
      | room + 1 => do
        let rest ← TreeIter.collect H debug S fuel room s
        pure (i :: rest)

/-- `src/typesys/iter.rs:58-59`, `src/layout/memory.rs:38-53`: `TypeTree::to_layout`,
`MemoryLayout::from`. A `LargeVec` holds at most `2 ^ 32 - 1` items; one more is a panic. -/
def layout (H : Hash) (debug : Bool) (fuel : Nat) (S : SymbolicSys) (id : SemId) :
    Out Unit (List TypeInfo) := do
  let s ← TreeIter.start S id
  TreeIter.collect H debug S fuel (2 ^ 32 - 1) s

/-! ## Vesper expressions -/

/-- `src/layout/vesper.rs:36-55`: `Pred`. -/
inductive Pred where
  | is | tuple | record | enum | union | char | str | ascii | bytes | array | list | set | map
deriving DecidableEq, Repr

/-- `src/layout/vesper.rs:61-77`: `From<Cls> for Pred`. -/
def Pred.ofCls : Cls → Pred
  | .primitive => .is
  | .unicode => .str
  | .asciiStr => .ascii
  | .enum => .enum
  | .union => .union
  | .struct => .record
  | .tuple => .tuple
  | .array => .array
  | .list => .list
  | .set => .set
  | .map => .map

/-- `src/layout/vesper.rs:90-102`: `Attr`. The type name of a primitive, produced from the text form
of `Primitive` in strict_encoding (`src/layout/translate.rs:88-93`), is kept as the code. -/
inductive Attr where
  | typeName (name : Name)
  | unit
  | prim (code : Byte)
  | wrapped (name : Option Name)
  | option
  | tag (tag : Byte)
  | asciiEnum (name : Name)
  | asciiFirst (name : Name)
  | asciiRest (name : Name)
  | enumVariant (tag : Byte) (name : Name)
  | len (n : BitVec 16)
  | lenRange (min max : BitVec 64)
deriving DecidableEq

/-- The contents of `TExpr<Pred>` (vesper-lang) apart from its children. -/
structure VHead where
  subject : Name
  predicate : Pred
  attributes : List Attr
  comment : Option Name
deriving DecidableEq

/-- `TExpr<Pred>` (vesper-lang). -/
inductive VExpr where
  | node (head : VHead) (content : List VExpr)

/-- The name `_` (`src/layout/translate.rs:44`). -/
def lodash : Name := n!"_"

/-- `src/layout/translate.rs:87-99`: the attributes of the type itself. -/
def tyAttrs : Ty SemId → List Attr
  | .primitive p => if p = Ty.UNIT_CODE then [.unit] else [.prim p]
  | .array _ len => [.len len]
  | .list _ sz => [.lenRange sz.min sz.max]
  | .set _ sz => [.lenRange sz.min sz.max]
  | .map _ _ sz => [.lenRange sz.min sz.max]
  | _ => []

/-- `src/layout/translate.rs:105-136`: the attributes a nested case adds. -/
def nestedAttrs : NestedCase → List Attr
  | .asciiStr fqn => (fqn.map fun f => Attr.asciiEnum f.name).toList
  | .rStr first rest sz =>
    (first.map fun f => Attr.asciiFirst f.name).toList ++
    (rest.map fun f => Attr.asciiRest f.name).toList ++ [.lenRange sz.min sz.max]
  | .byteStr => []
  | .uniStr => []
  | .newType fqn => [.wrapped (fqn.map TypeFqn.name)]
  | .option => [.option]

/-- `src/layout/translate.rs:105-136`: the predicate after a nested case. -/
def nestedPred (p : Pred) : NestedCase → Pred
  | .asciiStr _ => .ascii
  | .rStr .. => .ascii
  | .byteStr => .bytes
  | .uniStr => .str
  | .newType _ => p
  | .option => p

/-- `src/layout/translate.rs:42-85`: the subject with the attributes and comment it brings. The
position of an unnamed field is no identifier, so `ident!` panics. -/
def subject (fqn : Option TypeFqn) (item : Option Ty.ItemCase) :
    Out Unit (Name × List Attr) :=
  let name := (fqn.map TypeFqn.name).getD lodash
  let named := if name ≠ lodash then [Attr.typeName name] else []
  match item with
  | some (.unnamedField _) => if name = lodash then .panic else .ok (name, [])
  | some (.namedField _ fname) => .ok (fname, named)
  | some (.unionVariant _ vname) => .ok (vname, named)
  | some .listItem => .ok (if fqn.isNone then n!"element" else name, [])
  | some .setItem => .ok (if fqn.isNone then n!"element" else name, [])
  | some .mapKey => .ok (n!"key", if fqn.isSome then named else [])
  | some .mapValue => .ok (n!"value", if fqn.isSome then named else [])
  | _ => .ok (name, [])

/-- `src/layout/translate.rs:138-142`: the values of an enumeration. -/
def enumAttrs : Ty SemId → List Attr
  | .enum vs => vs.map fun v => .enumVariant v.tag v.name
  | _ => []

/-- `src/layout/translate.rs:143-145`: the tag of a union variant; it is the position. -/
def tagAttrs : Option Ty.ItemCase → List Attr
  | some (.unionVariant pos _) => [.tag pos]
  | _ => []

/-- `src/layout/translate.rs:33-155`: `TypeInfo::to_vesper`. `maxAttrs` is the bound on the number of
attributes in vesper-lang; exceeding it is a panic. A comment is only made for unnamed fields of
unnamed types, where `ident!` panics before. -/
def TypeInfo.toVesper (H : Hash) (maxAttrs : Nat) (i : TypeInfo) : Out Unit VHead := do
  let (subj, attrs) ← subject i.fqn i.item
  let pred :=
    if i.ty.isCharEnum then Pred.char
    else if i.ty.isByteArray H then .bytes
    else Pred.ofCls i.ty.cls
  let attrs := attrs ++ tyAttrs i.ty ++ i.nested.flatMap nestedAttrs ++ enumAttrs i.ty ++ tagAttrs i.item
  if attrs.length ≤ maxAttrs then
    pure ⟨subj, i.nested.foldl nestedPred pred, attrs, none⟩
  else .panic

/-- `src/layout/memory.rs:89-96`: following `path` (outermost first) from a node and appending a
child there; also the position of the new child. `maxContent` bounds the number of children in
vesper-lang. -/
def VExpr.pushAt (maxContent : Nat) (e : VHead) : List Nat → VExpr → Out Unit (VExpr × Nat)
  | [], .node h cs =>
    if cs.length < maxContent then .ok (.node h (cs ++ [.node e []]), cs.length) else .panic
  | i :: path, .node h cs =>
    match cs[i]? with
    | none => .panic
    | some c => do
      let (c, n) ← VExpr.pushAt maxContent e path c
      pure (.node h (cs.set i c), n)

/-- `src/layout/memory.rs:66-97`: the loop of `MemoryLayout::to_vesper`. -/
def toVesperLoop (H : Hash) (debug : Bool) (maxAttrs maxContent : Nat) :
    List TypeInfo → Option VExpr → List Nat → Out Unit VExpr
  | [], root, _ => Out.expect root
  | i :: items, root, path => do
    let e ← i.toVesper H maxAttrs
    let depth := i.depth.toNat
    if path.isEmpty ∧ depth = 0 then do
      Out.debugAssert debug root.isNone
      toVesperLoop H debug maxAttrs maxContent items (some (.node e [])) path
    else if depth = 0 then .panic
    else do
      let path := if depth ≤ path.length then path.take (depth - 1) else path
      let r ← Out.expect root
      let (r, n) ← VExpr.pushAt maxContent e path r
      toVesperLoop H debug maxAttrs maxContent items (some r) (path ++ [n])

/-- `src/layout/memory.rs:64-99`: `MemoryLayout::to_vesper`. A later item of depth zero fails the
debug assertion, and without it `split_off` with a wrapped-around position. -/
def toVesper (H : Hash) (debug : Bool) (maxAttrs maxContent : Nat) (items : List TypeInfo) :
    Out Unit VExpr :=
  toVesperLoop H debug maxAttrs maxContent items none []

end Verif
