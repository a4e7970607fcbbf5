import Verif.Spec.Reflect

/-!
# Specification vocabulary for types whose ids cannot be the same

The text hashed for the id of a Rust type, up to the ids of the named types mentioned in it, does not
depend on the hash. Texts which differ no matter what these ids are have different hashes.
-/

namespace Verif

/-- A part of a text: a byte, or the id (32 bytes) of a type with this name. -/
inductive Piece where
  | byte (b : Byte)
  | id (name : Name)

/-- The bytes as parts of a text. -/
def pieces (bs : Bytes) : List Piece := bs.map .byte

/-- Number of bytes. -/
def width : List Piece → Nat
  | [] => 0
  | .byte _ :: l => width l + 1
  | .id _ :: l => width l + 32

/-- The texts are different whatever the ids are, if types with different names have different ids.
When a byte has to be compared with an id only lengths are. -/
def apart : List Piece → List Piece → Bool
  | [], [] => false
  | .byte a :: l, .byte b :: m => a != b || apart l m
  | .id a :: l, .id b :: m => a != b || apart l m
  | l, m => width l != width m

/-- The reference to a type: the id of a named one, the description of any other. -/
def mention (name : Option Name) (ps : List Piece) : List Piece :=
  match name with
  | none => ps
  | some n => [.id n]

mutual
/-- The text describing a Rust type, without its name. -/
def RTy.outline : RTy → List Piece
  | .prim c => pieces [0, c]
  | .unicode sz => pieces (8 :: 1 :: sz.commit)
  | .rstring c c1 sz => .byte Cls.tuple.code :: (mention c1.name (RTy.outline c1) ++
      .byte Cls.list.code :: (mention c.name (RTy.outline c) ++ pieces (Sizing.commit ⟨sz.min - 1, sz.max - 1⟩)))
  | .array t len => .byte Cls.array.code :: (mention t.name (RTy.outline t) ++ pieces (le 2 len.toNat))
  | .list t sz => .byte Cls.list.code :: (mention t.name (RTy.outline t) ++ pieces sz.commit)
  | .set t sz => .byte Cls.set.code :: (mention t.name (RTy.outline t) ++ pieces sz.commit)
  | .map k t sz => .byte Cls.map.code ::
      (mention k.name (RTy.outline k) ++ mention t.name (RTy.outline t) ++ pieces sz.commit)
  | .record _ _ isTuple fs =>
    if fs.isEmpty then pieces [0, Ty.UNIT_CODE]
    else if isTuple then .byte Cls.tuple.code :: (RTy.outlineFields fs).flatMap Prod.snd
    else .byte Cls.struct.code :: (RTy.outlineFields fs).flatMap fun p =>
      match p.1 with
      | none => []
      | some n => pieces n.commit ++ p.2
  | .enum _ _ vs => pieces (Cls.enum.code :: (byTag Variant.tag vs).flatMap Variant.commit)
  | .union _ _ vs _ => .byte Cls.union.code :: (byTag (fun v => v.1.tag) (RTy.outlineVariants vs)).flatMap fun p =>
      pieces p.1.commit ++ p.2
termination_by structural t => t
/-- The fields with the references to their types. -/
def RTy.outlineFields : List (Option Name × RTy) → List (Option Name × List Piece)
  | [] => []
  | f :: fs => RTy.outlineField f :: RTy.outlineFields fs
termination_by structural l => l
/-- A field with the reference to its type. -/
def RTy.outlineField : Option Name × RTy → Option Name × List Piece
  | (n, t) => (n, mention t.name (RTy.outline t))
termination_by structural l => l
/-- The variants with the references to their types. -/
def RTy.outlineVariants : List (Variant × RTy) → List (Variant × List Piece)
  | [] => []
  | v :: vs => RTy.outlineVariant v :: RTy.outlineVariants vs
termination_by structural l => l
/-- A variant with the reference to its type. -/
def RTy.outlineVariant : Variant × RTy → Variant × List Piece
  | (v, t) => (v, mention t.name (RTy.outline t))
termination_by structural l => l
end

/-- The text hashed for the id of a Rust type. -/
def RTy.outlined (q : RTy) : List Piece :=
  match q.name with
  | none => q.outline
  | some n => pieces n.commit ++ q.outline

/-- The Rust types have the same name and stand for the same type. -/
def RTy.Same (q q' : RTy) : Prop := q.lib = q'.lib ∧ q.name = q'.name ∧ ∀ H, q.sem H = q'.sem H

/-- Different types are described by texts which are different whatever the ids in them are. -/
def OutlinesApart (cs : List Crate) : Prop :=
  ∀ q q', Describe cs q → Describe cs q' → q.Same q' ∨ apart q.outlined q'.outlined = true

/-- Different types have different ids. -/
def IdsApart (H : Hash) (cs : List Crate) : Prop :=
  ∀ q q', Describe cs q → Describe cs q' → q.semId H = q'.semId H → q.Same q'

end Verif
