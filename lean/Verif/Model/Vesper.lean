import Verif.Model.Tree
import Verif.Model.Text

/-!
# Text of layouts

The text of an attribute is made of its name and its value, which are defined in the code modelled. How a line
is put together from a predicate, a subject and attributes, and how lines are indented, is defined in
vesper-lang; the form here is that of the shipped `stl/TypeLib.vesper`, with which the text of the layout is
compared line by line in `Verif/Golden.lean`.
-/

namespace Verif

/-- `src/layout/vesper.rs:36-58`: the text of `Pred`. -/
def Pred.text : Pred → Bytes
  | .is => b!"is"
  | .tuple => b!"tuple"
  | .record => b!"rec"
  | .enum => b!"enum"
  | .union => b!"union"
  | .char => b!"char"
  | .str => b!"str"
  | .ascii => b!"ascii"
  | .bytes => b!"bytes"
  | .array => b!"array"
  | .list => b!"list"
  | .set => b!"set"
  | .map => b!"map"

/-- `src/layout/vesper.rs:147-159`: the upper bound of a range. -/
def upperText (max : BitVec 64) : Bytes :=
  if max = 0xff then b!"MAX8"
  else if max = 0xffff then b!"MAX16"
  else if max = 0xffffff then b!"MAX24"
  else if max = 0xffffffff then b!"MAX32"
  else if max = 0xffffffffffffffff then b!"MAX64"
  else decimal max.toNat

/-- `src/layout/vesper.rs:147-159`: the text of `LenRange`. -/
def rangeText (min max : BitVec 64) : Bytes := decimal min.toNat ++ b!".." ++ upperText max

/-- `src/layout/vesper.rs:107-121`: `Attr::name`. -/
def Attr.name : Attr → Option Name
  | .typeName _ => none
  | .unit => none
  | .prim _ => none
  | .wrapped (some _) => some n!"aka"
  | .wrapped none => none
  | .option => none
  | .tag _ => some n!"tag"
  | .len _ => some n!"len"
  | .lenRange _ _ => some n!"len"
  | .asciiEnum _ => some n!"charset"
  | .asciiFirst _ => some n!"first"
  | .asciiRest _ => some n!"rest"
  | .enumVariant _ name => some name

/-- `src/layout/vesper.rs:123-136`, `src/layout/vesper.rs:79-86`: the text of `Attr::value`, which is an
identifier or an `AttrExpr`. The type names of primitives are those of `src/layout/translate.rs:88-93`. -/
def Attr.value (G : Glyphs) : Attr → Bytes
  | .typeName tn => tn.bytes
  | .unit => b!"Unit"
  | .prim p => G.prim p
  | .wrapped name => (name.getD n!"wrapped").bytes
  | .option => b!"option"
  | .tag t => decimal t.toNat
  | .len n => decimal n.toNat
  | .lenRange min max => rangeText min max
  | .asciiEnum name => name.bytes
  | .asciiFirst name => name.bytes
  | .asciiRest name => name.bytes
  | .enumVariant pos _ => decimal pos.toNat

/-- The text of an attribute (vesper-lang): the name if there is one, and the value. -/
def Attr.text (G : Glyphs) (a : Attr) : Bytes :=
  (match a.name with
    | some n => n.bytes ++ b!" "
    | none => []) ++ a.value G

/-- The line of an expression (vesper-lang). There are no comments, see `TypeInfo.toVesper`. -/
def VHead.text (G : Glyphs) (h : VHead) : Bytes :=
  h.predicate.text ++ b!" " ++ h.subject.bytes ++ h.attributes.flatMap fun a => b!", " ++ a.text G

mutual
/-- The text of an expression (vesper-lang): a line, and the lines of the content two more spaces to the right
(`src/typesys/iter.rs:81-85`, `src/layout/memory.rs:55-59`: `Display` for `TypeTree` and `MemoryLayout`). -/
def VExpr.text (G : Glyphs) (indent : Nat) : VExpr → Bytes
  | .node h cs => List.replicate (2 * indent) 32 ++ h.text G ++ [10] ++ VExpr.texts G (indent + 1) cs
/-- The text of expressions. -/
def VExpr.texts (G : Glyphs) (indent : Nat) : List VExpr → Bytes
  | [] => []
  | e :: es => VExpr.text G indent e ++ VExpr.texts G indent es
end

end Verif
