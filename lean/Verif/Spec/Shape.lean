import Verif.Spec.Value

/-!
# Shapes of types and of values
-/

namespace Verif

/-- The shapes which the predicates of `Ty` tell apart. -/
inductive Shape where
  | primitive
  | collection
  | compound
  | newtype
deriving DecidableEq

/-- A value of this shape: a unit, a number or a character; any number of items; one of several variants or
several fields; a wrapper. A string may be a character, a list of characters or a restricted string. -/
inductive Val.Looks : Val → Shape → Prop
  | unit : Looks .unit .primitive
  | num (n : Num) : Looks (.num n) .primitive
  | char {c : Nat} {s : Bytes} : IsText [c] s → Looks (.str s) .primitive
  | bytes (b : Bytes) : Looks (.bytes b) .collection
  | str (s : Bytes) : Looks (.str s) .collection
  | list (l : List Val) : Looks (.list l) .collection
  | set (l : List Val) : Looks (.set l) .collection
  | map (l : List (Val × Val)) : Looks (.map l) .collection
  | rstring (s : Bytes) : Looks (.str s) .compound
  | enum (t : Tag) : Looks (.enum t) .compound
  | union (t : Tag) (v : Val) : Looks (.union t v) .compound
  | struct {fs : List (Name × Val)} : 2 ≤ fs.length → Looks (.struct fs) .compound
  | tuple {l : List Val} : 2 ≤ l.length → Looks (.tuple l) .compound
  | newtype (v : Val) : Looks (.tuple [v]) .newtype

/-- Characters through any number of wrappers. -/
inductive Spells : Ty TranspileRef → Prop
  | enum {vs : List Variant} : CharVariants vs → Spells (.enum vs)
  | newtype {t : Ty TranspileRef} : Spells t → Spells (.tuple [.embedded t])

/-- Characters in front, through tuples of any number of fields. -/
inductive SpellsFirst : Ty TranspileRef → Prop
  | enum {vs : List Variant} : CharVariants vs → SpellsFirst (.enum vs)
  | tuple {t : Ty TranspileRef} {rs : List TranspileRef} : SpellsFirst t → SpellsFirst (.tuple (.embedded t :: rs))

/-- No tuple of more than one field is met on the way through the first fields. -/
inductive SingleFile : Ty TranspileRef → Prop
  | tuple {t : Ty TranspileRef} : SingleFile t → SingleFile (.tuple [.embedded t])
  | named {n : Name} {rs : List TranspileRef} : SingleFile (.tuple (.named n :: rs))
  | extern {s : SymbolRef} {rs : List TranspileRef} : SingleFile (.tuple (.extern s :: rs))
  | empty : SingleFile (.tuple [])
  | other {t : Ty TranspileRef} : (∀ rs, t ≠ .tuple rs) → SingleFile t

/-- The variant which the value of an enum has, by name or by number. -/
def Names (v : Val) (x : Variant) : Prop := v = .enum (.name x.name) ∨ v = .enum (.ord x.tag)

end Verif
