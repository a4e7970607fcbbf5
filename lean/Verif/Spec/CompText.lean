import Verif.Spec.Text

/-!
# Specification vocabulary for the texts of compiled libraries

Types are referred to by their ids; as in the source form, wrappers of a single item are not shown, and neither
is the payload of the absent option.
-/

namespace Verif

/-- Types which are put in parentheses as payloads of variants. -/
def Ty.inParens {Ref : Type} : Ty Ref → Bool
  | .tuple (_ :: _ :: _) => true
  | .struct (_ :: _ :: _) => true
  | .enum _ => true
  | .union _ => true
  | _ => false

/-- The syntax tree of a type, given those of the references and which of them are put in parentheses. -/
def Ty.surface {Ref : Type} (f : Ref → Sty) (c : Ref → Bool) : Ty Ref → Sty
  | .primitive p => .prim p
  | .unicodeChar => .unicode
  | .enum vs => .enum vs
  | .union [(⟨m, 0⟩, u), (⟨n, 1⟩, r)] =>
    if m = n!"none" ∧ n = n!"some" then .opt (f r) else .union [(⟨m, 0⟩, c u, f u), (⟨n, 1⟩, c r, f r)]
  | .union vs => .union (vs.map fun v => (v.1, c v.2, f v.2))
  | .tuple [r] => f r
  | .tuple fs => .tuple (fs.map f)
  | .struct fs => .struct (fs.map fun p => (p.1, f p.2))
  | .array r len => .array (f r) len
  | .list r sz => .list (f r) sz
  | .set r sz => .set (f r) sz
  | .map k r sz => .map (f k) (f r) sz

/-- Types from other libraries: the ids of the library and of the type. -/
def ExternRef.surface (G : Glyphs) (e : ExternRef) : Sty := .link (G.id e.libId) (G.id e.semId)

def InlineRef2.surface (G : Glyphs) : InlineRef2 → Sty
  | .named id => .mark (G.id id)
  | .extern e => e.surface G

def InlineRef1.surface (G : Glyphs) : InlineRef1 → Sty
  | .inline ty => ty.surface (InlineRef2.surface G) fun _ => false
  | .named id => .mark (G.id id)
  | .extern e => e.surface G

def InlineRef1.inParens : InlineRef1 → Bool
  | .inline ty => ty.inParens
  | _ => false

def InlineRef.surface (G : Glyphs) : InlineRef → Sty
  | .inline ty => ty.surface (InlineRef1.surface G) InlineRef1.inParens
  | .named id => .mark (G.id id)
  | .extern e => e.surface G

def InlineRef.inParens : InlineRef → Bool
  | .inline ty => ty.inParens
  | _ => false

def LibRef.surface (G : Glyphs) : LibRef → Sty
  | .inline ty => ty.surface (InlineRef.surface G) InlineRef.inParens
  | .named id => .mark (G.id id)
  | .extern e => e.surface G

def LibRef.inParens : LibRef → Bool
  | .inline ty => ty.inParens
  | _ => false

/-- The syntax tree of a type of a compiled library. -/
def LibRef.surfaceTy (G : Glyphs) (t : Ty LibRef) : Sty := t.surface (LibRef.surface G) LibRef.inParens

/-- What the text of a compiled library says: its name and id, its dependencies, and its types. -/
structure CompView where
  name : Name
  id : Bytes
  deps : List (Name × Bytes)
  types : List (Name × Sty)

def TypeLib.view (G : Glyphs) (H : Hash) (l : TypeLib) : CompView where
  name := l.name
  id := G.id (l.id H)
  deps := l.dependencies.map fun d => (d.name, G.mnemo d.id)
  types := l.types.map fun e => (e.1, LibRef.surfaceTy G e.2)

end Verif
