import Verif.Model.Refs

/-!
# Specification vocabulary for types

Relations between types used to state the properties. They do not use any function of the model
except the data types themselves.
-/

namespace Verif

/-- Two lists of the same length whose elements are related one by one. -/
def All2 {α β : Type} (R : α → β → Prop) : List α → List β → Prop
  | [], [] => True
  | a :: as, b :: bs => R a b ∧ All2 R as bs
  | _, _ => False

/-- Two types are the same up to `R` on references: same class, same names, tags, order, number of
fields, lengths and sizings, and references related by `R`. -/
def Ty.Rel {α β : Type} (R : α → β → Prop) : Ty α → Ty β → Prop
  | .primitive c, .primitive d => c = d
  | .unicodeChar, .unicodeChar => True
  | .enum vs, .enum ws => vs = ws
  | .union vs, .union ws => All2 (fun p q => p.1 = q.1 ∧ R p.2 q.2) vs ws
  | .tuple fs, .tuple gs => All2 R fs gs
  | .struct fs, .struct gs => All2 (fun p q => p.1 = q.1 ∧ R p.2 q.2) fs gs
  | .array t n, .array u m => R t u ∧ n = m
  | .list t s, .list u z => R t u ∧ s = z
  | .set t s, .set u z => R t u ∧ s = z
  | .map k t s, .map l u z => R k l ∧ R t u ∧ s = z
  | _, _ => False

/-- Two types have the same skeleton: same class, same number of fields or variants, and references
related by `S`. Names, tags, codes, lengths and sizings may differ. -/
def Ty.Skel {α β : Type} (S : α → β → Prop) : Ty α → Ty β → Prop
  | .primitive _, .primitive _ => True
  | .unicodeChar, .unicodeChar => True
  | .enum vs, .enum ws => vs.length = ws.length
  | .union vs, .union ws => All2 (fun p q => S p.2 q.2) vs ws
  | .tuple fs, .tuple gs => All2 S fs gs
  | .struct fs, .struct gs => All2 (fun p q => S p.2 q.2) fs gs
  | .array t _, .array u _ => S t u
  | .list t _, .list u _ => S t u
  | .set t _, .set u _ => S t u
  | .map k t _, .map l u _ => S k l ∧ S t u
  | _, _ => False

/-- Type id a non-inline library reference points to. -/
def LibRef.target : LibRef → Option SemId
  | .inline _ => none
  | .named id => some id
  | .extern ext => some ext.semId

/-- No reference of the type is inline. -/
def Ty.InlineFree (t : Ty LibRef) : Prop := ∀ r ∈ t.refs, ∃ id, r.target = some id

/-- The two references point to the same type id, whichever library they name. -/
def LibRef.SameTarget (r s : LibRef) : Prop := ∃ id, r.target = some id ∧ s.target = some id

/-! ### Same skeleton / same up to library, through the inline levels -/

/-- Same shape of a level-2 reference: always (both are 32-byte ids). -/
def InlineRef2.Skel (_ _ : InlineRef2) : Prop := True
/-- Same id. -/
def InlineRef2.Same : InlineRef2 → InlineRef2 → Prop
  | .named a, .named b => a = b
  | .named a, .extern b => a = b.semId
  | .extern a, .named b => a.semId = b
  | .extern a, .extern b => a.semId = b.semId

/-- Both inline with the same skeleton, or both not inline. -/
def InlineRef1.Skel : InlineRef1 → InlineRef1 → Prop
  | .inline t, .inline u => Ty.Skel InlineRef2.Skel t u
  | .inline _, _ => False
  | _, .inline _ => False
  | _, _ => True
/-- Both inline and the same, or the same id. -/
def InlineRef1.Same : InlineRef1 → InlineRef1 → Prop
  | .inline t, .inline u => Ty.Rel InlineRef2.Same t u
  | .named a, .named b => a = b
  | .named a, .extern b => a = b.semId
  | .extern a, .named b => a.semId = b
  | .extern a, .extern b => a.semId = b.semId
  | _, _ => False

/-- Both inline with the same skeleton, or both not inline. -/
def InlineRef.Skel : InlineRef → InlineRef → Prop
  | .inline t, .inline u => Ty.Skel InlineRef1.Skel t u
  | .inline _, _ => False
  | _, .inline _ => False
  | _, _ => True
/-- Both inline and the same, or the same id. -/
def InlineRef.Same : InlineRef → InlineRef → Prop
  | .inline t, .inline u => Ty.Rel InlineRef1.Same t u
  | .named a, .named b => a = b
  | .named a, .extern b => a = b.semId
  | .extern a, .named b => a.semId = b
  | .extern a, .extern b => a.semId = b.semId
  | _, _ => False

/-- Both inline with the same skeleton, or both not inline. -/
def LibRef.Skel : LibRef → LibRef → Prop
  | .inline t, .inline u => Ty.Skel InlineRef.Skel t u
  | .inline _, _ => False
  | _, .inline _ => False
  | _, _ => True
/-- Both inline and the same, or the same id. -/
def LibRef.Same : LibRef → LibRef → Prop
  | .inline t, .inline u => Ty.Rel InlineRef.Same t u
  | .named a, .named b => a = b
  | .named a, .extern b => a = b.semId
  | .extern a, .named b => a.semId = b
  | .extern a, .extern b => a.semId = b.semId
  | _, _ => False

end Verif
