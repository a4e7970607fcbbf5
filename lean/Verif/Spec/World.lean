import Verif.Model.Crates
import Verif.Spec.Transpile
import Verif.Spec.System
import Verif.Spec.Hash

/-!
# Specification vocabulary for crates depending on each other

What Rust types mean independently of the library they are described in, and when the libraries of
several crates can be built one after another.
-/

namespace Verif

/-! ## The meaning of a Rust type -/

mutual
/-- The type a Rust type stands for, with references to the types it mentions made by `f` from their
library, name and type. -/
def RTy.tyWith (f : Name → Option Name → Ty TranspileRef → TranspileRef) : RTy → Ty TranspileRef
  | .prim c => .primitive c
  | .unicode sz => .list (.embedded .unicodeChar) sz
  | .rstring c c1 sz => .tuple [f c1.lib c1.name (RTy.tyWith f c1),
      .embedded (.list (f c.lib c.name (RTy.tyWith f c)) ⟨sz.min - 1, sz.max - 1⟩)]
  | .array t len => .array (f t.lib t.name (RTy.tyWith f t)) len
  | .list t sz => .list (f t.lib t.name (RTy.tyWith f t)) sz
  | .set t sz => .set (f t.lib t.name (RTy.tyWith f t)) sz
  | .map k t sz => .map (f k.lib k.name (RTy.tyWith f k)) (f t.lib t.name (RTy.tyWith f t)) sz
  | .record _ _ isTuple fs =>
    if fs.isEmpty then Ty.UNIT
    else if isTuple then .tuple ((RTy.tyWithFields f fs).map Prod.snd)
    else .struct ((RTy.tyWithFields f fs).filterMap fun p => p.1.map fun n => (n, p.2))
  | .enum _ _ vs => .enum (byTag Variant.tag vs)
  | .union _ _ vs _ => .union (byTag (fun v => v.1.tag) (RTy.tyWithVariants f vs))
termination_by structural t => t
/-- The fields with references to their types. -/
def RTy.tyWithFields (f : Name → Option Name → Ty TranspileRef → TranspileRef) :
    List (Option Name × RTy) → List (Option Name × TranspileRef)
  | [] => []
  | p :: fs => RTy.tyWithField f p :: RTy.tyWithFields f fs
termination_by structural l => l
/-- A field with a reference to its type. -/
def RTy.tyWithField (f : Name → Option Name → Ty TranspileRef → TranspileRef) :
    Option Name × RTy → Option Name × TranspileRef
  | (n, t) => (n, f t.lib t.name (RTy.tyWith f t))
termination_by structural l => l
/-- The variants with references to their types. -/
def RTy.tyWithVariants (f : Name → Option Name → Ty TranspileRef → TranspileRef) :
    List (Variant × RTy) → List (Variant × TranspileRef)
  | [] => []
  | v :: vs => RTy.tyWithVariant f v :: RTy.tyWithVariants f vs
termination_by structural l => l
/-- A variant with a reference to its type. -/
def RTy.tyWithVariant (f : Name → Option Name → Ty TranspileRef → TranspileRef) :
    Variant × RTy → Variant × TranspileRef
  | (v, t) => (v, f t.lib t.name (RTy.tyWith f t))
termination_by structural l => l
end

/-- A reference which means the same everywhere: unnamed types are embedded, all others are given by
their id (the id of the library is of no importance here). -/
def absolute (H : Hash) (lib : Name) (name : Option Name) (ty : Ty TranspileRef) : TranspileRef :=
  match name with
  | none => .embedded ty
  | some n => .extern ⟨lib, n, Id32.rep 0, TranspileRef.semIdNamed H ty n⟩

/-- The type a Rust type stands for, with all named types given by their ids. -/
def RTy.sem (H : Hash) (t : RTy) : Ty TranspileRef := t.tyWith (absolute H)

/-- The id of the type a Rust type stands for. -/
def RTy.semId (H : Hash) (t : RTy) : SemId :=
  match t.name with
  | none => taggedHash H SEM_ID_TAG (TranspileRef.commitTy (t.sem H))
  | some n => TranspileRef.semIdNamed H (t.sem H) n

/-- The text hashed for this id. -/
def RTy.text (H : Hash) (q : RTy) : Bytes :=
  match q.name with
  | none => TranspileRef.commitTy (q.sem H)
  | some n => n.commit ++ TranspileRef.commitTy (q.sem H)

/-- The Rust type, and the list which is the tail of a restricted string. -/
def RTy.described : RTy → List RTy
  | .rstring c c1 sz => [.rstring c c1 sz, .list c ⟨sz.min - 1, sz.max - 1⟩]
  | q => [q]

/-- No named type mentioned belongs to the library. -/
def RTy.Foreign (own : Name) (t : RTy) : Prop := ∀ s, t.Contains s → s.name ≠ none → s.lib ≠ own

/-! ## Crates -/

/-- The type is mentioned by the crate. -/
def Crate.Mentions (c : Crate) (s : RTy) : Prop := ∃ t ∈ c.types, t.Contains s

/-- The crate mentions `s`, which is a type of its library with the name `n`. -/
def Crate.Owns (c : Crate) (s : RTy) (n : Name) : Prop :=
  c.Mentions s ∧ s.lib = c.name ∧ s.name = some n

/-- The Rust type is described by the libraries of the crates. -/
def Describe (cs : List Crate) (q : RTy) : Prop := ∃ c ∈ cs, ∃ s, c.Mentions s ∧ q ∈ s.described

/-- The texts hashed for the ids of the types described by the libraries of the crates, and of the
built-in types. -/
def crateTexts (H : Hash) (cs : List Crate) (x : Bytes) : Prop :=
  (∃ q, Describe cs q ∧ x = q.text H) ∨ x ∈ basicTexts

/-- There is a collision among what is hashed for the crates: two types described by their libraries, or two of
the libraries built, have the same id, although the texts hashed for them are different. -/
def CrateCollision (H : Hash) (debug : Bool) (fuel : Nat) (cs : List Crate) : Prop :=
  Collision H (crateTexts H cs) ∨ ∃ pre post ls, cs = pre ++ post ∧ buildAll H debug fuel pre [] = .ok ls ∧
    ∃ l ∈ ls, ∃ m ∈ ls, Clash H LIB_ID_TAG (l.commit H) (m.commit H)

/-- Variants have distinct names and tags, as they have in Rust. -/
def RTy.DistinctVariants : RTy → Prop
  | .enum _ _ vs => (vs.map Variant.tag).Nodup ∧ (vs.map Variant.name).Nodup
  | .union _ _ vs _ => (vs.map fun v => v.1.tag).Nodup ∧ (vs.map fun v => v.1.name).Nodup
  | _ => True

/-- What makes it possible to build the libraries of the crates in the given order. -/
structure Buildable (debug : Bool) (cs : List Crate) : Prop where
  /-- Libraries have distinct names, which are real names. -/
  names : (cs.map Crate.name).Nodup
  named : ∀ c ∈ cs, c.name ≠ n!"_"
  few : cs.length ≤ 255
  /-- No library is empty or has too many types. -/
  some : ∀ c ∈ cs, ∃ s n, c.Owns s n
  count : ∀ c ∈ cs, ∃ ns : List Name, ns.length ≤ 65535 ∧ ∀ s n, c.Owns s n → n ∈ ns
  /-- Every type is within the limits. -/
  limits : ∀ c ∈ cs, ∀ s, c.Mentions s →
    s.DistinctVariants ∧ s.NodeOk debug c.name fun lib => ∃ d ∈ cs, d.name = lib
  shallow : ∀ c ∈ cs, ∀ s n, c.Owns s n → (s.sem fun _ => Id32.rep 0).DepthLe 3
  /-- A name stands for one type. -/
  one : ∀ c ∈ cs, ∀ d ∈ cs, ∀ s s', c.Mentions s → d.Mentions s' → s.name ≠ none → s.lib = s'.lib →
    s.name = s'.name → s = s'
  /-- Types of other libraries come from libraries built before, and are built there. -/
  layered : ∀ pre c post, cs = pre ++ c :: post → ∀ s, c.Mentions s → s.name ≠ none →
    s.lib = c.name ∨ ∃ d ∈ pre, d.Mentions s ∧ s.lib = d.name

end Verif
