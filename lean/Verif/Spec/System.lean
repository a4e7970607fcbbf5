import Verif.Model.System
import Verif.Spec.Compile
import Verif.Spec.Reach

/-!
# Specification vocabulary for assembling type systems

Which type definitions a library contributes, written down without the builder.
-/

namespace Verif

/-! ### The id a reference stands for -/

/-- Id of the type a reference points to. -/
def InlineRef2.semId : InlineRef2 → SemId
  | .named id => id
  | .extern e => e.semId
/-- As above; an inline type is identified by its unnamed id. -/
def InlineRef1.semId (H : Hash) : InlineRef1 → SemId
  | .inline t => t.semIdUnnamed H InlineRef2.commit
  | .named id => id
  | .extern e => e.semId
/-- As above; an inline type is identified by its unnamed id. -/
def InlineRef.semId (H : Hash) : InlineRef → SemId
  | .inline t => t.semIdUnnamed H InlineRef1.commit
  | .named id => id
  | .extern e => e.semId
/-- As above; an inline type is identified by its unnamed id. -/
def LibRef.semId (H : Hash) : LibRef → SemId
  | .inline t => t.semIdUnnamed H InlineRef.commit
  | .named id => id
  | .extern e => e.semId

/-! ### Definitions contributed by a library -/

/-- The inline types inside a reference: id and definition with ids for references, innermost
first. -/
def InlineRef1.defs (H : Hash) : InlineRef1 → List (SemId × SymTy)
  | .inline t => [(t.semIdUnnamed H InlineRef2.commit, ⟨none, t.mapRefs InlineRef2.semId⟩)]
  | _ => []
/-- As above. -/
def InlineRef.defs (H : Hash) : InlineRef → List (SemId × SymTy)
  | .inline t => t.refs.flatMap (InlineRef1.defs H) ++
    [(t.semIdUnnamed H InlineRef1.commit, ⟨none, t.mapRefs (InlineRef1.semId H)⟩)]
  | _ => []
/-- As above. -/
def LibRef.defs (H : Hash) : LibRef → List (SemId × SymTy)
  | .inline t => t.refs.flatMap (InlineRef.defs H) ++
    [(t.semIdUnnamed H InlineRef.commit, ⟨none, t.mapRefs (InlineRef.semId H)⟩)]
  | _ => []

/-- The inline types of a library type. -/
def Ty.inlineDefs (H : Hash) (t : Ty LibRef) : List (SemId × SymTy) := t.refs.flatMap (LibRef.defs H)

/-- All definitions of a library: every type under its name, after the inline types it contains. -/
def TypeLib.defs (H : Hash) (l : TypeLib) : List (SemId × SymTy) :=
  l.types.flatMap fun p => p.2.inlineDefs H ++
    [(p.2.semIdNamed H LibRef.commit p.1, ⟨some ⟨l.name, p.1⟩, p.2.mapRefs (LibRef.semId H)⟩)]

/-- All definitions of a list of libraries. -/
def allDefs (H : Hash) (ls : List TypeLib) : List (SemId × SymTy) := ls.flatMap (TypeLib.defs H)

/-- The texts hashed for the inline types inside a reference, in the same order. -/
def InlineRef1.texts : InlineRef1 → List Bytes
  | .inline t => [t.commit InlineRef2.commit]
  | _ => []
/-- As above. -/
def InlineRef.texts : InlineRef → List Bytes
  | .inline t => t.refs.flatMap InlineRef1.texts ++ [t.commit InlineRef1.commit]
  | _ => []
/-- As above. -/
def LibRef.texts : LibRef → List Bytes
  | .inline t => t.refs.flatMap InlineRef.texts ++ [t.commit InlineRef.commit]
  | _ => []

/-- The texts hashed for all definitions of a library. -/
def TypeLib.texts (l : TypeLib) : List Bytes :=
  l.types.flatMap fun p => p.2.refs.flatMap LibRef.texts ++ [p.1.commit ++ p.2.commit LibRef.commit]

/-- The texts hashed for all definitions of a list of libraries. -/
def libTexts (ls : List TypeLib) : List Bytes := ls.flatMap TypeLib.texts

/-- The texts hashed for the built-in types: unit, byte, 8-bit number, unicode character. -/
def basicTexts : List Bytes :=
  [Ty.UNIT, Ty.BYTE, Ty.U8, .unicodeChar].map fun t : Ty SemId => t.commit SemId.commit

/-- The type `n` of the library `l` has the id `id`. -/
def TypeLib.Declares (H : Hash) (l : TypeLib) (n : Name) (id : SemId) : Prop :=
  ∃ t, (n, t) ∈ l.types ∧ t.semIdNamed H LibRef.commit n = id

/-- Definitions with the same id are the same (names aside). -/
def Consistent (ds : List (SemId × SymTy)) : Prop :=
  ∀ p ∈ ds, ∀ q ∈ ds, p.1 = q.1 → p.2.ty = q.2.ty

/-- In builds with overflow checks no definition has 255 references; see `TypeSystem.Iterable`. -/
def FewRefs (H : Hash) (debug : Bool) (ls : List TypeLib) : Prop :=
  debug = true → ∀ p ∈ allDefs H ls, p.2.ty.refs.length < 255

/-- The dependency is satisfied by one of the libraries. -/
def Satisfied (H : Hash) (ls : List TypeLib) (d : Dependency) : Prop := ∃ l ∈ ls, l.id H = d.id

/-- Some library depends on `d` and none of them is it. -/
def Missing (H : Hash) (ls : List TypeLib) (d : Dependency) : Prop :=
  (∃ l ∈ ls, d ∈ l.dependencies) ∧ ¬ Satisfied H ls d

/-- The imported libraries and their types fit into the containers of a symbolic system: at most
65535 different library ids and 2^24 - 1 different type ids. -/
def Fits (H : Hash) (ls : List TypeLib) : Prop :=
  (∃ ids : List LibId, ids.length ≤ 65535 ∧ ∀ l ∈ ls, l.id H ∈ ids) ∧
  ∃ ids : List SemId, ids.length ≤ 2 ^ 24 - 1 ∧ ∀ p ∈ allDefs H ls, p.1 ∈ ids

end Verif
