import Verif.Model.Compile
import Verif.Spec.Ast

/-!
# Specification vocabulary for compilation

What it means for a reference or type to be compiled, which names and external types a symbolic type
mentions, how deep it nests. Nothing here uses the compiling functions.
-/

namespace Verif

/-- The limits of `Ty.WF` hold in every embedded type (they are enforced by the containers). -/
inductive TranspileRef.Deep : TranspileRef → Prop
  | embedded {t : Ty TranspileRef} : t.WF → (∀ r ∈ t.refs, Deep r) → Deep (.embedded t)
  | named (n : Name) : Deep (.named n)
  | extern (s : SymbolRef) : Deep (.extern s)

/-- The limits hold in the type and in every type embedded in it. -/
def Ty.Deep (t : Ty TranspileRef) : Prop := t.WF ∧ ∀ r ∈ t.refs, r.Deep

/-- The reference names `n`, directly or inside an embedded type. -/
inductive TranspileRef.Mentions : TranspileRef → Name → Prop
  | named (n : Name) : Mentions (.named n) n
  | embedded {t : Ty TranspileRef} {r : TranspileRef} {n : Name} :
    r ∈ t.refs → Mentions r n → Mentions (.embedded t) n

/-- The type names `n`, directly or inside an embedded type. -/
def Ty.Mentions (t : Ty TranspileRef) (n : Name) : Prop := ∃ r ∈ t.refs, r.Mentions n

/-- The reference uses the external symbol `s`, directly or inside an embedded type. -/
inductive TranspileRef.Uses : TranspileRef → SymbolRef → Prop
  | extern (s : SymbolRef) : Uses (.extern s) s
  | embedded {t : Ty TranspileRef} {r : TranspileRef} {s : SymbolRef} :
    r ∈ t.refs → Uses r s → Uses (.embedded t) s

/-- The type uses the external symbol `s`, directly or inside an embedded type. -/
def Ty.Uses (t : Ty TranspileRef) (s : SymbolRef) : Prop := ∃ r ∈ t.refs, r.Uses s

/-- At most `k` levels of embedded types. -/
def TranspileRef.DepthLe : Nat → TranspileRef → Prop
  | 0, .embedded _ => False
  | k + 1, .embedded t => ∀ r ∈ t.refs, TranspileRef.DepthLe k r
  | _, .named _ => True
  | _, .extern _ => True

/-- The type embeds other types at most `k` levels deep. -/
def Ty.DepthLe (k : Nat) (t : Ty TranspileRef) : Prop := ∀ r ∈ t.refs, r.DepthLe k

/-! ### Compiled form of references, level by level -/

/-- Names became the ids given by `idx`, external symbols became external references; nothing is
embedded at the last level. -/
def InlineRef2.Compiled (idx : Name → Option SemId) : TranspileRef → InlineRef2 → Prop
  | .named n, .named id => idx n = some id
  | .extern s, .extern e => e.libId = s.libId ∧ e.semId = s.semId
  | _, _ => False

/-- As `InlineRef2.Compiled`; embedded types became inline types of the next level. -/
def InlineRef1.Compiled (idx : Name → Option SemId) : TranspileRef → InlineRef1 → Prop
  | .embedded t, .inline u => Ty.Rel (InlineRef2.Compiled idx) t u
  | .named n, .named id => idx n = some id
  | .extern s, .extern e => e.libId = s.libId ∧ e.semId = s.semId
  | _, _ => False

/-- As `InlineRef2.Compiled`; embedded types became inline types of the next level. -/
def InlineRef.Compiled (idx : Name → Option SemId) : TranspileRef → InlineRef → Prop
  | .embedded t, .inline u => Ty.Rel (InlineRef1.Compiled idx) t u
  | .named n, .named id => idx n = some id
  | .extern s, .extern e => e.libId = s.libId ∧ e.semId = s.semId
  | _, _ => False

/-- As `InlineRef2.Compiled`; embedded types became inline types of the next level. -/
def LibRef.Compiled (idx : Name → Option SemId) : TranspileRef → LibRef → Prop
  | .embedded t, .inline u => Ty.Rel (InlineRef.Compiled idx) t u
  | .named n, .named id => idx n = some id
  | .extern s, .extern e => e.libId = s.libId ∧ e.semId = s.semId
  | _, _ => False

/-- `u` is `t` with every name replaced by the id `idx` gives it, and nothing else changed. -/
def Ty.CompiledTo (idx : Name → Option SemId) (t : Ty TranspileRef) (u : Ty LibRef) : Prop :=
  Ty.Rel (LibRef.Compiled idx) t u

/-- The id under which `n` appears in a compiled library. -/
def TypeLib.idOf (H : Hash) (l : TypeLib) (n : Name) : Option SemId :=
  (l.types.get n).map fun u => u.semIdNamed H LibRef.commit n

/-! ### Symbolic libraries -/

/-- Dependencies as held by a `BTreeSet<Dependency>`: increasing ids. -/
def DepsSorted (ds : List Dependency) : Prop :=
  ds.Pairwise fun a b => KeyOrd.lt a.id b.id = true

/-- What the containers of a symbolic library enforce: sorted maps and sets, at least one type, at
most 255 dependencies and external libraries, at most 65535 types of each, and the limits of every
type. -/
structure SymbolicLib.WF (s : SymbolicLib) : Prop where
  typesSorted : s.types.Sorted
  nonEmpty : s.types ≠ []
  deps : DepsSorted s.dependencies
  fewDeps : s.dependencies.length ≤ 255
  externSorted : s.externTypes.Sorted
  fewExterns : s.externTypes.length ≤ 255
  externs : ∀ p ∈ s.externTypes, OMap.Sorted p.2 ∧ p.2.length ≤ 65535
  types : ∀ p ∈ s.types, p.2.Deep

/-- Every name mentioned by a type is defined in the library. -/
def SymbolicLib.Defined (s : SymbolicLib) : Prop :=
  ∀ p ∈ s.types, ∀ n, p.2.Mentions n → ∃ t, (n, t) ∈ s.types

/-- No type mentions itself, even through other types: there is a rank that decreases along every
mention. -/
def SymbolicLib.Acyclic (s : SymbolicLib) : Prop :=
  ∃ rank : Name → Nat, ∀ p ∈ s.types, ∀ n, p.2.Mentions n → rank n < rank p.1

/-- Every type embeds others at most three levels deep. -/
def SymbolicLib.Shallow (s : SymbolicLib) : Prop := ∀ p ∈ s.types, p.2.DepthLe 3

/-- Every external library (other than the pseudo-library of embedded types) is a dependency. -/
def SymbolicLib.KnownLibs (s : SymbolicLib) : Prop :=
  ∀ p ∈ s.externTypes, p.1 ≠ n!"_" → ∃ d ∈ s.dependencies, d.name = p.1

/-- Every external symbol used is recorded, under a dependency with its library id and name which is
not the pseudo-library of embedded types, and no other dependency has the same name. -/
def SymbolicLib.Recorded (s : SymbolicLib) : Prop :=
  ∀ p ∈ s.types, ∀ sym, p.2.Uses sym →
    (⟨sym.libId, sym.libName⟩ ∈ s.dependencies) ∧ sym.libName ≠ n!"_" ∧
    (∀ d ∈ s.dependencies, d.name = sym.libName → d.id = sym.libId) ∧
    ∃ m, (sym.libName, m) ∈ s.externTypes ∧ (sym.semId, sym.tyName) ∈ m

/-! ### Compiled libraries -/

/-- Ids of types of the same library a reference points to, and external references, at any depth. -/
def InlineRef2.locals : InlineRef2 → List SemId
  | .named id => [id]
  | .extern _ => []
/-- External references. -/
def InlineRef2.externs : InlineRef2 → List ExternRef
  | .named _ => []
  | .extern e => [e]
/-- As above, including those of inline types. -/
def InlineRef1.locals : InlineRef1 → List SemId
  | .inline t => t.refs.flatMap InlineRef2.locals
  | .named id => [id]
  | .extern _ => []
/-- As above, including those of inline types. -/
def InlineRef1.externs : InlineRef1 → List ExternRef
  | .inline t => t.refs.flatMap InlineRef2.externs
  | .named _ => []
  | .extern e => [e]
/-- As above, including those of inline types. -/
def InlineRef.locals : InlineRef → List SemId
  | .inline t => t.refs.flatMap InlineRef1.locals
  | .named id => [id]
  | .extern _ => []
/-- As above, including those of inline types. -/
def InlineRef.externs : InlineRef → List ExternRef
  | .inline t => t.refs.flatMap InlineRef1.externs
  | .named _ => []
  | .extern e => [e]
/-- As above, including those of inline types. -/
def LibRef.locals : LibRef → List SemId
  | .inline t => t.refs.flatMap InlineRef.locals
  | .named id => [id]
  | .extern _ => []
/-- As above, including those of inline types. -/
def LibRef.externs : LibRef → List ExternRef
  | .inline t => t.refs.flatMap InlineRef.externs
  | .named _ => []
  | .extern e => [e]

/-- The limits of `Ty.WF` hold for inline types. -/
def InlineRef1.Deep : InlineRef1 → Prop
  | .inline t => t.WF
  | _ => True
/-- The limits of `Ty.WF` hold for inline types, at any depth. -/
def InlineRef.Deep : InlineRef → Prop
  | .inline t => t.WF ∧ ∀ r ∈ t.refs, r.Deep
  | _ => True
/-- The limits of `Ty.WF` hold for inline types, at any depth. -/
def LibRef.Deep : LibRef → Prop
  | .inline t => t.WF ∧ ∀ r ∈ t.refs, r.Deep
  | _ => True
/-- The limits of `Ty.WF` hold for the type and inline types, at any depth. -/
def Ty.LibDeep (t : Ty LibRef) : Prop := t.WF ∧ ∀ r ∈ t.refs, r.Deep

/-- What the containers of a library enforce: sorted maps and sets, 1 to 65535 types, at most 255
dependencies and external libraries, at most 65535 types of each, and the limits of every type. -/
structure TypeLib.WF (l : TypeLib) : Prop where
  typesSorted : l.types.Sorted
  nonEmpty : l.types ≠ []
  fewTypes : l.types.length ≤ 65535
  deps : DepsSorted l.dependencies
  fewDeps : l.dependencies.length ≤ 255
  externSorted : l.externTypes.Sorted
  fewExterns : l.externTypes.length ≤ 255
  externs : ∀ p ∈ l.externTypes, OMap.Sorted p.2 ∧ p.2.length ≤ 65535
  types : ∀ p ∈ l.types, p.2.LibDeep

/-- Every reference to a type of the same library is the id of such a type. -/
def TypeLib.Defined (H : Hash) (l : TypeLib) : Prop :=
  ∀ p ∈ l.types, ∀ r ∈ p.2.refs, ∀ id ∈ r.locals, ∃ n, l.idOf H n = some id

/-- No type refers to its own id, even through other types of the library. -/
def TypeLib.Acyclic (H : Hash) (l : TypeLib) : Prop :=
  ∃ rank : SemId → Nat, ∀ p ∈ l.types, ∀ r ∈ p.2.refs, ∀ id ∈ r.locals,
    rank id < rank (p.2.semIdNamed H LibRef.commit p.1)

/-- The symbol stands for a type recorded in the external types of the library, under the name of
the dependency with its library id. -/
def TypeLib.Symbol (l : TypeLib) (s : SymbolRef) : Prop :=
  (⟨s.libId, s.libName⟩ : Dependency) ∈ l.dependencies ∧
  ∃ m, (s.libName, m) ∈ l.externTypes ∧ (s.semId, s.tyName) ∈ m

/-- Every external reference is recorded under one of the dependencies. -/
def TypeLib.Recorded (l : TypeLib) : Prop :=
  ∀ p ∈ l.types, ∀ r ∈ p.2.refs, ∀ e ∈ r.externs,
    ∃ s, l.Symbol s ∧ s.libId = e.libId ∧ s.semId = e.semId

/-- The dependencies are exactly one per external library. -/
structure TypeLib.ExactDeps (l : TypeLib) : Prop where
  used : ∀ d ∈ l.dependencies, d.name ≠ n!"_" ∧ ∃ m, (d.name, m) ∈ l.externTypes
  listed : ∀ p ∈ l.externTypes, p.1 ≠ n!"_" → ∃ d ∈ l.dependencies, d.name = p.1
  unique : ∀ d ∈ l.dependencies, ∀ e ∈ l.dependencies, d.name = e.name → d = e

/-- No external library has the maximal number of recorded types. -/
def TypeLib.Roomy (l : TypeLib) : Prop := ∀ p ∈ l.externTypes, p.2.length < 65535

/-- What a compiled library has to do with its symbolic form: same name and external types, same
type names, each type compiled, and one dependency per external library, taken from the declared
ones (the first by id if several have the same name). -/
structure SymbolicLib.CompilesTo (H : Hash) (s : SymbolicLib) (l : TypeLib) : Prop where
  name : l.name = s.name
  externTypes : l.externTypes = s.externTypes
  sorted : l.types.Sorted
  keys : l.types.keys = s.types.keys
  types : ∀ n t u, (n, t) ∈ s.types → (n, u) ∈ l.types → t.CompiledTo (l.idOf H) u
  deps : DepsSorted l.dependencies
  used : ∀ d, d ∈ l.dependencies ↔ d ∈ s.dependencies ∧ d.name ≠ n!"_" ∧
    (∃ m, (d.name, m) ∈ s.externTypes) ∧
    ∀ e ∈ s.dependencies, e.name = d.name → ¬ KeyOrd.lt e.id d.id = true

/-! ### Library builders -/

/-- What the hash maps of a builder enforce (distinct keys; dependencies are hashed by id), plus:
nothing is recorded under the pseudo-library of embedded types (`report_compiled` would panic,
`src/typelib/transpile.rs:262-283`). -/
structure LibBuilder.WF (b : LibBuilder) : Prop where
  types : (b.types.map Prod.fst).Nodup
  known : (b.knownLibs.map fun p => p.1.id).Nodup
  externs : (b.externTypes.map Prod.fst).Nodup
  noEmbedded : ∀ p ∈ b.externTypes, p.1 ≠ n!"_"

/-- Every name directly referred to is defined. -/
def LibBuilder.DirectlyDefined (b : LibBuilder) : Prop :=
  ∀ p ∈ b.types, ∀ n, TranspileRef.named n ∈ p.2.refs → ∃ t, (n, t) ∈ b.types

/-- Every external library is known. -/
def LibBuilder.KnownLibs (b : LibBuilder) : Prop :=
  ∀ p ∈ b.externTypes, ∃ e ∈ b.knownLibs, e.1.name = p.1

/-- A known library with this name is not known to lack this type. -/
def LibBuilder.Provides (b : LibBuilder) (lib : Name) (id : SemId) : Prop :=
  ∃ e ∈ b.knownLibs, e.1.name = lib ∧ ∀ ids, e.2 = some ids → id ∈ ids

end Verif
