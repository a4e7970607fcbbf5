import Verif.Lemmas.TranspileClosed
import Verif.Lemmas.TranspileFrame
import Verif.Spec.Example

/-! # Properties of building a library from Rust types -/

namespace Verif

theorem depsOk_of (H : Hash) (own : Name) (known : List (Dependency × Option (List SemId))) :
    DepsOk (View.of H own known) known := by
  intro lib id h
  show (Option.map Dependency.id _).getD _ = id
  rw [h]; rfl

/-- **C57**: whatever Rust types were transpiled into a new builder, nothing the recorded types refer
to is missing: every name they mention is recorded, and every external type they use is recorded under
its library, which is known with the id used (or two of the texts hashed for external types collide). -/
theorem C57_recorded (H : Hash) (debug : Bool) (own : Name)
    (known : List (Dependency × Option (List SemId))) (ts : List RTy)
    (htags : ∀ t ∈ ts, ∀ s, t.Contains s → s.DistinctTags) (b : Transpiler)
    (h : Transpiler.transpile H debug ts (.new own known) = .ok b) :
    (b.libName = own ∧ b.knownLibs = known ∧ b.toLibBuilder.Complete) ∨
      Collision H (ExternText (.of H own known) ts) := by
  by_cases hc : Collision H (ExternText (.of H own known) ts)
  · exact .inr hc
  · let P : Name → SemId → Prop := fun n id => ∃ x, ExternText (.of H own known) ts x ∧
      id = taggedHash H SEM_ID_TAG x ∧ ∃ y, x = n.commit ++ y
    have hP : ∀ n m id, P n id → P m id → n = m := by
      rintro n m id ⟨x, hx, rfl, x', rfl⟩ ⟨y, hy, he, y', rfl⟩
      exact (Name.commit_append_inj (semHash_inj hc hx hy he)).1
    have hi : ClosedInv (.of H own known) known P (Transpiler.new own known) :=
      ⟨⟨rfl, rfl⟩, fun n ty h => by simp [LibBuilder.HasType, Transpiler.new, hmGet] at h,
        fun lib n id h => by
          obtain ⟨m, h, -⟩ := h
          simp [Transpiler.new, hmGet] at h,
        fun r h => by simp [Transpiler.new] at h⟩
    obtain ⟨c, g⟩ := closed_transpile (depsOk_of H own known) hP ts _ b htags
      (fun t ht s hs n hn hl => ⟨_, ⟨t, ht, s, n, hs, hl, hn, rfl⟩, rfl, _, rfl⟩) hi h
    refine .inl ⟨g.libName, g.known, ?_, ?_⟩
    · rintro n ty hty m ⟨r, hr, hm⟩
      exact (c.types n ty hty r hr).names m hm
    · rintro n ty hty s ⟨r, hr, hs⟩
      exact (c.types n ty hty r hr).uses s hs

theorem transpile_setting {V : View} {ts : List RTy} {known : List (Dependency × Option (List SemId))}
    (hc : NamesById V (fun s => ∃ t ∈ ts, t.Contains s)) (hdep : ∀ p ∈ known, p.1.id = V.dep p.1.name)
    (hun : Unambiguous V ts) (htags : ∀ t ∈ ts, ∀ s, t.Contains s → s.DistinctTags) :
    Setting V (fun s => ∃ t ∈ ts, t.Contains s) known := by
  constructor
  · exact hc
  · rintro s s' ⟨t, ht, hs⟩ ⟨t', ht', hs'⟩ h1 h2 h3 h4
    exact hun t ht t' ht' s s' hs hs' h1 h2 h3 h4
  · intro lib id h
    cases e : (known.map Prod.fst).find? fun d => d.name = lib with
    | none => rw [e] at h; simp at h
    | some d =>
      rw [e] at h
      obtain ⟨p, hp, rfl⟩ := List.mem_map.mp (List.mem_of_find?_eq_some e)
      have hn := List.find?_some e
      simp only [decide_eq_true_eq] at hn
      simp only [Option.map_some, Option.some.injEq] at h
      rw [← h, ← hn, hdep p hp]
  · rintro t ⟨t0, h0, h⟩ p hp
    exact ⟨t0, h0, h.trans (.step hp (.refl p))⟩
  · rintro t ⟨t0, h0, h⟩
    exact htags t0 h0 t h

theorem namesById_extern {V : View} {ts : List RTy} (hc : ¬ Collision V.H (ExternText V ts)) :
    NamesById V (fun s => ∃ t ∈ ts, t.Contains s) :=
  namesById hc fun s n ⟨t, ht, hs⟩ hl hn => ⟨t, ht, s, n, hs, hl, hn, rfl⟩

theorem builderInv_new (V : View) (U : RTy → Prop) (known : List (Dependency × Option (List SemId))) :
    BuilderInv V U known (Transpiler.new V.own known).toLibBuilder :=
  ⟨rfl, rfl, fun n ty h => by simp [LibBuilder.HasType, Transpiler.new, hmGet] at h,
    fun lib n id h => by
      obtain ⟨m, h, -⟩ := h
      simp [Transpiler.new, hmGet] at h⟩

/-- **C57**: when no name of the library is used for two types, the builder has recorded exactly the
named types the Rust types mention: types of the library under their names, types of other libraries
with their ids (or two of the texts hashed for types of other libraries collide). -/
theorem C57_exact (V : View) (debug : Bool) (known : List (Dependency × Option (List SemId)))
    (hdep : ∀ p ∈ known, p.1.id = V.dep p.1.name) (ts : List RTy) (hun : Unambiguous V ts)
    (htags : ∀ t ∈ ts, ∀ s, t.Contains s → s.DistinctTags) (b : Transpiler)
    (h : Transpiler.transpile V.H debug ts (.new V.own known) = .ok b) :
    ((∀ n ty, b.HasType n ty ↔ ∃ t ∈ ts, t.Declares V V.own n ty) ∧
      ∀ lib n id, b.HasExtern lib n id ↔ lib ≠ V.own ∧ ∃ t ∈ ts, ∃ ty, t.Declares V lib n ty ∧
        id = TranspileRef.semIdNamed V.H ty n) ∨ Collision V.H (ExternText V ts) := by
  by_cases hc : Collision V.H (ExternText V ts)
  · exact .inr hc
  refine .inl ?_
  have S := transpile_setting (namesById_extern hc) hdep hun htags
  have hb := builderInv_new V (fun s => ∃ t ∈ ts, t.Contains s) known
  obtain ⟨-, hadd, -⟩ := (Does.transpile (debug := debug) S ts _ hb fun t ht => ⟨t, ht, .refl t⟩).post b h
  refine ⟨fun n ty => ?_, fun lib n id => ?_⟩
  · rw [hadd.types]
    have : ¬ (Transpiler.new V.own known).HasType n ty := by
      simp [LibBuilder.HasType, Transpiler.new, hmGet]
    simp only [this, false_or]
    exact Iff.rfl
  · rw [hadd.externs]
    have : ¬ (Transpiler.new V.own known).HasExtern lib n id := by
      simp [LibBuilder.HasExtern, Transpiler.new, hmGet]
    simp only [this, false_or]
    refine and_congr Iff.rfl ?_
    constructor
    · rintro ⟨ty, ⟨t, ht, hd⟩, hi⟩
      exact ⟨t, ht, ty, hd, hi⟩
    · rintro ⟨t, ht, ty, hd, hi⟩
      exact ⟨ty, ⟨t, ht, hd⟩, hi⟩

/-- **C57**: transpiling succeeds when every type mentioned is within the limits and its library is
known (or two of the texts hashed for types of other libraries collide). -/
theorem C57_succeeds (V : View) (debug : Bool) (known : List (Dependency × Option (List SemId)))
    (hdep : ∀ p ∈ known, p.1.id = V.dep p.1.name) (ts : List RTy) (hun : Unambiguous V ts)
    (htags : ∀ t ∈ ts, ∀ s, t.Contains s → s.DistinctTags)
    (hok : ∀ t ∈ ts, ∀ s, t.Contains s → s.NodeOk debug V.own fun lib => ∃ d ∈ known, d.1.name = lib) :
    (∃ b, Transpiler.transpile V.H debug ts (.new V.own known) = .ok b) ∨ Collision V.H (ExternText V ts) := by
  by_cases hc : Collision V.H (ExternText V ts)
  · exact .inr hc
  have S := transpile_setting (namesById_extern hc) hdep hun htags
  have hb := builderInv_new V (fun s => ∃ t ∈ ts, t.Contains s) known
  exact .inl ((Does.transpile (debug := debug) S ts _ hb fun t ht => ⟨t, ht, .refl t⟩).succ hok)

/-- **C57**: transpiling in another order, or some of the types twice, results in the same contents
(or two of the texts hashed for types of other libraries collide). -/
theorem C57_order_repetition (V : View) (debug : Bool) (known : List (Dependency × Option (List SemId)))
    (hdep : ∀ p ∈ known, p.1.id = V.dep p.1.name) (ts ts' : List RTy) (hsame : ∀ t, t ∈ ts ↔ t ∈ ts')
    (hun : Unambiguous V ts) (htags : ∀ t ∈ ts, ∀ s, t.Contains s → s.DistinctTags) (b b' : Transpiler)
    (h : Transpiler.transpile V.H debug ts (.new V.own known) = .ok b)
    (h' : Transpiler.transpile V.H debug ts' (.new V.own known) = .ok b') :
    b.toLibBuilder.SameContents b'.toLibBuilder ∨ Collision V.H (ExternText V ts) := by
  rcases C57_exact V debug known hdep ts hun htags b h with ⟨h1, h2⟩ | hc
  · have hun' : Unambiguous V ts' := fun t ht t' ht' =>
      hun t ((hsame t).mpr ht) t' ((hsame t').mpr ht')
    rcases C57_exact V debug known hdep ts' hun' (fun t ht => htags t ((hsame t).mpr ht)) b' h' with
      ⟨h3, h4⟩ | hc
    · refine .inl ⟨fun n ty => ?_, fun lib n id => ?_⟩
      · rw [h1, h3]; simp only [hsame]
      · rw [h2, h4]; simp only [hsame]
    · refine .inr (hc.mono ?_)
      rintro x ⟨t, ht, h⟩
      exact ⟨t, (hsame t).mpr ht, h⟩
  · exact .inr hc

/-! ### A concrete case -/

/-- A type of another library. -/
def exForeign : RTy := .record n!"Other" (some n!"Id") true [(none, .array (.prim 1) 32)]

/-- A point. -/
def exPoint : RTy := .record n!"Own" (some n!"Point") false [(some n!"x", .prim 1), (some n!"y", .prim 1)]

/-- A union. -/
def exShape : RTy := .union n!"Own" (some n!"Shape")
  [(⟨n!"dot", 1⟩, .record n!"Own" none true [(none, exPoint)]),
   (⟨n!"nothing", 0⟩, .record n!"Own" none true [])] 1

/-- A struct using all of them. -/
def exPicture : RTy := .record n!"Own" (some n!"Picture") false
  [(some n!"shape", exShape), (some n!"points", .list exPoint ⟨0, 255⟩), (some n!"id", exForeign)]

/-- A view with the other library. -/
def exView : View := ⟨toyHash, n!"Own", fun _ => Id32.rep 9⟩

/-- The other library is known. -/
def exKnown : List (Dependency × Option (List SemId)) := [(⟨Id32.rep 9, n!"Other"⟩, none)]

/-- What the example mentions. -/
theorem exPicture_contains {s : RTy} : exPicture.Contains s ↔
    s = exPicture ∨ s = exShape ∨ s = .record n!"Own" none true [(none, exPoint)] ∨ s = exPoint ∨
    s = .prim 1 ∨ s = .record n!"Own" none true [] ∨ s = .list exPoint ⟨0, 255⟩ ∨ s = exForeign ∨
    s = .array (.prim 1) 32 := by
  have hprim : ∀ s, (RTy.prim 1).Contains s ↔ s = .prim 1 := by
    intro s; rw [RTy.contains_iff]; simp [RTy.parts]
  have hpoint : ∀ s, exPoint.Contains s ↔ s = exPoint ∨ s = .prim 1 := by
    intro s; rw [RTy.contains_iff]
    rw [show exPoint.parts = [.prim 1, .prim 1] from rfl]
    simp only [List.mem_cons, List.not_mem_nil, or_false, exists_eq_left, or_self, hprim]
  have hunit : ∀ s, (RTy.record n!"Own" none true []).Contains s ↔ s = .record n!"Own" none true [] := by
    intro s; rw [RTy.contains_iff]; simp [RTy.parts]
  have hdot : ∀ s, (RTy.record n!"Own" none true [(none, exPoint)]).Contains s ↔
      s = .record n!"Own" none true [(none, exPoint)] ∨ s = exPoint ∨ s = .prim 1 := by
    intro s; rw [RTy.contains_iff]; simp [RTy.parts, hpoint]
  have hshape : ∀ s, exShape.Contains s ↔ s = exShape ∨
      (s = .record n!"Own" none true [(none, exPoint)] ∨ s = exPoint ∨ s = .prim 1) ∨
      s = .record n!"Own" none true [] := by
    intro s; rw [RTy.contains_iff]
    rw [show exShape.parts = [.record n!"Own" none true [(none, exPoint)], .record n!"Own" none true []]
      from rfl]
    simp [hdot, hunit]
  have hlist : ∀ s, (RTy.list exPoint ⟨0, 255⟩).Contains s ↔ s = .list exPoint ⟨0, 255⟩ ∨ s = exPoint ∨
      s = .prim 1 := by
    intro s; rw [RTy.contains_iff]; simp [RTy.parts, hpoint]
  have harr : ∀ s, (RTy.array (.prim 1) 32).Contains s ↔ s = .array (.prim 1) 32 ∨ s = .prim 1 := by
    intro s; rw [RTy.contains_iff]; simp only [RTy.parts, List.mem_cons, List.not_mem_nil, or_false, exists_eq_left, hprim]
  have hfor : ∀ s, exForeign.Contains s ↔ s = exForeign ∨ s = .array (.prim 1) 32 ∨ s = .prim 1 := by
    intro s; rw [RTy.contains_iff]
    rw [show exForeign.parts = [.array (.prim 1) 32] from rfl]
    simp only [List.mem_cons, List.not_mem_nil, or_false, exists_eq_left, harr]
  rw [RTy.contains_iff]
  rw [show exPicture.parts = [exShape, .list exPoint ⟨0, 255⟩, exForeign] from rfl]
  simp only [List.mem_cons, List.not_mem_nil, or_false, exists_eq_or_imp, exists_eq_left, hshape, hlist, hfor]
  constructor
  · rintro (h | (h | (h | h | h) | h) | (h | h | h) | (h | h | h)) <;> simp [h]
  · rintro (h | h | h | h | h | h | h | h | h) <;> simp [h]

/-- The hypotheses of `C57_exact` and `C57_succeeds` hold for the example. -/
example : (∀ p ∈ exKnown, p.1.id = exView.dep p.1.name) ∧ Unambiguous exView [exPicture] ∧
    (∀ t ∈ [exPicture], ∀ s, t.Contains s → s.DistinctTags) ∧
    (∀ t ∈ [exPicture], ∀ s, t.Contains s →
      s.NodeOk true exView.own fun lib => ∃ d ∈ exKnown, d.1.name = lib) := by
  refine ⟨by simp [exKnown, exView], ?_, ?_, ?_⟩
  · intro t ht t' ht' s s' hs hs' h1 h2 h3 h4
    simp only [List.mem_cons, List.not_mem_nil, or_false] at ht ht'
    subst ht ht'
    have : s = s' := by
      rw [exPicture_contains] at hs hs'
      rcases hs with rfl | rfl | rfl | rfl | rfl | rfl | rfl | rfl | rfl <;>
      rcases hs' with rfl | rfl | rfl | rfl | rfl | rfl | rfl | rfl | rfl <;>
      first
        | rfl
        | exact absurd h4 (by decide)
        | exact absurd h3 (by decide)
        | exact absurd h1 (by decide)
    subst this
    exact ⟨rfl, fun _ _ _ => Iff.rfl⟩
  · intro t ht s hs
    simp only [List.mem_cons, List.not_mem_nil, or_false] at ht
    subst ht
    rw [exPicture_contains] at hs
    rcases hs with rfl | rfl | rfl | rfl | rfl | rfl | rfl | rfl | rfl <;>
    simp [RTy.DistinctTags, exPicture, exShape, exPoint, exForeign]
  · intro t ht s hs
    simp only [List.mem_cons, List.not_mem_nil, or_false] at ht
    subst ht
    rw [exPicture_contains] at hs
    rcases hs with rfl | rfl | rfl | rfl | rfl | rfl | rfl | rfl | rfl <;>
    simp [RTy.NodeOk, RTy.name, RTy.lib, exPicture, exShape, exPoint, exForeign, exView, exKnown]

/-- Names and external types recorded for the example. -/
example : ((Transpiler.transpile toyHash true [exPicture, exPoint, exPicture] (.new n!"Own" exKnown)).bind
    fun b => .ok (b.types.map Prod.fst, b.externTypes.map fun p => (p.1, p.2.map Prod.snd))) =
    .ok ([n!"Point", n!"Shape", n!"Picture"], [(n!"Other", [n!"Id"])]) := by
  decide +kernel

/-! ### One name, one type -/

theorem eqvTy_noVariants : ∀ {t u : Ty TranspileRef}, t.NoVariants →
    (∀ r ∈ t.refs, ∀ s, r.eqv s = true → r = s) → TranspileRef.eqvTy t u = true → t = u
  | .primitive c, u, _, _, h => by
    cases u <;> simp [TranspileRef.eqvTy] at h
    rw [h]
  | .unicodeChar, u, _, _, h => by
    cases u <;> simp [TranspileRef.eqvTy] at h
    rfl
  | .enum vs, u, hn, _, _ => hn.elim
  | .union vs, u, hn, _, _ => hn.elim
  | .tuple fs, u, _, ih, h => by
    cases u <;> simp [TranspileRef.eqvTy] at h
    rename_i gs
    congr 1
    simp only [Ty.refs] at ih
    induction fs generalizing gs with
    | nil => cases gs <;> simp [TranspileRef.eqvRefs] at h; rfl
    | cons f fs ih' =>
      cases gs with
      | nil => simp [TranspileRef.eqvRefs] at h
      | cons g gs =>
        simp only [TranspileRef.eqvRefs, Bool.and_eq_true] at h
        rw [ih f List.mem_cons_self g h.1,
          ih' trivial (fun r hr => ih r (List.mem_cons_of_mem _ hr)) gs h.2]
  | .struct fs, u, _, ih, h => by
    cases u <;> simp [TranspileRef.eqvTy] at h
    rename_i gs
    congr 1
    simp only [Ty.refs] at ih
    induction fs generalizing gs with
    | nil => cases gs <;> simp [TranspileRef.eqvFields] at h; rfl
    | cons f fs ih' =>
      cases gs with
      | nil => simp [TranspileRef.eqvFields] at h
      | cons g gs =>
        obtain ⟨n, f⟩ := f
        obtain ⟨m, g⟩ := g
        simp only [TranspileRef.eqvFields, Bool.and_eq_true, beq_iff_eq] at h
        rw [ih f (by simp) g h.1.2, h.1.1,
          ih' trivial (fun r hr => ih r (by simp at hr ⊢; exact .inr hr)) gs h.2]
  | .array t n, u, _, ih, h => by
    cases u <;> simp [TranspileRef.eqvTy] at h
    rw [ih t (by simp [Ty.refs]) _ h.1, h.2]
  | .list t n, u, _, ih, h => by
    cases u <;> simp [TranspileRef.eqvTy] at h
    rw [ih t (by simp [Ty.refs]) _ h.1, h.2]
  | .set t n, u, _, ih, h => by
    cases u <;> simp [TranspileRef.eqvTy] at h
    rw [ih t (by simp [Ty.refs]) _ h.1, h.2]
  | .map k t n, u, _, ih, h => by
    cases u <;> simp [TranspileRef.eqvTy] at h
    rw [ih k (by simp [Ty.refs]) _ h.1.1, ih t (by simp [Ty.refs]) _ h.1.2, h.2]

theorem eqv_plain {r : TranspileRef} (h : r.Plain) : ∀ s, r.eqv s = true → r = s := by
  induction h with
  | embedded hn _ ih =>
    intro s hs
    cases s <;> simp [TranspileRef.eqv] at hs
    rw [eqvTy_noVariants hn ih hs]
  | named n =>
    intro s hs
    cases s <;> simp [TranspileRef.eqv] at hs
    rw [hs]
  | extern x =>
    intro s hs
    cases s <;> simp [TranspileRef.eqv] at hs
    rw [hs]

theorem eqvVariants_alike : ∀ {vs ws : List Variant}, eqvVariants vs ws = true →
    vs.length = ws.length ∧ ∀ p ∈ vs.zip ws, p.1.tag = p.2.tag ∨ p.1.name = p.2.name
  | [], [], _ => by simp
  | [], _ :: _, h => by simp [eqvVariants] at h
  | _ :: _, [], h => by simp [eqvVariants] at h
  | v :: vs, w :: ws, h => by
    simp only [eqvVariants, Bool.and_eq_true, Variant.eqv, Bool.or_eq_true, beq_iff_eq] at h
    obtain ⟨h1, h2⟩ := eqvVariants_alike h.2
    refine ⟨by simp [h1], fun p hp => ?_⟩
    rcases List.mem_cons.1 hp with rfl | hp
    · exact h.1
    · exact h2 p hp

mutual
/-- The comparison of types is the specified one. -/
theorem eqv_alike : ∀ (r s : TranspileRef), r.eqv s = true → r.Alike s
  | .embedded t, s, h => by
    cases s with
    | embedded u => exact eqvTy_alike t u (by simpa [TranspileRef.eqv] using h)
    | _ => simp [TranspileRef.eqv] at h
  | .named n, s, h => by
    cases s <;> simp [TranspileRef.eqv] at h
    subst h; exact .named _
  | .extern n, s, h => by
    cases s <;> simp [TranspileRef.eqv] at h
    subst h; exact .extern _
termination_by structural r => r
theorem eqvTy_alike : ∀ (t u : Ty TranspileRef), TranspileRef.eqvTy t u = true →
    (TranspileRef.embedded t).Alike (.embedded u)
  | .primitive p, u, h => by
    cases u <;> simp [TranspileRef.eqvTy] at h
    subst h; exact .primitive _
  | .unicodeChar, u, h => by
    cases u <;> simp [TranspileRef.eqvTy] at h
    exact .unicodeChar
  | .enum vs, u, h => by
    cases u <;> simp [TranspileRef.eqvTy] at h
    obtain ⟨h1, h2⟩ := eqvVariants_alike h
    exact .enum h1 h2
  | .union vs, u, h => by
    cases u <;> simp [TranspileRef.eqvTy] at h
    obtain ⟨h1, h2, h3⟩ := eqvCases_alike vs _ h
    exact .union h1 h2 h3
  | .tuple fs, u, h => by
    cases u <;> simp [TranspileRef.eqvTy] at h
    obtain ⟨h1, h2⟩ := eqvRefs_alike fs _ h
    exact .tuple h1 h2
  | .struct fs, u, h => by
    cases u <;> simp [TranspileRef.eqvTy] at h
    obtain ⟨h1, h2⟩ := eqvFields_alike fs _ h
    exact .struct h1 h2
  | .array r n, u, h => by
    cases u <;> simp [TranspileRef.eqvTy] at h
    obtain ⟨h1, rfl⟩ := h
    exact .array _ (eqv_alike r _ h1)
  | .list r n, u, h => by
    cases u <;> simp [TranspileRef.eqvTy] at h
    obtain ⟨h1, rfl⟩ := h
    exact .list _ (eqv_alike r _ h1)
  | .set r n, u, h => by
    cases u <;> simp [TranspileRef.eqvTy] at h
    obtain ⟨h1, rfl⟩ := h
    exact .set _ (eqv_alike r _ h1)
  | .map k r n, u, h => by
    cases u <;> simp [TranspileRef.eqvTy] at h
    obtain ⟨⟨h1, h2⟩, rfl⟩ := h
    exact .map _ (eqv_alike k _ h1) (eqv_alike r _ h2)
termination_by structural t => t
theorem eqvRefs_alike : ∀ (l m : List TranspileRef), TranspileRef.eqvRefs l m = true →
    l.length = m.length ∧ ∀ p ∈ l.zip m, p.1.Alike p.2
  | [], m, h => by
    cases m <;> simp [TranspileRef.eqvRefs] at h
    simp
  | r :: l, m, h => by
    cases m with
    | nil => simp [TranspileRef.eqvRefs] at h
    | cons s m =>
      simp only [TranspileRef.eqvRefs, Bool.and_eq_true] at h
      obtain ⟨h1, h2⟩ := eqvRefs_alike l m h.2
      refine ⟨by simp [h1], fun p hp => ?_⟩
      rcases List.mem_cons.1 hp with rfl | hp
      · exact eqv_alike r s h.1
      · exact h2 p hp
termination_by structural l => l
theorem eqvFields_alike : ∀ (l m : List (Name × TranspileRef)), TranspileRef.eqvFields l m = true →
    l.map Prod.fst = m.map Prod.fst ∧ ∀ p ∈ l.zip m, p.1.2.Alike p.2.2
  | [], m, h => by
    cases m <;> simp [TranspileRef.eqvFields] at h
    simp
  | (n, r) :: l, m, h => by
    cases m with
    | nil => simp [TranspileRef.eqvFields] at h
    | cons s m =>
      obtain ⟨w, s⟩ := s
      simp only [TranspileRef.eqvFields, Bool.and_eq_true, beq_iff_eq] at h
      obtain ⟨h1, h2⟩ := eqvFields_alike l m h.2
      refine ⟨by simp [h1, h.1.1], fun p hp => ?_⟩
      rcases List.mem_cons.1 hp with rfl | hp
      · exact eqv_alike r s h.1.2
      · exact h2 p hp
termination_by structural l => l
theorem eqvCases_alike : ∀ (l m : List (Variant × TranspileRef)), TranspileRef.eqvCases l m = true →
    l.length = m.length ∧ (∀ p ∈ l.zip m, p.1.1.tag = p.2.1.tag ∨ p.1.1.name = p.2.1.name) ∧
      ∀ p ∈ l.zip m, p.1.2.Alike p.2.2
  | [], m, h => by
    cases m <;> simp [TranspileRef.eqvCases] at h
    simp
  | (v, r) :: l, m, h => by
    cases m with
    | nil => simp [TranspileRef.eqvCases] at h
    | cons s m =>
      obtain ⟨w, s⟩ := s
      simp only [TranspileRef.eqvCases, Bool.and_eq_true, Variant.eqv, Bool.or_eq_true, beq_iff_eq] at h
      obtain ⟨h1, h2, h3⟩ := eqvCases_alike l m h.2
      refine ⟨by simp [h1], fun p hp => ?_, fun p hp => ?_⟩
      · rcases List.mem_cons.1 hp with rfl | hp
        · exact h.1.1
        · exact h2 p hp
      · rcases List.mem_cons.1 hp with rfl | hp
        · exact eqv_alike r s h.1.2
        · exact h3 p hp
termination_by structural l => l
end

/-- **C64 is violated**: two different Rust types with the same name in the library being built are
accepted. The second is a field of a struct, and is silently described as the first: the field holds a
16-bit number, the type recorded for it an 8-bit number. -/
theorem C64_one_name_violated (H : Hash) :
    ∃ (t u : RTy) (b : Transpiler) (ty : Ty TranspileRef),
      Transpiler.transpile H true [t, .record n!"Own" (some n!"User") false [(some n!"f", u)]]
        (.new n!"Own" []) = .ok b ∧
      t.lib = n!"Own" ∧ u.lib = n!"Own" ∧ t.name = u.name ∧ u.name = some n!"Num" ∧
      u.ty ⟨H, n!"Own", fun _ => Id32.rep 0⟩ ≠ t.ty ⟨H, n!"Own", fun _ => Id32.rep 0⟩ ∧
      b.HasType n!"User" (.struct [(n!"f", .named n!"Num")]) ∧
      b.HasType n!"Num" ty ∧ ty = t.ty ⟨H, n!"Own", fun _ => Id32.rep 0⟩ := by
  refine ⟨.record n!"Own" (some n!"Num") true [(none, .prim 1)],
    .record n!"Own" (some n!"Num") true [(none, .prim 2)], _, .tuple [.embedded (.primitive 1)],
    rfl, rfl, rfl, rfl, rfl, ?_, ?_, ?_, rfl⟩
  rotate_left
  · unfold LibBuilder.HasType; rfl
  · unfold LibBuilder.HasType; rfl
  intro h
  simp [RTy.ty, RTy.tyFields, RTy.tyField, View.ref, RTy.name] at h

/-- **C64 is violated**: even at the top level the check compares variants by tag or name only, so an
enum with other names of variants replaces the first. -/
theorem C64_enum_replaced_violated (H : Hash) :
    ∃ (t u : RTy) (b : Transpiler),
      Transpiler.transpile H true [t, u] (.new n!"Own" []) = .ok b ∧
      t.name = u.name ∧ u.name = some n!"Dir" ∧
      b.HasType n!"Dir" (.enum [⟨n!"left", 0⟩, ⟨n!"right", 1⟩]) ∧
      t.ty ⟨H, n!"Own", fun _ => Id32.rep 0⟩ = .enum [⟨n!"up", 0⟩, ⟨n!"down", 1⟩] := by
  refine ⟨.enum n!"Own" (some n!"Dir") [⟨n!"up", 0⟩, ⟨n!"down", 1⟩],
    .enum n!"Own" (some n!"Dir") [⟨n!"left", 0⟩, ⟨n!"right", 1⟩],
    ⟨⟨n!"Own", [], [], [(n!"Dir", .enum [⟨n!"left", 0⟩, ⟨n!"right", 1⟩])]⟩, some (.named n!"Dir")⟩,
    ?_, rfl, rfl, ?_, ?_⟩
  · simp [Transpiler.transpile, RTy.encode, buildEnum, sortTags, insertTag, Transpiler.report, Transpiler.new,
      hmGet, hmInsert, TranspileRef.eqvTy, eqvVariants, Variant.eqv]
  · unfold LibBuilder.HasType; rfl
  rw [RTy.ty, show byTag Variant.tag [⟨n!"up", 0⟩, ⟨n!"down", 1⟩] = [⟨n!"up", 0⟩, ⟨n!"down", 1⟩] by
    decide +kernel]

/-- **C64** (partial: only types transpiled directly, not those of fields, and variants are compared by
tag or name): when a type is transpiled, the type recorded before under its name, if any, is equal to
it up to this comparison, and is exactly it when no variants are involved; afterwards the type itself
is recorded. Nothing is assumed about what was transpiled before. -/
theorem C64_top_level_partial (V : View) (debug : Bool) (known : List (Dependency × Option (List SemId)))
    (hdep : ∀ p ∈ known, p.1.id = V.dep p.1.name) (t : RTy)
    (htags : ∀ s, t.Contains s → s.DistinctTags) (b b' : Transpiler) (hown : b.libName = V.own)
    (hknown : b.knownLibs = known) (h : t.encode V.H debug b = .ok b') (n : Name) (hl : t.lib = V.own)
    (hn : t.name = some n) :
    b'.HasType n (t.ty V) ∧
    ((∀ p ∈ t.parts, ∀ ty, ¬ p.Declares V V.own n ty) → ∀ old, b.HasType n old →
      (TranspileRef.embedded old).Alike (.embedded (t.ty V)) ∧ ((TranspileRef.embedded old).Plain → old = t.ty V)) := by
  have hd : DepsOk V known := by
    intro lib id h
    cases e : (known.map Prod.fst).find? fun d => d.name = lib with
    | none => rw [e] at h; simp at h
    | some d =>
      rw [e] at h
      obtain ⟨p, hp, rfl⟩ := List.mem_map.mp (List.mem_of_find?_eq_some e)
      have hn := List.find?_some e
      simp only [decide_eq_true_eq] at hn
      simp only [Option.map_some, Option.some.injEq] at h
      rw [← h, ← hn, hdep p hp]
  obtain ⟨h1, h2⟩ := (RTy.framed hd t htags).2 b b' ⟨hown, hknown⟩ h n hl hn
  refine ⟨h1, fun hno old ho => ?_⟩
  have he := h2 (by rintro ⟨p, hp, ty, hd⟩; exact hno p hp ty hd) old ho
  refine ⟨eqvTy_alike _ _ he, fun hp => ?_⟩
  have := eqv_plain hp (.embedded (t.ty V)) (by unfold TranspileRef.eqv; exact he)
  simpa using this

/-- A struct with the name of a different recorded struct is refused. -/
example : ((Transpiler.transpile toyHash true
    [exPoint, .record n!"Own" (some n!"Point") false [(some n!"x", .prim 1), (some n!"z", .prim 1)]]
    (.new n!"Own" [])).bind fun b => .ok b.types.length) = .panic := by
  decide +kernel

end Verif
