import Verif.Lemmas.System
import Verif.Model.Programs
import Verif.Lemmas.Commit
import Verif.Props.Ids
import Verif.Spec.Example

/-!
# Properties C13-C16, C58: assembling type systems from libraries
-/

namespace Verif

theorem assembleSys_cases {H : Hash} {debug : Bool} {ls : List TypeLib} (hw : ∀ l ∈ ls, l.WF) :
    ∃ b, ImportInv H ls b ∧ b.types.Sorted ∧ (∀ p ∈ b.types, p ∈ allDefs H ls) ∧
      (assembleSys H debug ls = b.result ∨
      (assembleSys H debug ls = .panic ∧ debug = true ∧
        ∃ p ∈ b.types, p.2.ty.refs.length = 255)) := by
  obtain ⟨b, hb, inv, hs, hm, ho⟩ := assemble (H := H) (debug := debug)
    (ls := ls) fun l hl => (hw l hl).types
  refine ⟨b, inv, hs, hm, ?_⟩
  simp only [assembleSys, hb, Out.mapErr, Out.bind_ok]
  exact ho

/-- What is known about an assembled system. -/
theorem assembleSys_ok {H : Hash} {debug : Bool} {ls : List TypeLib} {s : SymbolicSys}
    (hw : ∀ l ∈ ls, l.WF) (h : assembleSys H debug ls = .ok s) :
    ∃ b, ImportInv H ls b ∧ b.types.Sorted ∧ (∀ p ∈ b.types, p ∈ allDefs H ls) ∧ b.pending = [] ∧
      s = ⟨⟨b.imported, symbolsOf b.types⟩, typesOf b.types⟩ := by
  obtain ⟨b, inv, hs, hm, ho⟩ := assembleSys_cases (H := H) (debug := debug) hw
  refine ⟨b, inv, hs, hm, ?_⟩
  rcases ho with ho | ⟨ho, -⟩
  · rw [ho, SystemBuilder.result] at h
    split at h
    · rename_i hp
      split at h
      · cases h; exact ⟨hp, rfl⟩
      · cases h
    · cases h
  · rw [ho] at h; cases h

theorem typesOf_get (m : OMap SemId SymTy) (id : SemId) :
    (typesOf m).get id = (m.get id).map SymTy.ty := by
  induction m with
  | nil => rfl
  | cons p m ih =>
    obtain ⟨k, v⟩ := p
    have ih : OMap.get (List.map (fun p => (p.1, p.2.ty)) m) id = _ := ih
    simp only [typesOf, List.map_cons, OMap.get]
    split
    · rfl
    · exact ih

/-- A library with one type, used in the examples. -/
def exLib1 (lib ty : Name) (deps : List Dependency) (t : Ty LibRef) : TypeLib :=
  ⟨lib, deps, [], [(ty, t)]⟩

theorem exLib1_wf {lib ty : Name} {deps : List Dependency} {t : Ty LibRef} (hd : DepsSorted deps)
    (hl : deps.length ≤ 255) (ht : t.LibDeep) : (exLib1 lib ty deps t).WF := by
  constructor <;> simp_all [exLib1, OMap.Sorted]

/-! ## C13 -/

/-- **C13**: `finalize` succeeds only if every dependency of every imported library was imported,
before or after. -/
theorem C13_success_all_imported (H : Hash) (debug : Bool) (ls : List TypeLib) (s : SymbolicSys)
    (hw : ∀ l ∈ ls, l.WF) (h : assembleSys H debug ls = .ok s) :
    (∀ l ∈ ls, ∀ d ∈ l.dependencies, Satisfied H ls d) ∧
    ∀ i, (∃ d ∈ s.symbols.libs, d.id = i) ↔ ∃ l ∈ ls, l.id H = i := by
  obtain ⟨b, inv, -, -, hp, rfl⟩ := assembleSys_ok hw h
  refine ⟨fun l hl d hd => ?_, inv.imported⟩
  apply Classical.byContradiction
  intro hn
  obtain ⟨x, hx, -⟩ := (inv.pending d.id).mpr ⟨⟨l, hl, d, hd, rfl⟩, hn⟩
  rw [hp] at hx
  cases hx

/-- **C13, what holds** when something is missing: `finalize` fails, reports every absent dependency
(by its id) and nothing else. Missing: in builds with overflow checks a type with 255 references
makes `finalize` panic, see `C13_reports_violated`. -/
theorem C13_missing_reported_partial (H : Hash) (debug : Bool) (ls : List TypeLib)
    (hw : ∀ l ∈ ls, l.WF) (hf : FewRefs H debug ls) (hm : ∃ d, Missing H ls d) :
    ∃ es, assembleSys H debug ls = .err es ∧
      (∀ d, Missing H ls d → ∃ d', .absentImport d' ∈ es ∧ d'.id = d.id) ∧
      (∀ e ∈ es, ∃ d, e = .absentImport d ∧ Missing H ls d) ∧
      es.Pairwise fun e f => e ≠ f := by
  obtain ⟨b, inv, -, hsub, ho⟩ := assembleSys_cases (H := H) (debug := debug) hw
  rcases ho with ho | ⟨-, hd, p, hp, hl⟩
  · have hpend : ∀ d, Missing H ls d → ∃ x ∈ b.pending, x.id = d.id := by
      rintro d ⟨⟨l, hl, hd⟩, hn⟩
      exact (inv.pending d.id).mpr ⟨⟨l, hl, d, hd, rfl⟩, hn⟩
    have hne : b.pending ≠ [] := by
      obtain ⟨d, hd⟩ := hm
      obtain ⟨x, hx, -⟩ := hpend d hd
      intro e; rw [e] at hx; cases hx
    refine ⟨b.pending.map SysError.absentImport, ?_, ?_, ?_, ?_⟩
    · rw [ho, SystemBuilder.result, if_neg hne]
    · intro d hd
      obtain ⟨x, hx, e⟩ := hpend d hd
      exact ⟨x, List.mem_map.mpr ⟨x, hx, rfl⟩, e⟩
    · intro e he
      obtain ⟨d, hd, rfl⟩ := List.mem_map.mp he
      refine ⟨d, rfl, ?_, ?_⟩
      · exact inv.pendingSub d hd
      · exact ((inv.pending d.id).mp ⟨d, hd, rfl⟩).2
    · rw [List.pairwise_map]
      exact inv.pendingSorted.imp fun {a b} h e => by
        cases e
        exact absurd h (by rw [LawfulKeyOrd.irrefl]; simp)
  · have := hf hd p (hsub p hp)
    omega

/-- **C13**: when nothing is missing, `finalize` succeeds (provided that the system fits its
containers and, in builds with overflow checks, no type has 255 references). -/
theorem C13_complete_succeeds (H : Hash) (debug : Bool) (ls : List TypeLib) (hw : ∀ l ∈ ls, l.WF)
    (hf : FewRefs H debug ls) (hs : Fits H ls)
    (hc : ∀ l ∈ ls, ∀ d ∈ l.dependencies, Satisfied H ls d) :
    ∃ s, assembleSys H debug ls = .ok s := by
  obtain ⟨b, inv, hsorted, hsub, ho⟩ := assembleSys_cases (H := H) (debug := debug) hw
  rcases ho with ho | ⟨-, hd, p, hp, hl⟩
  · have hpe : b.pending = [] := by
      rw [List.eq_nil_iff_forall_not_mem]
      intro d hd
      obtain ⟨l, hl, hdl⟩ := inv.pendingSub d hd
      exact ((inv.pending d.id).mp ⟨d, hd, rfl⟩).2 (hc l hl d hdl)
    obtain ⟨⟨ids, h1, h2⟩, ids', h3, h4⟩ := hs
    have l1 : b.imported.length ≤ 65535 := by
      have : (b.imported.map Dependency.id).length ≤ ids.length := by
        apply nodup_length_le
        · exact List.pairwise_map.mpr (inv.sorted.imp fun h => KeyOrd.ne_of_lt h)
        · intro i hi
          obtain ⟨d, hd, rfl⟩ := List.mem_map.mp hi
          obtain ⟨l, hl, e⟩ := (inv.imported d.id).mp ⟨d, hd, rfl⟩
          rw [← e]; exact h2 l hl
      rw [List.length_map] at this
      omega
    have l2 : b.types.length ≤ 2 ^ 24 - 1 := by
      have : (b.types.map Prod.fst).length ≤ ids'.length := by
        apply nodup_length_le
        · exact List.pairwise_map.mpr (List.Pairwise.imp (fun h => KeyOrd.ne_of_lt h) hsorted)
        · intro i hi
          obtain ⟨p, hp, rfl⟩ := List.mem_map.mp hi
          exact h4 p (hsub p hp)
      rw [List.length_map] at this
      omega
    exact ⟨_, by rw [ho, SystemBuilder.result, if_pos hpe, if_pos ⟨l1, l2⟩]⟩
  · have := hf hd p (hsub p hp)
    omega

/-- **C13**: in builds without overflow checks `finalize` succeeds exactly if all dependencies are imported and the system
fits its containers; otherwise it returns errors. In builds with these checks, the only other outcome is a panic, and it
needs a type with 255 references. -/
theorem C13_outcomes (H : Hash) (debug : Bool) (ls : List TypeLib) (hw : ∀ l ∈ ls, l.WF) :
    ((∃ s, assembleSys H debug ls = .ok s) →
      (∀ l ∈ ls, ∀ d ∈ l.dependencies, Satisfied H ls d) ∧ Fits H ls) ∧
    (debug = false → (∀ l ∈ ls, ∀ d ∈ l.dependencies, Satisfied H ls d) → Fits H ls →
      ∃ s, assembleSys H debug ls = .ok s) ∧
    ((∃ s, assembleSys H debug ls = .ok s) ∨ (∃ es, es ≠ [] ∧ assembleSys H debug ls = .err es) ∨
      (assembleSys H debug ls = .panic ∧ debug = true ∧ ∃ p ∈ allDefs H ls, p.2.ty.refs.length = 255)) := by
  refine ⟨fun ⟨s, h⟩ => ⟨(C13_success_all_imported H debug ls s hw h).1, ?_⟩,
    fun hd hc hs => C13_complete_succeeds H debug ls hw (fun h => by rw [hd] at h; cases h) hs hc, ?_⟩
  · obtain ⟨b, inv, hsorted, hsub, ho⟩ := assembleSys_cases (H := H) (debug := debug) hw
    rcases ho with ho | ⟨ho, -⟩
    · rw [ho, SystemBuilder.result] at h
      split at h
      · split at h
        · rename_i hl
          refine ⟨⟨b.imported.map Dependency.id, by simpa using hl.1, fun l hl' => ?_⟩,
            b.types.map Prod.fst, by simpa using hl.2, fun p hp => ?_⟩
          · obtain ⟨d, hd, e⟩ := (inv.imported (l.id H)).mpr ⟨l, hl', rfl⟩
            exact List.mem_map.mpr ⟨d, hd, e⟩
          · have : (b.types.get p.1).isSome := by
              rw [inv.types, foldl_insert_get]
              exact .inr ⟨p, hp, rfl⟩
            obtain ⟨t, ht⟩ := Option.isSome_iff_exists.mp this
            exact List.mem_map.mpr ⟨_, OMap.get_mem ht, rfl⟩
        · cases h
      · cases h
    · rw [ho] at h
      cases h
  · obtain ⟨b, inv, hsorted, hsub, ho⟩ := assembleSys_cases (H := H) (debug := debug) hw
    rcases ho with ho | ⟨ho, hd, p, hp, hl⟩
    · rw [ho, SystemBuilder.result]
      split
      · split
        · exact .inl ⟨_, rfl⟩
        · exact .inr (.inl ⟨_, by simp, rfl⟩)
      · rename_i hne
        exact .inr (.inl ⟨_, by simpa using hne, rfl⟩)
    · exact .inr (.inr ⟨ho, hd, p, hsub p hp, hl⟩)

/-- A tuple with 255 fields. -/
def exFullTuple : Ty LibRef := .tuple (List.replicate 255 (.named (Id32.rep 7)))

/-- **C13 is violated** in builds with overflow checks: if a type has 255 fields, an absent
dependency makes `finalize` panic instead of being reported. -/
theorem C13_reports_violated (H : Hash) :
    (exLib1 n!"A" n!"T" [⟨Id32.rep 9, n!"B"⟩] exFullTuple).WF ∧
    assembleSys H true [exLib1 n!"A" n!"T" [⟨Id32.rep 9, n!"B"⟩] exFullTuple] = .panic := by
  have hw : (exLib1 n!"A" n!"T" [⟨Id32.rep 9, n!"B"⟩] exFullTuple).WF := by
    refine exLib1_wf (by simp [DepsSorted]) (by simp) ⟨by simp [exFullTuple, Ty.WF, -List.reduceReplicate], ?_⟩
    intro r hr
    simp only [exFullTuple, Ty.refs] at hr
    rw [List.eq_of_mem_replicate hr]
    trivial
  refine ⟨hw, ?_⟩
  obtain ⟨b, hb, inv, -, -, -⟩ := assemble (H := H) (debug := true)
    (ls := [exLib1 n!"A" n!"T" [⟨Id32.rep 9, n!"B"⟩] exFullTuple])
    (by intro l hl; rw [List.mem_singleton] at hl; subst hl; exact hw.types)
  have hi : exFullTuple.inlineDefs H = [] := by
    simp only [Ty.inlineDefs, List.flatMap_eq_nil_iff]
    intro r hr
    simp only [exFullTuple, Ty.refs] at hr
    rw [List.eq_of_mem_replicate hr]
    rfl
  have ht : b.types = [(exFullTuple.semIdNamed H LibRef.commit n!"T",
      ⟨some ⟨n!"A", n!"T"⟩, exFullTuple.mapRefs (LibRef.semId H)⟩)] := by
    rw [inv.types]
    simp [allDefs, TypeLib.defs, exLib1, hi, OMap.insert]
  have hp : (exFullTuple.mapRefs (LibRef.semId H)).WF := by
    simp [exFullTuple, Ty.mapRefs, Ty.WF, -List.reduceReplicate]
  have hl : (exFullTuple.mapRefs (LibRef.semId H)).refs.length = 255 := by
    simp [exFullTuple, Ty.mapRefs, Ty.refs, -List.reduceReplicate]
  simp only [assembleSys, hb, Out.mapErr, Out.bind_ok, SystemBuilder.finalize, ht, innerErrors,
    Ty.iterRefs_panic hp hl, Out.bind_panic]

/-! ### Example: two libraries, one depending on the other -/

/-- A library with an enum. -/
def exBase : TypeLib := exLib1 n!"Base" n!"Kind" [] (.enum [⟨n!"x", 0⟩, ⟨n!"y", 1⟩])
/-- Id of the enum. -/
def exKind : SemId := (Ty.enum [⟨n!"x", 0⟩, ⟨n!"y", 1⟩]).semIdNamed toyHash LibRef.commit n!"Kind"
/-- A library depending on the first. -/
def exTop : TypeLib := ⟨n!"Top", [⟨exBase.id toyHash, n!"Base"⟩], [(n!"Base", [(exKind, n!"Kind")])],
  [(n!"Rec", .struct [(n!"kind", .extern ⟨exBase.id toyHash, exKind⟩),
    (n!"data", .inline (.list (.inline .BYTE) ⟨0, 255⟩))])]⟩

theorem exBase_wf : exBase.WF :=
  exLib1_wf (by simp [DepsSorted]) (by simp) ⟨by decide, by simp [Ty.refs]⟩

theorem exTop_wf : exTop.WF := by
  constructor
  · simp [exTop, OMap.Sorted]
  · simp [exTop]
  · simp [exTop]
  · simp [exTop, DepsSorted]
  · simp [exTop]
  · simp [exTop, OMap.Sorted]
  · simp [exTop]
  · intro p hp
    simp only [exTop, List.mem_singleton] at hp
    subst hp
    simp [OMap.Sorted]
  · intro p hp
    simp only [exTop, List.mem_singleton] at hp
    subst hp
    refine ⟨by decide, ?_⟩
    intro r hr
    simp only [Ty.refs, List.map_cons, List.map_nil, List.mem_cons, List.not_mem_nil,
      or_false] at hr
    rcases hr with rfl | rfl
    · trivial
    · refine ⟨by decide, ?_⟩
      intro r hr
      simp only [Ty.refs, List.mem_singleton] at hr
      subst hr
      exact ⟨by decide, by simp [Ty.refs]⟩

/-- The outcome of a function that returned a value. -/
def Out.get? {ε α : Type} : Out ε α → Option α
  | .ok a => some a
  | _ => none

example : ((assembleSys toyHash true [exTop, exBase]).get?.map fun s => s.types.length) = some 4 := by
  decide +kernel
example : assembleSys toyHash true [exTop] =
    .err [.absentImport ⟨exBase.id toyHash, n!"Base"⟩] := by decide +kernel
example : Missing toyHash [exTop] ⟨exBase.id toyHash, n!"Base"⟩ := by
  refine ⟨⟨exTop, by simp, by simp [exTop]⟩, ?_⟩
  rintro ⟨l, hl, e⟩
  rw [List.mem_singleton] at hl
  subst hl
  revert e
  decide +kernel

/-! ## C14 -/

/-- A tuple of two references to types defined nowhere. -/
def exDangling : TypeLib :=
  exLib1 n!"A" n!"T" [] (.tuple [.named (Id32.rep 1), .named (Id32.rep 2)])

theorem exDangling_wf : exDangling.WF :=
  exLib1_wf (by simp [DepsSorted]) (by simp) ⟨by decide, by simp [Ty.refs, LibRef.Deep]⟩

theorem assembleSys_single {H : Hash} {debug : Bool} {l : TypeLib} (hw : l.WF)
    (hd : l.dependencies = []) (hf : ∀ p ∈ l.defs H, p.2.ty.refs.length < 255)
    (hl : (l.defs H).length ≤ 2 ^ 24 - 1) : ∃ s, assembleSys H debug [l] = .ok s := by
  apply C13_complete_succeeds
  · intro m hm; rw [List.mem_singleton] at hm; subst hm; exact hw
  · intro _ p hp; exact hf p (by simpa [allDefs] using hp)
  · refine ⟨⟨[l.id H], by simp, by simp⟩, (l.defs H).map Prod.fst, by simpa using hl, ?_⟩
    intro p hp
    exact List.mem_map.mpr ⟨p, by simpa [allDefs] using hp, rfl⟩
  · intro m hm d hd'; rw [List.mem_singleton] at hm; subst hm; rw [hd] at hd'; cases hd'

/-- **C14 is violated**: for every hash function, a library with references to types that exist
nowhere is assembled into a type system that is not complete; the check of
`src/typesys/translate.rs:127` looks up the wrong id. -/
theorem C14_complete_violated (H : Hash) (debug : Bool) :
    ∃ s, assembleSys H debug [exDangling] = .ok s ∧ ¬ s.types.Closed := by
  obtain ⟨s, hs⟩ := assembleSys_single (H := H) (debug := debug) exDangling_wf rfl
    (by intro p hp
        simp only [TypeLib.defs, exDangling, exLib1, Ty.inlineDefs, Ty.refs, LibRef.defs,
          List.flatMap_cons, List.flatMap_nil, List.nil_append, List.append_nil,
          List.mem_singleton] at hp
        subst hp
        simp [Ty.mapRefs, Ty.refs])
    (by simp [TypeLib.defs, exDangling, exLib1, Ty.inlineDefs, Ty.refs, LibRef.defs])
  refine ⟨s, hs, ?_⟩
  obtain ⟨b, inv, -, -, -, rfl⟩ := assembleSys_ok
    (by intro l hl; rw [List.mem_singleton] at hl; subst hl; exact exDangling_wf) hs
  have ht : b.types = [((Ty.tuple [LibRef.named (Id32.rep 1), .named (Id32.rep 2)]).semIdNamed H
      LibRef.commit n!"T", ⟨some ⟨n!"A", n!"T"⟩, .tuple [Id32.rep 1, Id32.rep 2]⟩)] := by
    rw [inv.types]
    simp [allDefs, TypeLib.defs, exDangling, exLib1, Ty.inlineDefs, Ty.refs, LibRef.defs,
      OMap.insert, Ty.mapRefs, LibRef.semId]
  intro hc
  have h1 := hc _ (.tuple [Id32.rep 1, Id32.rep 2]) (by rw [ht]; simp [typesOf, OMap.get]; rfl)
  obtain ⟨u, hu⟩ := h1 (Id32.rep 1) (by simp [Ty.refs])
  obtain ⟨v, hv⟩ := h1 (Id32.rep 2) (by simp [Ty.refs])
  rw [ht] at hu hv
  simp only [typesOf, List.map_cons, List.map_nil, OMap.get] at hu hv
  split at hu
  · rename_i e1
    split at hv
    · rename_i e2
      exact absurd (e1.symm.trans e2) (by decide)
    · cases hv
  · cases hu

/-- Every type the library refers to is declared by one of the libraries `ls`. -/
def TypeLib.Linked (H : Hash) (ls : List TypeLib) (l : TypeLib) : Prop :=
  ∀ p ∈ l.types, ∀ r ∈ p.2.refs,
    (∀ id ∈ r.locals, ∃ m ∈ ls, ∃ n, m.Declares H n id) ∧
    (∀ e ∈ r.externs, ∃ m ∈ ls, ∃ n, m.Declares H n e.semId)

theorem declares_def {H : Hash} {ls : List TypeLib} {l : TypeLib} {n : Name} {id : SemId}
    (hl : l ∈ ls) (h : l.Declares H n id) : ∃ t, (n, t) ∈ l.types ∧
      (id, (⟨some ⟨l.name, n⟩, t.mapRefs (LibRef.semId H)⟩ : SymTy)) ∈ allDefs H ls := by
  obtain ⟨t, ht, rfl⟩ := h
  refine ⟨t, ht, List.mem_flatMap.mpr ⟨l, hl, List.mem_flatMap.mpr ⟨(n, t), ht, ?_⟩⟩⟩
  simp

theorem types_get_isSome {H : Hash} {ls : List TypeLib} {b : SystemBuilder} (inv : ImportInv H ls b)
    (id : SemId) : (b.types.get id).isSome ↔ ∃ p ∈ allDefs H ls, p.1 = id := by
  rw [inv.types, foldl_insert_get]
  simp [OMap.get]

/-- A reference of a definition is defined next to it, or is a reference of the library. -/
theorem InlineRef1.defs_refs {H : Hash} {r : InlineRef1} :
    (∀ p ∈ r.defs H, ∀ i ∈ p.2.ty.refs, (∃ q ∈ r.defs H, q.1 = i) ∨ i ∈ r.locals ∨
      ∃ e ∈ r.externs, e.semId = i) ∧
    ((∃ q ∈ r.defs H, q.1 = r.semId H) ∨ r.semId H ∈ r.locals ∨
      ∃ e ∈ r.externs, e.semId = r.semId H) := by
  cases r with
  | inline t =>
    refine ⟨?_, Or.inl ⟨_, List.mem_singleton.mpr rfl, rfl⟩⟩
    intro p hp i hi
    simp only [defs, List.mem_singleton] at hp
    subst hp
    simp only [Ty.refs_mapRefs, List.mem_map] at hi
    obtain ⟨x, hx, rfl⟩ := hi
    right
    cases x with
    | named id => exact Or.inl (List.mem_flatMap.mpr ⟨_, hx, by simp [InlineRef2.locals, InlineRef2.semId]⟩)
    | extern e => exact Or.inr ⟨e, List.mem_flatMap.mpr ⟨_, hx, by simp [InlineRef2.externs]⟩, rfl⟩
  | named id => exact ⟨by simp [defs], by simp [locals, semId]⟩
  | extern e => exact ⟨by simp [defs], by simp [externs, semId]⟩

/-- As above. -/
theorem InlineRef.defs_refs {H : Hash} {r : InlineRef} :
    (∀ p ∈ r.defs H, ∀ i ∈ p.2.ty.refs, (∃ q ∈ r.defs H, q.1 = i) ∨ i ∈ r.locals ∨
      ∃ e ∈ r.externs, e.semId = i) ∧
    ((∃ q ∈ r.defs H, q.1 = r.semId H) ∨ r.semId H ∈ r.locals ∨
      ∃ e ∈ r.externs, e.semId = r.semId H) := by
  cases r with
  | inline t =>
    refine ⟨?_, Or.inl ⟨_, List.mem_append.mpr (Or.inr (List.mem_singleton.mpr rfl)), rfl⟩⟩
    have lift : ∀ x ∈ t.refs, ∀ i, ((∃ q ∈ x.defs H, q.1 = i) ∨ i ∈ x.locals ∨
        ∃ e ∈ x.externs, e.semId = i) → ((∃ q ∈ (inline t).defs H, q.1 = i) ∨
        i ∈ (inline t).locals ∨ ∃ e ∈ (inline t).externs, e.semId = i) := by
      rintro x hx i (⟨q, hq, e⟩ | h | ⟨e, he, h⟩)
      · exact Or.inl ⟨q, List.mem_append.mpr (Or.inl (List.mem_flatMap.mpr ⟨x, hx, hq⟩)), e⟩
      · exact Or.inr (Or.inl (List.mem_flatMap.mpr ⟨x, hx, h⟩))
      · exact Or.inr (Or.inr ⟨e, List.mem_flatMap.mpr ⟨x, hx, he⟩, h⟩)
    intro p hp i hi
    simp only [defs, List.mem_append, List.mem_flatMap, List.mem_singleton] at hp
    rcases hp with ⟨x, hx, hp⟩ | rfl
    · exact lift x hx i (InlineRef1.defs_refs.1 p hp i hi)
    · simp only [Ty.refs_mapRefs, List.mem_map] at hi
      obtain ⟨x, hx, rfl⟩ := hi
      exact lift x hx _ InlineRef1.defs_refs.2
  | named id => exact ⟨by simp [defs], by simp [locals, semId]⟩
  | extern e => exact ⟨by simp [defs], by simp [externs, semId]⟩

/-- As above. -/
theorem LibRef.defs_refs {H : Hash} {r : LibRef} :
    (∀ p ∈ r.defs H, ∀ i ∈ p.2.ty.refs, (∃ q ∈ r.defs H, q.1 = i) ∨ i ∈ r.locals ∨
      ∃ e ∈ r.externs, e.semId = i) ∧
    ((∃ q ∈ r.defs H, q.1 = r.semId H) ∨ r.semId H ∈ r.locals ∨
      ∃ e ∈ r.externs, e.semId = r.semId H) := by
  cases r with
  | inline t =>
    refine ⟨?_, Or.inl ⟨_, List.mem_append.mpr (Or.inr (List.mem_singleton.mpr rfl)), rfl⟩⟩
    have lift : ∀ x ∈ t.refs, ∀ i, ((∃ q ∈ x.defs H, q.1 = i) ∨ i ∈ x.locals ∨
        ∃ e ∈ x.externs, e.semId = i) → ((∃ q ∈ (inline t).defs H, q.1 = i) ∨
        i ∈ (inline t).locals ∨ ∃ e ∈ (inline t).externs, e.semId = i) := by
      rintro x hx i (⟨q, hq, e⟩ | h | ⟨e, he, h⟩)
      · exact Or.inl ⟨q, List.mem_append.mpr (Or.inl (List.mem_flatMap.mpr ⟨x, hx, hq⟩)), e⟩
      · exact Or.inr (Or.inl (List.mem_flatMap.mpr ⟨x, hx, h⟩))
      · exact Or.inr (Or.inr ⟨e, List.mem_flatMap.mpr ⟨x, hx, he⟩, h⟩)
    intro p hp i hi
    simp only [defs, List.mem_append, List.mem_flatMap, List.mem_singleton] at hp
    rcases hp with ⟨x, hx, hp⟩ | rfl
    · exact lift x hx i (InlineRef.defs_refs.1 p hp i hi)
    · simp only [Ty.refs_mapRefs, List.mem_map] at hi
      obtain ⟨x, hx, rfl⟩ := hi
      exact lift x hx _ InlineRef.defs_refs.2
  | named id => exact ⟨by simp [defs], by simp [locals, semId]⟩
  | extern e => exact ⟨by simp [defs], by simp [externs, semId]⟩

/-- **C14, what holds**, for all libraries: a reference inside an assembled system that does not
resolve is written in one of the libraries (as a local or external reference) and no library
declares its target. In particular references to inline types always resolve, and if every reference
of the libraries is declared by one of them, the system is complete. Missing: libraries with
references declared nowhere are not refused, see `C14_complete_violated`. -/
theorem C14_complete_partial (H : Hash) (debug : Bool) (ls : List TypeLib) (s : SymbolicSys)
    (hw : ∀ l ∈ ls, l.WF) (h : assembleSys H debug ls = .ok s) :
    (∀ id t, s.types.get id = some t → ∀ i ∈ t.refs, s.types.get i = none →
      (∃ l ∈ ls, ∃ p ∈ l.types, ∃ r ∈ p.2.refs, i ∈ r.locals ∨ ∃ e ∈ r.externs, e.semId = i) ∧
      ∀ l ∈ ls, ∀ n, ¬ l.Declares H n i) ∧
    ((∀ l ∈ ls, l.Linked H ls) → s.types.Closed) := by
  obtain ⟨b, inv, -, hsub, -, rfl⟩ := assembleSys_ok hw h
  have main : ∀ id t, (typesOf b.types).get id = some t → ∀ i ∈ t.refs,
      (typesOf b.types).get i = none →
      (∃ l ∈ ls, ∃ p ∈ l.types, ∃ r ∈ p.2.refs, i ∈ r.locals ∨ ∃ e ∈ r.externs, e.semId = i) ∧
      ∀ l ∈ ls, ∀ n, ¬ l.Declares H n i := by
    intro id t hg i hi hn
    rw [typesOf_get] at hg hn
    have hn : b.types.get i = none := by simpa using hn
    have hnd : ¬ ∃ p ∈ allDefs H ls, p.1 = i := by
      rw [← types_get_isSome inv, hn]; simp
    refine ⟨?_, ?_⟩
    · cases hb : b.types.get id with
      | none => rw [hb] at hg; cases hg
      | some info =>
        rw [hb] at hg
        simp only [Option.map_some, Option.some.injEq] at hg
        subst hg
        have hmem := hsub _ (OMap.get_mem hb)
        simp only [allDefs, TypeLib.defs, List.mem_flatMap, List.mem_append,
          List.mem_singleton] at hmem
        obtain ⟨l, hl, p, hp, hd⟩ := hmem
        have fin : ∀ r ∈ p.2.refs, ((∃ q ∈ r.defs H, q.1 = i) ∨ i ∈ r.locals ∨
            ∃ e ∈ r.externs, e.semId = i) → ∃ l ∈ ls, ∃ p ∈ l.types, ∃ r ∈ p.2.refs,
            i ∈ r.locals ∨ ∃ e ∈ r.externs, e.semId = i := by
          rintro r hr (⟨q, hq, e⟩ | hc)
          · refine absurd ⟨q, ?_, e⟩ hnd
            simp only [allDefs, TypeLib.defs, List.mem_flatMap, List.mem_append]
            exact ⟨l, hl, p, hp, Or.inl (List.mem_flatMap.mpr ⟨r, hr, hq⟩)⟩
          · exact ⟨l, hl, p, hp, r, hr, hc⟩
        rcases hd with hd | hd
        · obtain ⟨r, hr, hd⟩ := List.mem_flatMap.mp hd
          exact fin r hr (LibRef.defs_refs.1 _ hd i hi)
        · simp only [Prod.mk.injEq] at hd
          rw [hd.2] at hi
          simp only [Ty.refs_mapRefs, List.mem_map] at hi
          obtain ⟨r, hr, rfl⟩ := hi
          exact fin r hr LibRef.defs_refs.2
    · intro l hl n hdec
      obtain ⟨t', -, ht⟩ := declares_def hl hdec
      exact hnd ⟨_, ht, rfl⟩
  refine ⟨main, fun hlink id t hg i hi => ?_⟩
  cases hn : (typesOf b.types).get i with
  | some u => exact ⟨u, rfl⟩
  | none =>
    obtain ⟨⟨l, hl, p, hp, r, hr, hc⟩, hno⟩ := main id t hg i hi hn
    rcases hc with hc | ⟨e, he, rfl⟩
    · obtain ⟨m, hm, n, hd⟩ := (hlink l hl p hp r hr).1 i hc
      exact absurd hd (hno m hm n)
    · obtain ⟨m, hm, n, hd⟩ := (hlink l hl p hp r hr).2 e he
      exact absurd hd (hno m hm n)

example : exTop.Linked toyHash [exTop, exBase] := by
  intro p hp r hr
  simp only [exTop, List.mem_singleton] at hp
  subst hp
  simp only [Ty.refs, List.map_cons, List.map_nil, List.mem_cons, List.not_mem_nil, or_false] at hr
  rcases hr with rfl | rfl
  · refine ⟨by simp [LibRef.locals], ?_⟩
    intro e he
    simp only [LibRef.externs, List.mem_singleton] at he
    subst he
    exact ⟨exBase, by simp, n!"Kind", _, by simp [exBase, exLib1], rfl⟩
  · simp [LibRef.locals, LibRef.externs, Ty.refs, InlineRef.locals, InlineRef.externs,
      Ty.BYTE]

/-! ## C15 and C58 -/

/-- The two types of `C03_inline_commitment_violated`, one level deeper. -/
def exInNarrow : Ty InlineRef := .struct [(n!"a", .inline (.enum [⟨n!"x", 0⟩])),
  (n!"y", .inline .unicodeChar), (n!"b", .inline (.primitive 1))]
/-- See `exInNarrow`. -/
def exInWide : Ty InlineRef := .struct [(n!"a", .inline (.enum [⟨n!"x", 0⟩, ⟨n!"y", 1⟩])),
  (n!"b", .inline (.primitive 1))]

/-- One library with both of them as inline types. -/
def exMixed : TypeLib := ⟨n!"A", [], [], [
  (n!"Narrow", .tuple [.inline exInNarrow]), (n!"Wide", .tuple [.inline exInWide])]⟩

theorem foldl_insert_last {K V : Type} [DecidableEq K] [KeyOrd K] [LawfulKeyOrd K]
    (as bs : List (K × V)) (k : K) (v : V) (m : OMap K V) :
    ∃ v', (v' = v ∨ (k, v') ∈ bs) ∧
      ((as ++ (k, v) :: bs).foldl (fun m p => OMap.insert m p.1 p.2) m).get k = some v' := by
  rw [List.foldl_append, List.foldl_cons]
  generalize as.foldl (fun m p => OMap.insert m p.1 p.2) m = m
  have key : ∀ (bs : List (K × V)) (m : OMap K V) (v : V), m.get k = some v →
      ∃ v', (v' = v ∨ (k, v') ∈ bs) ∧
        (bs.foldl (fun m p => OMap.insert m p.1 p.2) m).get k = some v' := by
    intro bs
    induction bs with
    | nil => intro m v h; exact ⟨v, Or.inl rfl, h⟩
    | cons q bs ih =>
      intro m v h
      by_cases hq : q.1 = k
      · obtain ⟨v', h1, h2⟩ := ih (OMap.insert m q.1 q.2) q.2 (by rw [OMap.get_insert, if_pos hq])
        refine ⟨v', Or.inr ?_, h2⟩
        rcases h1 with rfl | h1
        · rw [← hq]; simp
        · simp [h1]
      · obtain ⟨v', h1, h2⟩ := ih (OMap.insert m q.1 q.2) v (by rw [OMap.get_insert, if_neg hq, h])
        refine ⟨v', ?_, h2⟩
        rcases h1 with h1 | h1
        · exact Or.inl h1
        · simp [h1]
  exact key bs _ v (by rw [OMap.get_insert, if_pos rfl])

theorem exMixed_wf : exMixed.WF := by
  constructor
  · simp only [exMixed, OMap.Sorted]; decide
  · simp [exMixed]
  · simp [exMixed]
  · simp [exMixed, DepsSorted]
  · simp [exMixed]
  · simp [exMixed, OMap.Sorted]
  · simp [exMixed]
  · simp [exMixed]
  · simp [exMixed, exInNarrow, exInWide, Ty.LibDeep, Ty.WF, Ty.refs, LibRef.Deep, InlineRef.Deep, VariantsWF]

theorem exMixed_defs (H : Hash) : ∃ a b c d e f, exMixed.defs H = [a, b, c,
      (exInNarrow.semIdUnnamed H InlineRef.commit, ⟨none, exInNarrow.mapRefs (InlineRef.semId H)⟩),
      d, e, f] ++
      (exInWide.semIdUnnamed H InlineRef.commit, ⟨none, exInWide.mapRefs (InlineRef.semId H)⟩) ::
      [((Ty.tuple [.inline exInWide]).semIdNamed H LibRef.commit n!"Wide",
        ⟨some ⟨n!"A", n!"Wide"⟩, .tuple [exInWide.semIdUnnamed H InlineRef.commit]⟩)] ∧
      a.2.ty.refs.length = 0 ∧ b.2.ty.refs.length = 0 ∧ c.2.ty.refs.length = 0 ∧
      d.2.ty.refs.length = 1 ∧ e.2.ty.refs.length = 0 ∧ f.2.ty.refs.length = 0 := by
  refine ⟨_, _, _, _, _, _, rfl, rfl, rfl, rfl, rfl, rfl, rfl⟩

/-- **C58 is violated**: for every hash function, a single library with two inline structs whose
commitments coincide (`C03_inline_commitment_violated`) is assembled into a system in which the first
of them has been replaced by something else. -/
theorem C58_definitions_violated (H : Hash) (debug : Bool) :
    ∃ s id, assembleSys H debug [exMixed] = .ok s ∧
      (id, ⟨none, exInNarrow.mapRefs (InlineRef.semId H)⟩) ∈ exMixed.defs H ∧
      s.types.get id ≠ some (exInNarrow.mapRefs (InlineRef.semId H)) := by
  obtain ⟨a, b, c, d, e, f, hdef, ha, hb, hc, hd, he, hf⟩ := exMixed_defs H
  obtain ⟨s, hs⟩ := assembleSys_single (H := H) (debug := debug) exMixed_wf rfl
    (by
      rw [hdef]
      intro p hp
      simp only [List.cons_append, List.nil_append, List.mem_cons, List.not_mem_nil, or_false] at hp
      rcases hp with h | h | h | h | h | h | h | h | h <;> rw [h] <;> first
        | omega
        | simp [Ty.refs, Ty.mapRefs, exInNarrow, exInWide])
    (by rw [hdef]; simp)
  refine ⟨s, exInNarrow.semIdUnnamed H InlineRef.commit, hs, by rw [hdef]; simp, ?_⟩
  obtain ⟨b', inv, -, -, -, rfl⟩ := assembleSys_ok
    (by intro l hl; rw [List.mem_singleton] at hl; subst hl; exact exMixed_wf) hs
  have hid : exInNarrow.semIdUnnamed H InlineRef.commit =
      exInWide.semIdUnnamed H InlineRef.commit := by
    rw [Ty.semIdUnnamed_eq, Ty.semIdUnnamed_eq]
    congr 1
  rw [typesOf_get, inv.types]
  simp only [allDefs, List.flatMap_cons, List.flatMap_nil, List.append_nil]
  rw [hdef, hid]
  obtain ⟨v', h1, h2⟩ := foldl_insert_last [a, b, c,
      (exInWide.semIdUnnamed H InlineRef.commit, ⟨none, exInNarrow.mapRefs (InlineRef.semId H)⟩),
      d, e, f]
    [((Ty.tuple [.inline exInWide]).semIdNamed H LibRef.commit n!"Wide",
        ⟨some ⟨n!"A", n!"Wide"⟩, .tuple [exInWide.semIdUnnamed H InlineRef.commit]⟩)]
    (exInWide.semIdUnnamed H InlineRef.commit) ⟨none, exInWide.mapRefs (InlineRef.semId H)⟩
    ([] : OMap SemId SymTy)
  rw [h2]
  rcases h1 with rfl | h1
  · simp [exInNarrow, exInWide, Ty.mapRefs]
  · simp only [List.mem_singleton, Prod.mk.injEq] at h1
    rw [h1.2]
    simp [exInNarrow, Ty.mapRefs]

/-! ## C58, what holds -/

/-- **C58, what holds**: nothing but definitions of the libraries gets into the system, every one
of their ids does, and if definitions with the same id are the same, every definition is found under
its id. Missing: libraries with different definitions of the same id, see
`C58_definitions_violated`. -/
theorem C58_definitions_partial (H : Hash) (debug : Bool) (ls : List TypeLib) (s : SymbolicSys)
    (hw : ∀ l ∈ ls, l.WF) (h : assembleSys H debug ls = .ok s) :
    (∀ id t, s.types.get id = some t → ∃ o, (id, ⟨o, t⟩) ∈ allDefs H ls) ∧
    (∀ p ∈ allDefs H ls, ∃ t, s.types.get p.1 = some t) ∧
    (Consistent (allDefs H ls) → ∀ p ∈ allDefs H ls, s.types.get p.1 = some p.2.ty) := by
  obtain ⟨b, inv, -, hsub, -, rfl⟩ := assembleSys_ok hw h
  have h1 : ∀ id t, (typesOf b.types).get id = some t → ∃ o, (id, ⟨o, t⟩) ∈ allDefs H ls := by
    intro id t hg
    rw [typesOf_get, Option.map_eq_some_iff] at hg
    obtain ⟨info, hi, rfl⟩ := hg
    exact ⟨info.orig, hsub _ (OMap.get_mem hi)⟩
  have h2 : ∀ p ∈ allDefs H ls, ∃ t, (typesOf b.types).get p.1 = some t := by
    intro p hp
    have := (types_get_isSome inv p.1).mpr ⟨p, hp, rfl⟩
    obtain ⟨x, hx⟩ := Option.isSome_iff_exists.mp this
    exact ⟨x.ty, by rw [typesOf_get, hx]; rfl⟩
  refine ⟨h1, h2, fun hc p hp => ?_⟩
  obtain ⟨t, ht⟩ := h2 p hp
  obtain ⟨o, ho⟩ := h1 _ _ ht
  exact ht.trans (congrArg some (hc _ ho p hp rfl))

theorem inlineFree_defs {H : Hash} {t : Ty LibRef} (h : t.InlineFree) : t.inlineDefs H = [] := by
  simp only [Ty.inlineDefs, List.flatMap_eq_nil_iff]
  intro r hr
  obtain ⟨id, hid⟩ := h r hr
  cases r with
  | inline t => cases hid
  | named => rfl
  | extern => rfl

theorem sameTarget_mapRefs {H : Hash} {t u : Ty LibRef} (h : Ty.Rel LibRef.SameTarget t u) :
    t.mapRefs (LibRef.semId H) = u.mapRefs (LibRef.semId H) := by
  have hid : ∀ r s : LibRef, r.SameTarget s → r.semId H = s.semId H := by
    rintro r s ⟨id, h1, h2⟩
    cases r <;> cases s <;> simp_all [LibRef.target, LibRef.semId]
  have hl : ∀ (κ : Type) (l m : List (κ × LibRef)),
      All2 (fun p q => p.1 = q.1 ∧ LibRef.SameTarget p.2 q.2) l m →
      l.map (fun p => (p.1, p.2.semId H)) = m.map (fun p => (p.1, p.2.semId H)) := by
    intro κ l
    induction l with
    | nil => intro m hm; cases m with
      | nil => rfl
      | cons => exact hm.elim
    | cons a l ih => intro m hm; cases m with
      | nil => exact hm.elim
      | cons b m =>
        simp only [List.map_cons]
        rw [ih m hm.2, hm.1.1, hid _ _ hm.1.2]
  have hl' : ∀ (l m : List LibRef), All2 LibRef.SameTarget l m →
      l.map (LibRef.semId H) = m.map (LibRef.semId H) := by
    intro l
    induction l with
    | nil => intro m hm; cases m with
      | nil => rfl
      | cons => exact hm.elim
    | cons a l ih => intro m hm; cases m with
      | nil => exact hm.elim
      | cons b m => simp only [List.map_cons]; rw [ih m hm.2, hid _ _ hm.1]
  cases t <;> cases u <;> simp only [Ty.Rel] at h
  case primitive => rw [h]
  case unicodeChar => rfl
  case enum => rw [h]
  case union => simp only [Ty.mapRefs]; rw [hl _ _ _ h]
  case tuple => simp only [Ty.mapRefs]; rw [hl' _ _ h]
  case struct => simp only [Ty.mapRefs]; rw [hl _ _ _ h]
  case array => simp only [Ty.mapRefs]; rw [hid _ _ h.1, h.2]
  case list => simp only [Ty.mapRefs]; rw [hid _ _ h.1, h.2]
  case set => simp only [Ty.mapRefs]; rw [hid _ _ h.1, h.2]
  case map => simp only [Ty.mapRefs]; rw [hid _ _ h.1, hid _ _ h.2.1, h.2.2]

theorem namedText_mem {ls : List TypeLib} {l : TypeLib} (hl : l ∈ ls) {p : Name × Ty LibRef} (hp : p ∈ l.types) :
    p.1.commit ++ p.2.commit LibRef.commit ∈ ls.flatMap TypeLib.namedTexts :=
  List.mem_flatMap.mpr ⟨l, hl, List.mem_map.mpr ⟨p, hp, rfl⟩⟩

/-- Libraries without inline types define no id in two ways, or the hash collided. -/
theorem consistent_of_inlineFree (H : Hash) {ls : List TypeLib}
    (hf : ∀ l ∈ ls, ∀ p ∈ l.types, p.2.InlineFree) : Consistent (allDefs H ls) ∨ Collision H (· ∈ ls.flatMap TypeLib.namedTexts) := by
  apply Classical.or_iff_not_imp_right.mpr
  intro hn p hp q hq e
  have form : ∀ p ∈ allDefs H ls, ∃ l ∈ ls, ∃ x ∈ l.types,
      p = (x.2.semIdNamed H LibRef.commit x.1, ⟨some ⟨l.name, x.1⟩, x.2.mapRefs (LibRef.semId H)⟩) := by
    intro p hp
    simp only [allDefs, TypeLib.defs, List.mem_flatMap, List.mem_append, List.mem_singleton] at hp
    obtain ⟨l, hl, x, hx, hp⟩ := hp
    rw [inlineFree_defs (hf l hl x hx)] at hp
    rcases hp with hp | hp
    · cases hp
    · exact ⟨l, hl, x, hx, hp⟩
  obtain ⟨l, hl, x, hx, rfl⟩ := form p hp
  obtain ⟨m, hm, y, hy, rfl⟩ := form q hq
  rcases C02_named_sem_id_injective H x.1 y.1 x.2 y.2 (hf l hl x hx) (hf m hm y hy) e with
    ⟨-, h⟩ | h
  · exact sameTarget_mapRefs h
  · exact absurd ⟨_, _, namedText_mem hl hx, namedText_mem hm hy, h⟩ hn

/-- **C58, what holds** for libraries without inline types: every declared type is found under its id
with its definition, or the hash collided. -/
theorem C58_inline_free_partial (H : Hash) (debug : Bool) (ls : List TypeLib) (s : SymbolicSys)
    (hw : ∀ l ∈ ls, l.WF) (hf : ∀ l ∈ ls, ∀ p ∈ l.types, p.2.InlineFree)
    (h : assembleSys H debug ls = .ok s) :
    (∀ l ∈ ls, ∀ n t, (n, t) ∈ l.types →
      s.types.get (t.semIdNamed H LibRef.commit n) = some (t.mapRefs (LibRef.semId H))) ∨
    Collision H (· ∈ ls.flatMap TypeLib.namedTexts) := by
  refine (consistent_of_inlineFree H hf).imp_left fun hc l hl n t ht => ?_
  have := (C58_definitions_partial H debug ls s hw h).2.2 hc
  refine this (_, ⟨some ⟨l.name, n⟩, _⟩) (List.mem_flatMap.mpr ⟨l, hl, List.mem_flatMap.mpr
    ⟨(n, t), ht, List.mem_append_right _ (List.mem_singleton.mpr rfl)⟩⟩)

theorem osorted_ext {K : Type} [KeyOrd K] [DecidableEq K] [LawfulKeyOrd K] {s t : OSet K}
    (hs : s.Sorted) (ht : t.Sorted) (h : ∀ k, k ∈ s ↔ k ∈ t) : s = t := by
  induction s generalizing t with
  | nil =>
    cases t with
    | nil => rfl
    | cons b t => exact absurd ((h b).mpr (by simp)) (by simp)
  | cons a s ih =>
    cases t with
    | nil => exact absurd ((h a).mp (by simp)) (by simp)
    | cons b t =>
      simp only [OSet.Sorted, List.pairwise_cons] at hs ht
      have hab : a = b := by
        rcases List.mem_cons.mp ((h a).mp (by simp)) with e | ha
        · exact e
        · rcases List.mem_cons.mp ((h b).mpr (by simp)) with e | hb
          · exact e.symm
          · have := LawfulKeyOrd.trans _ _ _ (hs.1 b hb) (ht.1 a ha)
            rw [LawfulKeyOrd.irrefl] at this
            cases this
      subst hab
      congr 1
      refine ih hs.2 ht.2 fun k => ⟨fun hk => ?_, fun hk => ?_⟩
      · rcases List.mem_cons.mp ((h k).mp (by simp [hk])) with rfl | e
        · exact absurd rfl (KeyOrd.ne_of_lt (hs.1 k hk))
        · exact e
      · rcases List.mem_cons.mp ((h k).mpr (by simp [hk])) with rfl | e
        · exact absurd rfl (KeyOrd.ne_of_lt (ht.1 k hk))
        · exact e

theorem allDefs_perm {H : Hash} {ls ms : List TypeLib} (hp : ls.Perm ms) (p : SemId × SymTy) :
    p ∈ allDefs H ls ↔ p ∈ allDefs H ms := by
  simp only [allDefs, List.mem_flatMap, hp.mem_iff]

theorem keys_perm {H : Hash} {ls ms : List TypeLib} (hp : ls.Perm ms) {b c : SystemBuilder}
    (ib : ImportInv H ls b) (ic : ImportInv H ms c) (sb : b.types.Sorted) (sc : c.types.Sorted) :
    b.types.map Prod.fst = c.types.map Prod.fst := by
  refine osorted_ext (List.pairwise_map.mpr sb) (List.pairwise_map.mpr sc) fun k => ?_
  have e : ∀ (m : OMap SemId SymTy), k ∈ m.map Prod.fst ↔ (m.get k).isSome := fun m =>
    OMap.get_isSome_iff.symm
  rw [e, e, types_get_isSome ib, types_get_isSome ic]
  simp only [allDefs_perm hp]

theorem imported_perm {H : Hash} {ls ms : List TypeLib} (hp : ls.Perm ms) {b c : SystemBuilder}
    (ib : ImportInv H ls b) (ic : ImportInv H ms c) :
    b.imported.map Dependency.id = c.imported.map Dependency.id := by
  refine osorted_ext (List.pairwise_map.mpr ib.sorted) (List.pairwise_map.mpr ic.sorted) fun k => ?_
  simp only [List.mem_map]
  rw [ib.imported, ic.imported]
  simp only [hp.mem_iff]

/-! ## C15 -/

/-- **C15**, ids: importing the same libraries in any order gives systems with exactly the same type
ids, the same type system id and the same library ids. -/
theorem C15_same_ids (H : Hash) (debug : Bool) (ls ms : List TypeLib) (s r : SymbolicSys)
    (hw : ∀ l ∈ ls, l.WF) (hp : ls.Perm ms) (h1 : assembleSys H debug ls = .ok s)
    (h2 : assembleSys H debug ms = .ok r) :
    s.types.keys = r.types.keys ∧ TypeSystem.id H s.types = TypeSystem.id H r.types ∧
    s.symbols.libs.map Dependency.id = r.symbols.libs.map Dependency.id := by
  obtain ⟨b, ib, sb, -, -, rfl⟩ := assembleSys_ok hw h1
  obtain ⟨c, ic, sc, -, -, rfl⟩ := assembleSys_ok (fun l hl => hw l (hp.mem_iff.mpr hl)) h2
  have hk : (typesOf b.types).keys = (typesOf c.types).keys := by
    have := keys_perm hp ib ic sb sc
    simpa [OMap.keys, typesOf, Function.comp_def] using this
  refine ⟨hk, ?_, imported_perm hp ib ic⟩
  have hl : (typesOf b.types).length = (typesOf c.types).length := by
    have := congrArg List.length hk
    simpa [OMap.keys] using this
  simp only [TypeSystem.id, TypeSystem.commit, hk, hl]

/-- **C15**, outcome: the order does not decide whether assembling succeeds or fails (in builds with
overflow checks, if no type has 255 references), and the same dependency ids are reported absent. -/
theorem C15_same_outcome (H : Hash) (debug : Bool) (ls ms : List TypeLib)
    (hw : ∀ l ∈ ls, l.WF) (hf : FewRefs H debug ls) (hp : ls.Perm ms) :
    (∃ s r, assembleSys H debug ls = .ok s ∧ assembleSys H debug ms = .ok r) ∨
    (∃ es fs, assembleSys H debug ls = .err es ∧ assembleSys H debug ms = .err fs ∧
      ∀ i, (∃ d, .absentImport d ∈ es ∧ d.id = i) ↔ ∃ d, .absentImport d ∈ fs ∧ d.id = i) := by
  obtain ⟨b, ib, sb, mb, ob⟩ := assembleSys_cases (H := H) (debug := debug) hw
  obtain ⟨c, ic, sc, mc, oc⟩ := assembleSys_cases (H := H) (debug := debug)
    (ls := ms) fun l hl => hw l (hp.mem_iff.mpr hl)
  have ob : assembleSys H debug ls = b.result := by
    rcases ob with h | ⟨-, hd, p, hp', hl⟩
    · exact h
    · have := hf hd p (mb p hp'); omega
  have oc : assembleSys H debug ms = c.result := by
    rcases oc with h | ⟨-, hd, p, hp', hl⟩
    · exact h
    · have := hf hd p ((allDefs_perm hp p).mpr (mc p hp')); omega
  have hpend : ∀ i, (∃ d ∈ b.pending, d.id = i) ↔ ∃ d ∈ c.pending, d.id = i := by
    intro i
    rw [ib.pending, ic.pending]
    simp only [hp.mem_iff]
  have hnil : b.pending = [] ↔ c.pending = [] := by
    constructor
    · intro e
      rw [List.eq_nil_iff_forall_not_mem]
      intro d hd
      obtain ⟨x, hx, -⟩ := (hpend d.id).mpr ⟨d, hd, rfl⟩
      rw [e] at hx; cases hx
    · intro e
      rw [List.eq_nil_iff_forall_not_mem]
      intro d hd
      obtain ⟨x, hx, -⟩ := (hpend d.id).mp ⟨d, hd, rfl⟩
      rw [e] at hx; cases hx
  have l1 : b.types.length = c.types.length := by
    simpa using congrArg List.length (keys_perm hp ib ic sb sc)
  have l2 : b.imported.length = c.imported.length := by
    simpa using congrArg List.length (imported_perm hp ib ic)
  rw [ob, oc, SystemBuilder.result, SystemBuilder.result]
  by_cases hb : b.pending = []
  · rw [if_pos hb, if_pos (hnil.mp hb), l1, l2]
    split
    · exact Or.inl ⟨_, _, rfl, rfl⟩
    · exact Or.inr ⟨_, _, rfl, rfl, fun i => Iff.rfl⟩
  · rw [if_neg hb, if_neg fun h => hb (hnil.mpr h)]
    refine Or.inr ⟨_, _, rfl, rfl, fun i => ?_⟩
    have e : ∀ l : List Dependency, (∃ d, SysError.absentImport d ∈ l.map .absentImport ∧ d.id = i) ↔
        ∃ d ∈ l, d.id = i := by
      intro l
      simp
    rw [e, e]
    exact hpend i

/-- **C15, what holds** for the definitions: if definitions with the same id are the same, importing
in any order gives the same type system. Missing: libraries with different definitions of the same
id, see `C15_order_violated`. -/
theorem C15_same_types_partial (H : Hash) (debug : Bool) (ls ms : List TypeLib) (s r : SymbolicSys)
    (hw : ∀ l ∈ ls, l.WF) (hp : ls.Perm ms) (hc : Consistent (allDefs H ls))
    (h1 : assembleSys H debug ls = .ok s) (h2 : assembleSys H debug ms = .ok r) :
    s.types = r.types := by
  have hw' : ∀ l ∈ ms, l.WF := fun l hl => hw l (hp.mem_iff.mpr hl)
  have hc' : Consistent (allDefs H ms) := fun p hp' q hq =>
    hc p ((allDefs_perm hp p).mpr hp') q ((allDefs_perm hp q).mpr hq)
  have sorted : ∀ {ls : List TypeLib} {s : SymbolicSys}, (∀ l ∈ ls, l.WF) →
      assembleSys H debug ls = .ok s → s.types.Sorted := by
    intro ls s hw h
    obtain ⟨b, ib, sb, -, -, rfl⟩ := assembleSys_ok hw h
    exact List.pairwise_map.mpr sb
  obtain ⟨a1, a2, a3⟩ := C58_definitions_partial H debug ls s hw h1
  obtain ⟨b1, b2, b3⟩ := C58_definitions_partial H debug ms r hw' h2
  refine OMap.ext (sorted hw h1) (sorted hw' h2) fun id => Option.ext fun t => ⟨fun h => ?_, fun h => ?_⟩
  · obtain ⟨o, ho⟩ := a1 id t h
    exact b3 hc' _ ((allDefs_perm hp _).mp ho)
  · obtain ⟨o, ho⟩ := b1 id t h
    exact a3 hc _ ((allDefs_perm hp _).mpr ho)

/-- **C15, what holds** for libraries without inline types: the order does not matter at all, or
the hash collided. -/
theorem C15_inline_free_partial (H : Hash) (debug : Bool) (ls ms : List TypeLib) (s r : SymbolicSys)
    (hw : ∀ l ∈ ls, l.WF) (hf : ∀ l ∈ ls, ∀ p ∈ l.types, p.2.InlineFree) (hp : ls.Perm ms)
    (h1 : assembleSys H debug ls = .ok s) (h2 : assembleSys H debug ms = .ok r) :
    s.types = r.types ∨ Collision H (· ∈ ls.flatMap TypeLib.namedTexts) :=
  (consistent_of_inlineFree H hf).imp_left fun hc =>
    C15_same_types_partial H debug ls ms s r hw hp hc h1 h2


/-- Two libraries meeting the hypotheses of C15 and C58, which assemble in both orders. -/
example : Consistent (allDefs toyHash [exBase, exTop]) ∧
    (assembleSys toyHash true [exBase, exTop]).get?.isSome = true ∧
    (assembleSys toyHash true [exTop, exBase]).get?.isSome = true ∧
    [exBase, exTop].Perm [exTop, exBase] := by
  refine ⟨?_, by decide +kernel, by decide +kernel, List.Perm.swap _ _ _⟩
  unfold Consistent; decide +kernel

/-- A library without inline types. -/
example : ∀ p ∈ (exLib1 n!"Over" n!"Pair" [⟨exBase.id toyHash, n!"Base"⟩]
    (.tuple [.extern ⟨exBase.id toyHash, exKind⟩, .extern ⟨exBase.id toyHash, exKind⟩])).types,
    p.2.InlineFree := by
  simp [exLib1, Ty.InlineFree, Ty.refs, LibRef.target]

theorem assembleSys_ok_of {H : Hash} {debug : Bool} {ls : List TypeLib} (hw : ∀ l ∈ ls, l.WF)
    (hd : ∀ l ∈ ls, l.dependencies = []) (hf : ∀ p ∈ allDefs H ls, p.2.ty.refs.length < 255)
    (hl : (allDefs H ls).length ≤ 2 ^ 24 - 1) (hn : ls.length ≤ 65535) :
    ∃ s, assembleSys H debug ls = .ok s := by
  apply C13_complete_succeeds H debug ls hw (fun _ => hf)
  · exact ⟨⟨ls.map (TypeLib.id H), by simpa using hn, fun l hl => List.mem_map.mpr ⟨l, hl, rfl⟩⟩,
      (allDefs H ls).map Prod.fst, by simpa using hl, fun p hp => List.mem_map.mpr ⟨p, hp, rfl⟩⟩
  · intro l hl d hd'; rw [hd l hl] at hd'; cases hd'

/-- **C15 is violated**: for every hash function there are two libraries such that the order of
importing them decides what the type found under an id is (the number of fields differs). -/
theorem C15_order_violated (H : Hash) (debug : Bool) :
    ∃ (l m : TypeLib) (s r : SymbolicSys) (id : SemId) (t u : Ty SemId), l.WF ∧ m.WF ∧
      assembleSys H debug [l, m] = .ok s ∧ assembleSys H debug [m, l] = .ok r ∧
      s.types.get id = some t ∧ r.types.get id = some u ∧ t.refs.length ≠ u.refs.length := by
  have w1 : (exLib1 n!"A" n!"T" [] exNarrow).WF := exLib1_wf (by simp [DepsSorted]) (by simp)
    ⟨by decide, by simp [Ty.refs, LibRef.Deep, exNarrow, Ty.WF, VariantsWF]⟩
  have w2 : (exLib1 n!"B" n!"T" [] exWide).WF := exLib1_wf (by simp [DepsSorted]) (by simp)
    ⟨by decide, by simp [Ty.refs, LibRef.Deep, exWide, Ty.WF, VariantsWF]⟩
  have hid : exNarrow.semIdNamed H LibRef.commit n!"T" = exWide.semIdNamed H LibRef.commit n!"T" :=
    C03_inline_commitment_violated.2.2.2 H n!"T"
  have d1 : ∃ a b c, (exLib1 n!"A" n!"T" [] exNarrow).defs H = [a, b, c] ++
      [(exNarrow.semIdNamed H LibRef.commit n!"T",
        ⟨some ⟨n!"A", n!"T"⟩, exNarrow.mapRefs (LibRef.semId H)⟩)] ∧
      a.2.ty.refs.length = 0 ∧ b.2.ty.refs.length = 0 ∧ c.2.ty.refs.length = 0 := ⟨_, _, _, rfl, rfl, rfl, rfl⟩
  have d2 : ∃ a b, (exLib1 n!"B" n!"T" [] exWide).defs H = [a, b] ++
      [(exWide.semIdNamed H LibRef.commit n!"T",
        ⟨some ⟨n!"B", n!"T"⟩, exWide.mapRefs (LibRef.semId H)⟩)] ∧
      a.2.ty.refs.length = 0 ∧ b.2.ty.refs.length = 0 := ⟨_, _, rfl, rfl, rfl⟩
  obtain ⟨a, b, c, d1, ha, hb, hc⟩ := d1
  obtain ⟨d, e, d2, hd, he⟩ := d2
  have hw : ∀ l ∈ [exLib1 n!"A" n!"T" [] exNarrow, exLib1 n!"B" n!"T" [] exWide], l.WF := by
    intro l hl
    simp only [List.mem_cons, List.not_mem_nil, or_false] at hl
    rcases hl with rfl | rfl
    · exact w1
    · exact w2
  have hw' : ∀ l ∈ [exLib1 n!"B" n!"T" [] exWide, exLib1 n!"A" n!"T" [] exNarrow], l.WF := by
    intro l hl
    simp only [List.mem_cons, List.not_mem_nil, or_false] at hl
    rcases hl with rfl | rfl
    · exact w2
    · exact w1
  have hdep : ∀ l ∈ [exLib1 n!"A" n!"T" [] exNarrow, exLib1 n!"B" n!"T" [] exWide],
      l.dependencies = [] := by
    intro l hl
    simp only [List.mem_cons, List.not_mem_nil, or_false] at hl
    rcases hl with rfl | rfl <;> rfl
  have hf : ∀ p ∈ allDefs H [exLib1 n!"A" n!"T" [] exNarrow, exLib1 n!"B" n!"T" [] exWide],
      p.2.ty.refs.length < 255 := by
    intro p hp
    simp only [allDefs, List.flatMap_cons, List.flatMap_nil, d1, d2, List.append_nil,
      List.cons_append, List.nil_append, List.mem_cons, List.not_mem_nil, or_false] at hp
    rcases hp with h | h | h | h | h | h | h <;> rw [h] <;> first
      | omega
      | simp [Ty.refs, exNarrow, exWide, Ty.mapRefs]
  obtain ⟨s, hs⟩ := assembleSys_ok_of (debug := debug) hw hdep hf
    (by simp [allDefs, d1, d2]) (by simp)
  obtain ⟨r, hr⟩ := assembleSys_ok_of (H := H) (debug := debug) hw'
    (fun l hl => hdep l (by simp only [List.mem_cons, List.not_mem_nil, or_false] at hl ⊢; exact hl.symm))
    (fun p hp => hf p ((allDefs_perm (List.Perm.swap _ _ _) p).mp hp))
    (by simp [allDefs, d1, d2]) (by simp)
  refine ⟨_, _, s, r, exNarrow.semIdNamed H LibRef.commit n!"T", exWide.mapRefs (LibRef.semId H),
    exNarrow.mapRefs (LibRef.semId H), w1, w2, hs, hr, ?_, ?_, ?_⟩
  · obtain ⟨b', inv, -, -, -, rfl⟩ := assembleSys_ok hw hs
    rw [typesOf_get, inv.types]
    simp only [allDefs, List.flatMap_cons, List.flatMap_nil, d1, d2, List.append_nil]
    rw [← List.append_assoc, List.foldl_append, List.foldl_cons, List.foldl_nil, hid,
      OMap.get_insert, if_pos rfl]
    rfl
  · obtain ⟨b', inv, -, -, -, rfl⟩ := assembleSys_ok hw' hr
    rw [typesOf_get, inv.types]
    simp only [allDefs, List.flatMap_cons, List.flatMap_nil, d1, d2, List.append_nil]
    rw [← List.append_assoc, List.foldl_append, List.foldl_cons, List.foldl_nil,
      OMap.get_insert, if_pos rfl]
    rfl
  · simp [Ty.refs, exNarrow, exWide, Ty.mapRefs]

/-! ## C16 -/

theorem symbolsOf_lookup (m : OMap SemId SymTy) (id : SemId) :
    ((symbolsOf m).find? fun p => p.id = id).bind TypeSymbol.fqn = (m.get id).bind SymTy.orig := by
  induction m with
  | nil => rfl
  | cons p m ih =>
    obtain ⟨k, v⟩ := p
    simp only [symbolsOf, List.map_cons, List.find?_cons, OMap.get_cons]
    by_cases h : k = id
    · simp [h]
    · simp only [h, decide_false, if_false]
      exact ih

theorem allDefs_orig {H : Hash} {ls : List TypeLib} {id : SemId} {fqn : TypeFqn} {t : Ty SemId}
    (h : (id, ⟨some fqn, t⟩) ∈ allDefs H ls) :
    ∃ l ∈ ls, l.name = fqn.lib ∧ l.Declares H fqn.name id := by
  have inl1 : ∀ r : InlineRef1, (id, ⟨some fqn, t⟩) ∉ r.defs H := by
    intro r; cases r <;> simp [InlineRef1.defs]
  have inl : ∀ r : InlineRef, (id, ⟨some fqn, t⟩) ∉ r.defs H := by
    intro r; cases r <;> simp [InlineRef.defs, inl1]
  have lib : ∀ r : LibRef, (id, ⟨some fqn, t⟩) ∉ r.defs H := by
    intro r; cases r <;> simp [LibRef.defs, inl]
  simp only [allDefs, TypeLib.defs, Ty.inlineDefs, List.mem_flatMap, List.mem_append,
    List.mem_singleton, Prod.mk.injEq] at h
  obtain ⟨l, hl, p, hp, ⟨r, -, h⟩ | ⟨h1, h2⟩⟩ := h
  · exact absurd h (lib r)
  · injection h2 with h2 h3
    injection h2 with h2
    subst h2
    exact ⟨l, hl, rfl, p.2, hp, h1.symm⟩

/-- **C16**, soundness: a name resolves only to the id of a type declared with that name in an
imported library of that name, looking that id up returns the name, and the system contains the
type. -/
theorem C16_resolve_sound (H : Hash) (debug : Bool) (ls : List TypeLib) (s : SymbolicSys)
    (fqn : TypeFqn) (id : SemId) (hw : ∀ l ∈ ls, l.WF) (h : assembleSys H debug ls = .ok s)
    (hr : s.resolve fqn = some id) :
    s.lookup id = some fqn ∧ (∃ l ∈ ls, l.name = fqn.lib ∧ l.Declares H fqn.name id) ∧
    (∃ t, s.types.get id = some t) ∧ s.get (.fqn fqn) = s.get (.semId id) := by
  have hto : s.toSemId (.fqn fqn) = some id := hr
  have hget : s.get (.fqn fqn) = s.get (.semId id) := by
    simp only [SymbolicSys.get, hto]; rfl
  obtain ⟨b, inv, hs, hsub, -, rfl⟩ := assembleSys_ok hw h
  simp only [SymbolicSys.resolve, Symbols.get, Option.map_eq_some_iff] at hr
  obtain ⟨p, hp, rfl⟩ := hr
  have hm := List.mem_of_find?_eq_some hp
  have hq := List.find?_some hp
  simp only [decide_eq_true_eq] at hq
  obtain ⟨q, hq', rfl⟩ := List.mem_map.mp hm
  obtain ⟨id, o, t⟩ := q
  simp only at hq
  subst hq
  have hg := OMap.get_of_mem hs hq'
  refine ⟨?_, allDefs_orig (hsub _ hq'), ⟨t, ?_⟩, hget⟩
  · rw [SymbolicSys.lookup, Symbols.lookup, symbolsOf_lookup, hg]; rfl
  · rw [typesOf_get, hg]; rfl

/-- **C16**, soundness of lookup: a name found for an id is the name of a type with that id in an
imported library. -/
theorem C16_lookup_sound (H : Hash) (debug : Bool) (ls : List TypeLib) (s : SymbolicSys)
    (fqn : TypeFqn) (id : SemId) (hw : ∀ l ∈ ls, l.WF) (h : assembleSys H debug ls = .ok s)
    (hr : s.lookup id = some fqn) :
    (∃ l ∈ ls, l.name = fqn.lib ∧ l.Declares H fqn.name id) ∧ ∃ id', s.resolve fqn = some id' := by
  obtain ⟨b, inv, hs, hsub, -, rfl⟩ := assembleSys_ok hw h
  rw [SymbolicSys.lookup, Symbols.lookup, symbolsOf_lookup, Option.bind_eq_some_iff] at hr
  obtain ⟨⟨o, t⟩, hg, rfl⟩ := hr
  have hm := OMap.get_mem hg
  refine ⟨allDefs_orig (hsub _ hm), ?_⟩
  have : ((symbolsOf b.types).find? fun p => p.fqn = some fqn).isSome := by
    rw [List.find?_isSome]
    exact ⟨⟨id, some fqn⟩, List.mem_map.mpr ⟨_, hm, rfl⟩, by simp⟩
  obtain ⟨p, hp⟩ := Option.isSome_iff_exists.mp this
  exact ⟨p.id, by simp [SymbolicSys.resolve, Symbols.get, hp]⟩

/-- **C16, what holds** in the other direction: if the same type is not declared in two libraries of
different names, libraries of the same name agree on the ids of their types, and no inline type has
the id of a named one, then every declared name resolves to its id and every id is looked up to its
name (or the hash collided). Missing: systems without these conditions, see `C16_alias_violated` and
`C16_versions_violated`. -/
theorem C16_names_resolve_partial (H : Hash) (debug : Bool) (ls : List TypeLib) (s : SymbolicSys)
    (hw : ∀ l ∈ ls, l.WF) (h : assembleSys H debug ls = .ok s)
    (hA : ∀ l ∈ ls, ∀ m ∈ ls, ∀ n id, l.Declares H n id → m.Declares H n id → l.name = m.name)
    (hB : ∀ l ∈ ls, ∀ m ∈ ls, l.name = m.name → ∀ n id id', l.Declares H n id →
      m.Declares H n id' → id = id')
    (hC : ∀ p ∈ allDefs H ls, p.2.orig = none → ∀ l ∈ ls, ∀ n, ¬ l.Declares H n p.1) :
    (∀ l ∈ ls, ∀ n id, l.Declares H n id →
      s.resolve ⟨l.name, n⟩ = some id ∧ s.lookup id = some ⟨l.name, n⟩) ∨ Collision H (· ∈ ls.flatMap TypeLib.namedTexts) := by
  apply Classical.or_iff_not_imp_right.mpr
  intro hn l hl n id hd
  obtain ⟨t, ht, hdef⟩ := declares_def hl hd
  have hlook : s.lookup id = some ⟨l.name, n⟩ := by
    obtain ⟨b, inv, hs, hsub, -, rfl⟩ := assembleSys_ok hw h
    obtain ⟨⟨o, u⟩, hg⟩ := Option.isSome_iff_exists.mp ((types_get_isSome inv id).mpr ⟨_, hdef, rfl⟩)
    rw [SymbolicSys.lookup, Symbols.lookup, symbolsOf_lookup, hg]
    have hm := hsub _ (OMap.get_mem hg)
    cases o with
    | none => exact absurd hd (hC _ hm rfl l hl n)
    | some fqn =>
      obtain ⟨m, hm', e1, e2⟩ := allDefs_orig hm
      have hname : fqn.name = n := by
        obtain ⟨x, hx', hx⟩ := e2
        obtain ⟨y, hy', hy⟩ := hd
        rw [← hy, Ty.semIdNamed_eq, Ty.semIdNamed_eq] at hx
        exact (Name.commit_append_inj (semHash_inj hn (namedText_mem hm' hx') (namedText_mem hl hy') hx)).1
      have := hA l hl m hm' n id hd (hname ▸ e2)
      obtain ⟨fl, fn⟩ := fqn
      simp only at hname e1
      simp [← hname, ← e1, this]
  obtain ⟨-, id', hr⟩ := C16_lookup_sound H debug ls s _ id hw h hlook
  obtain ⟨-, ⟨m, hm, e1, e2⟩, -⟩ := C16_resolve_sound H debug ls s _ id' hw h hr
  exact ⟨by rw [hr, hB l hl m hm e1.symm n id id' hd e2], hlook⟩

/-- Two libraries with one type each, of different names, meet the conditions. -/
example (H : Hash) :
    let ls := [exLib1 n!"A" n!"T" [] (.primitive 1), exLib1 n!"B" n!"U" [] (.primitive 1)]
    (∀ l ∈ ls, ∀ m ∈ ls, ∀ n id, l.Declares H n id → m.Declares H n id → l.name = m.name) ∧
    (∀ l ∈ ls, ∀ m ∈ ls, l.name = m.name → ∀ n id id', l.Declares H n id →
      m.Declares H n id' → id = id') ∧
    (∀ p ∈ allDefs H ls, p.2.orig = none → ∀ l ∈ ls, ∀ n, ¬ l.Declares H n p.1) := by
  refine ⟨?_, ?_, ?_⟩
  · intro l hl m hm n id h1 h2
    simp only [List.mem_cons, List.not_mem_nil, or_false] at hl hm
    obtain ⟨t, h1, -⟩ := h1
    obtain ⟨u, h2, -⟩ := h2
    rcases hl with rfl | rfl <;> rcases hm with rfl | rfl <;> simp_all [exLib1]
  · intro l hl m hm e n id id' h1 h2
    simp only [List.mem_cons, List.not_mem_nil, or_false] at hl hm
    obtain ⟨t, h1, rfl⟩ := h1
    obtain ⟨u, h2, rfl⟩ := h2
    rcases hl with rfl | rfl <;> rcases hm with rfl | rfl <;> simp_all [exLib1]
  · intro p hp
    simp only [allDefs, TypeLib.defs, exLib1, Ty.inlineDefs, Ty.refs, List.flatMap_cons,
      List.flatMap_nil, List.nil_append, List.append_nil, List.cons_append, List.mem_cons,
      List.not_mem_nil, or_false] at hp
    rcases hp with rfl | rfl <;> simp

theorem exByte_wf (lib : Name) (c : BitVec 8) : (exLib1 lib n!"T" [] (.primitive c)).WF :=
  exLib1_wf (by simp [DepsSorted]) (by simp) ⟨by simp [Ty.WF], by simp [Ty.refs]⟩

theorem exByte_assemble (H : Hash) (debug : Bool) (a b : Name) (c d : BitVec 8) :
    ∃ s, assembleSys H debug [exLib1 a n!"T" [] (.primitive c), exLib1 b n!"T" [] (.primitive d)] =
      .ok s := by
  apply assembleSys_ok_of
  · intro l hl
    simp only [List.mem_cons, List.not_mem_nil, or_false] at hl
    rcases hl with rfl | rfl <;> exact exByte_wf _ _
  · intro l hl
    simp only [List.mem_cons, List.not_mem_nil, or_false] at hl
    rcases hl with rfl | rfl <;> rfl
  · intro p hp
    simp only [allDefs, TypeLib.defs, exLib1, Ty.inlineDefs, Ty.refs, List.flatMap_cons,
      List.flatMap_nil, List.nil_append, List.append_nil, List.cons_append, List.mem_cons,
      List.not_mem_nil, or_false] at hp
    rcases hp with rfl | rfl <;> simp [Ty.mapRefs, Ty.refs]
  · simp [allDefs, TypeLib.defs, exLib1, Ty.inlineDefs, Ty.refs]
  · simp

/-- **C16 is violated**: when two libraries declare the same type, the name it has in the library
imported first does not resolve. -/
theorem C16_alias_violated (H : Hash) (debug : Bool) :
    ∃ (l m : TypeLib) (s : SymbolicSys) (n : Name) (id : SemId), l.WF ∧ m.WF ∧
      assembleSys H debug [l, m] = .ok s ∧ l.Declares H n id ∧ s.resolve ⟨l.name, n⟩ = none := by
  obtain ⟨s, hs⟩ := exByte_assemble H debug n!"A" n!"B" 1 1
  refine ⟨_, _, s, n!"T", _, exByte_wf _ _, exByte_wf _ _, hs, ⟨_, List.mem_singleton.mpr rfl, rfl⟩, ?_⟩
  obtain ⟨b, inv, -, -, -, rfl⟩ := assembleSys_ok (by
    intro l hl
    simp only [List.mem_cons, List.not_mem_nil, or_false] at hl
    rcases hl with rfl | rfl <;> exact exByte_wf _ _) hs
  have ht : b.types = [((Ty.primitive 1).semIdNamed H LibRef.commit n!"T",
      ⟨some ⟨n!"B", n!"T"⟩, .primitive 1⟩)] := by
    rw [inv.types]
    simp [allDefs, TypeLib.defs, exLib1, Ty.inlineDefs, Ty.refs, OMap.insert, Ty.mapRefs,
      LawfulKeyOrd.irrefl]
  rw [ht]
  rfl

/-- **C16 is violated**: when two versions of a library are imported, the name of a type that changed
resolves to one of the two versions only, although both are looked up to it. -/
theorem C16_versions_violated (H : Hash) (debug : Bool) :
    (∃ (l m : TypeLib) (s : SymbolicSys) (n : Name) (i j : SemId), l.WF ∧ m.WF ∧
      assembleSys H debug [l, m] = .ok s ∧ l.name = m.name ∧ l.Declares H n i ∧ m.Declares H n j ∧
      s.lookup i = some ⟨l.name, n⟩ ∧ s.lookup j = some ⟨l.name, n⟩ ∧
      (s.resolve ⟨l.name, n⟩ ≠ some i ∨ s.resolve ⟨l.name, n⟩ ≠ some j)) ∨
    Clash H SEM_ID_TAG [1, 84, 0, 1] [1, 84, 0, 2] := by
  by_cases he : (Ty.primitive 1).semIdNamed H LibRef.commit n!"T" =
      (Ty.primitive 2).semIdNamed H LibRef.commit n!"T"
  · right
    rcases C02_named_sem_id_injective H _ _ _ _ (by simp [Ty.InlineFree, Ty.refs])
      (by simp [Ty.InlineFree, Ty.refs]) he with ⟨-, h⟩ | h
    · exact absurd h (by simp [Ty.Rel])
    · exact h
  left
  obtain ⟨s, hs⟩ := exByte_assemble H debug n!"A" n!"A" 1 2
  refine ⟨_, _, s, n!"T", _, _, exByte_wf _ _, exByte_wf _ _, hs, rfl,
    ⟨_, List.mem_singleton.mpr rfl, rfl⟩, ⟨_, List.mem_singleton.mpr rfl, rfl⟩, ?_⟩
  have hne : s.resolve ⟨n!"A", n!"T"⟩ ≠ some ((Ty.primitive 1).semIdNamed H LibRef.commit n!"T") ∨
      s.resolve ⟨n!"A", n!"T"⟩ ≠ some ((Ty.primitive 2).semIdNamed H LibRef.commit n!"T") := by
    apply Classical.byContradiction
    intro hn
    simp only [not_or, Classical.not_not] at hn
    exact he (Option.some.inj (hn.1.symm.trans hn.2))
  obtain ⟨b, inv, -, -, -, rfl⟩ := assembleSys_ok (by
    intro l hl
    simp only [List.mem_cons, List.not_mem_nil, or_false] at hl
    rcases hl with rfl | rfl <;> exact exByte_wf _ _) hs
  have hg : ∀ i, i = (Ty.primitive 1).semIdNamed H LibRef.commit n!"T" ∨
      i = (Ty.primitive 2).semIdNamed H LibRef.commit n!"T" →
      (b.types.get i).bind SymTy.orig = some ⟨n!"A", n!"T"⟩ := by
    rw [inv.types]
    simp only [allDefs, TypeLib.defs, exLib1, Ty.inlineDefs, Ty.refs, List.flatMap_cons,
      List.flatMap_nil, List.nil_append, List.append_nil, List.cons_append, List.foldl_cons,
      List.foldl_nil, OMap.get_insert]
    rintro i (rfl | rfl)
    · rw [if_neg (Ne.symm he), if_pos rfl]; rfl
    · rw [if_pos rfl]; rfl
  refine ⟨?_, ?_, hne⟩
  · rw [SymbolicSys.lookup, Symbols.lookup, symbolsOf_lookup]; exact hg _ (Or.inl rfl)
  · rw [SymbolicSys.lookup, Symbols.lookup, symbolsOf_lookup]; exact hg _ (Or.inr rfl)

end Verif
