import Verif.Lemmas.CrateBuild

/-! # Properties of libraries built for crates which depend on each other -/

namespace Verif

theorem allBuilt_all2 {H : Hash} : ∀ {cs : List Crate} {libs ls : List TypeLib}, AllBuilt H cs libs ls →
    All2 (Offers H) cs ls
  | [], _, [], _ => trivial
  | [], _, _ :: _, h => h.elim
  | _ :: _, _, [], h => h.elim
  | _ :: _, _, _ :: _, h => ⟨h.1.toOffers, allBuilt_all2 h.2⟩

/-- Every library was built after libraries which are among the results, or were there before. -/
theorem allBuilt_mem {H : Hash} : ∀ {cs : List Crate} {libs ls : List TypeLib}, AllBuilt H cs libs ls →
    ∀ l ∈ ls, ∃ c ∈ cs, ∃ before, Built H before c l ∧ ∀ m ∈ before, m ∈ libs ∨ m ∈ ls
  | [], _, [], _, l, hl => by cases hl
  | [], _, _ :: _, h, _, _ => h.elim
  | _ :: _, _, [], h, _, _ => h.elim
  | c :: cs, libs, k :: ls, h, l, hl => by
    rcases List.mem_cons.mp hl with rfl | hl
    · exact ⟨c, by simp, libs, h.1, fun m hm => .inl hm⟩
    · obtain ⟨d, hd, before, hb, hm⟩ := allBuilt_mem h.2 l hl
      refine ⟨d, by simp [hd], before, hb, fun m hm' => ?_⟩
      rcases hm m hm' with h | h
      · rcases List.mem_append.mp h with h | h
        · exact .inl h
        · rw [List.mem_singleton] at h
          subst h
          exact .inr (by simp)
      · exact .inr (by simp [h])

theorem buildAll_built {H : Hash} {debug : Bool} {cs : List Crate} {fuel : Nat}
    (hc : ¬ CrateCollision H debug fuel cs) (hb : Buildable debug cs) (hf : 65535 ≤ fuel) {ls : List TypeLib}
    (h : buildAll H debug fuel cs [] = .ok ls) : AllBuilt H cs [] ls := by
  obtain ⟨ls', h1, h2⟩ := buildAll_steps hc hb hf cs [] [] rfl rfl trivial
  rw [h] at h1
  simp only [List.nil_append, Out.ok.injEq] at h1
  subst h1
  exact h2

/-! ## C66 -/

/-- **C66**: the libraries of crates which depend on each other in layers are built one after another
without an error, and each declares exactly the types of its crate, with the ids of their meanings,
which have nothing to do with the crates they are built in (or there is a hash collision). -/
theorem C66_crates_build (H : Hash) (debug : Bool) (cs : List Crate) (hb : Buildable debug cs) (fuel : Nat)
    (hf : 65535 ≤ fuel) :
    (∃ ls, buildAll H debug fuel cs [] = .ok ls ∧
      All2 (fun c l => l.name = c.name ∧ ∀ n id, l.Declares H n id ↔ ∃ s, c.Owns s n ∧ id = s.semId H) cs ls) ∨
    CrateCollision H debug fuel cs := by
  by_cases hc : CrateCollision H debug fuel cs
  · exact .inr hc
  obtain ⟨ls, h1, h2⟩ := buildAll_steps hc hb hf cs [] [] rfl rfl trivial
  refine .inl ⟨ls, by simpa using h1, ?_⟩
  exact all2_imp (fun _ _ _ _ h => ⟨h.name, h.declares⟩) (allBuilt_all2 h2)

/-- **C66**: the definition of every type in its library is the meaning of the Rust type: with ids in
place of the types mentioned, it is the type the Rust type stands for (or there is a hash
collision). -/
theorem C66_definitions (H : Hash) (debug : Bool) (cs : List Crate) (hb : Buildable debug cs) (fuel : Nat)
    (hf : 65535 ≤ fuel) (ls : List TypeLib) (h : buildAll H debug fuel cs [] = .ok ls) :
    (∀ c ∈ cs, ∀ s n, c.Owns s n → ∃ l ∈ ls, l.name = c.name ∧ ∃ u, (n, u) ∈ l.types ∧
      u.semIdNamed H LibRef.commit n = s.semId H ∧
      u.mapRefs (LibRef.semId H) = (s.sem H).mapRefs (TranspileRef.id H)) ∨ CrateCollision H debug fuel cs := by
  by_cases hc : CrateCollision H debug fuel cs
  · exact .inr hc
  refine .inl fun c hcm s n hs => ?_
  have ha := buildAll_built hc hb hf h
  obtain ⟨l, hl, ho⟩ := all2_left (allBuilt_all2 ha) hcm
  obtain ⟨d, hd, before, hbt, -⟩ := allBuilt_mem ha l hl
  have : d = c := nodup_map_inj hb.names hd hcm (hbt.name.symm.trans ho.name)
  subst this
  exact ⟨l, hl, ho.name, hbt.types s n hs⟩

/-! ## C65 -/

/-- **C65** (partial: for crates in layers, where types of other libraries mention no types of the
library being built): whatever a library refers to in another library exists there. The external types
recorded are exactly the types of other libraries mentioned by the crate; each of them is declared by
the library of that name, under the same name and with the same id, and this very library is a
dependency (or there is a hash collision). -/
theorem C65_externs_declared_partial (H : Hash) (debug : Bool) (cs : List Crate) (hb : Buildable debug cs)
    (fuel : Nat) (hf : 65535 ≤ fuel) (ls : List TypeLib) (h : buildAll H debug fuel cs [] = .ok ls) :
    (All2 (fun c l => ∀ lib id n, (∃ m, (lib, m) ∈ l.externTypes ∧ (id, n) ∈ m) ↔
        lib ≠ c.name ∧ ∃ s, c.Mentions s ∧ s.lib = lib ∧ s.name = some n ∧ id = s.semId H) cs ls ∧
      ∀ l ∈ ls, ∀ lib m id n, (lib, m) ∈ l.externTypes → (id, n) ∈ m →
        ∃ k ∈ ls, k.name = lib ∧ k.Declares H n id ∧ ⟨k.id H, k.name⟩ ∈ l.dependencies) ∨ CrateCollision H debug fuel cs := by
  by_cases hc : CrateCollision H debug fuel cs
  · exact .inr hc
  have ha := buildAll_built hc hb hf h
  have hall := allBuilt_all2 ha
  refine .inl ⟨?_, ?_⟩
  · refine all2_imp (fun c hcm l hl ho => ?_) hall
    obtain ⟨d, hd, before, hbt, -⟩ := allBuilt_mem ha l hl
    have : d = c := nodup_map_inj hb.names hd hcm (hbt.name.symm.trans ho.name)
    subst this
    exact hbt.externs
  · intro l hl lib m id n hm hi
    obtain ⟨c, hcm, before, hbt, hbefore⟩ := allBuilt_mem ha l hl
    obtain ⟨hlc, s, hs, h1, h2, rfl⟩ := (hbt.externs lib id n).mp ⟨m, hm, hi⟩
    obtain ⟨pre, post, e⟩ := List.append_of_mem hcm
    obtain ⟨-, d, hd, hds, hdl⟩ := hb.foreign e hs (by simp [h2]) (by rw [h1]; exact hlc)
    have hdm : d ∈ cs := by rw [e]; simp [hd]
    obtain ⟨k, hk, ho⟩ := all2_left hall hdm
    have hkn : k.name = lib := by rw [ho.name, ← hdl, h1]
    refine ⟨k, hk, hkn, (ho.declares n _).mpr ⟨s, ⟨hds, hdl, h2⟩, rfl⟩, ?_⟩
    have hne : lib ≠ LIB_EMBEDDED := by rw [← hkn, ho.name]; exact hb.named d hdm
    obtain ⟨x, hx, hxn⟩ := hbt.good.exact.listed (lib, m) hm hne
    obtain ⟨k', hk', rfl⟩ := hbt.deps x hx
    have hk'' : k' ∈ ls := by
      rcases hbefore k' hk' with h | h
      · cases h
      · exact h
    have hnames : (ls.map TypeLib.name).Nodup := by
      have : ls.map TypeLib.name = cs.map Crate.name :=
        (all2_eq (all2_map hall fun a b h => h.name.symm)).symm
      rw [this]; exact hb.names
    have : k' = k := nodup_map_inj hnames hk'' hk (by rw [hkn]; exact hxn)
    subst this
    exact hx

/-- **C65**, where it comes from: a type which mentions no types of the library being built has the same
id in every library, whatever the ids of the libraries. -/
theorem C65_id_independent_partial (V W : View) (hH : V.H = W.H) (s : RTy) (n : Name) (hn : s.name = some n)
    (hV : s.Foreign V.own) (hW : s.Foreign W.own) :
    TranspileRef.semIdNamed V.H (s.ty V) n = TranspileRef.semIdNamed W.H (s.ty W) n := by
  rw [RTy.semIdNamed_foreign hn hV, RTy.semIdNamed_foreign hn hW, hH]

/-- **C65 is violated** for types of another library which mention types of the library being built
(a generic type applied to an own type): the id recorded for them is not the id they have in their
library. Here the type of a library `B` wraps a type of the library `A`: the first two libraries are
built, one after the other; for a third one, which is an extended `A`, another id of the type of `B`
is recorded, which `B` does not declare, and the build is refused (or there is a hash collision). -/
theorem C65_own_parameter_violated (H : Hash) (debug : Bool) :
    (∃ (t s : RTy) (b : Transpiler) (id : SemId), t.lib = n!"A" ∧ s.lib = n!"B" ∧ s.name = some n!"Wrap" ∧
      t ∈ s.parts ∧
      Transpiler.transpile H debug [s] (.new n!"A" [(⟨Id32.rep 1, n!"B"⟩, some [s.semId H])]) = .ok b ∧
      b.HasExtern n!"B" n!"Wrap" id ∧ id ≠ s.semId H ∧
      b.compile H debug 65535 = .err (.dependencyMissesType n!"B" id n!"Wrap")) ∨
    Clash H SEM_ID_TAG (n!"Wrap".commit ++ TranspileRef.commitTy (.tuple [.named n!"Foo"]))
      ((RTy.record n!"B" (some n!"Wrap") true [(none, .record n!"A" (some n!"Foo") true [(none, .prim 1)])]).text H) := by
  apply Classical.or_iff_not_imp_right.mpr
  intro hc
  refine ⟨.record n!"A" (some n!"Foo") true [(none, .prim 1)],
    .record n!"B" (some n!"Wrap") true [(none, .record n!"A" (some n!"Foo") true [(none, .prim 1)])], ?_⟩
  have hid : TranspileRef.semIdNamed H (.tuple [.named n!"Foo"]) n!"Wrap" ≠
      (RTy.record n!"B" (some n!"Wrap") true [(none, .record n!"A" (some n!"Foo") true [(none, .prim 1)])]).semId H := by
    intro h
    rcases taggedHash_inj h with h | h
    · have := congrArg List.length h
      simp [RTy.sem, RTy.tyWith, RTy.tyWithFields, RTy.tyWithField, absolute, TranspileRef.commitTy, RTy.name,
        TranspileRef.commitRefs, TranspileRef.commit, Name.commit] at this
      simp only [SemId.commit] at this
      rw [Id32.len] at this
      cases this
    · exact hc h
  generalize hs : (RTy.record n!"B" (some n!"Wrap") true
    [(none, .record n!"A" (some n!"Foo") true [(none, .prim 1)])]).semId H = sid at hid ⊢
  let b : Transpiler := ⟨⟨n!"A", [(⟨Id32.rep 1, n!"B"⟩, some [sid])],
    [(n!"B", [(TranspileRef.semIdNamed H (.tuple [.named n!"Foo"]) n!"Wrap", n!"Wrap")])],
    [(n!"Foo", .tuple [.embedded (.primitive 1)])]⟩,
    some (.extern ⟨n!"B", n!"Wrap", Id32.rep 1, TranspileRef.semIdNamed H (.tuple [.named n!"Foo"]) n!"Wrap"⟩)⟩
  refine ⟨b, _, rfl, rfl, rfl, by simp [RTy.parts], rfl, ⟨_, rfl, ?_⟩, hid, ?_⟩
  · simp [OMap.get]
  · have hne : n!"B" ≠ LIB_EMBEDDED := by decide
    simp [b, LibBuilder.compile, LibBuilder.compileSymbols, checkNames, builderDeps, checkExterns, Ty.refs,
      checkExtern, hmGet, LibBuilder.knownGet, hid, hne, Out.expect]

/-! ## C67 -/

/-- The libraries built are linked with each other. -/
theorem buildAll_linked {H : Hash} {debug : Bool} {cs : List Crate} {fuel : Nat}
    (hc : ¬ CrateCollision H debug fuel cs) (hb : Buildable debug cs) (hf : 65535 ≤ fuel) {ls : List TypeLib}
    (h : buildAll H debug fuel cs [] = .ok ls) :
    ∀ l ∈ ls, l.Linked H ls ∧ ∀ d ∈ l.dependencies, Satisfied H ls d := by
  have ha := buildAll_built hc hb hf h
  have hx := ((C65_externs_declared_partial H debug cs hb fuel hf ls h).resolve_right hc).2
  intro l hl
  obtain ⟨c, -, before, hbt, hbefore⟩ := allBuilt_mem ha l hl
  refine ⟨fun p hp r hr => ⟨fun id hid => ?_, fun e he => ?_⟩, fun d hd => ?_⟩
  · obtain ⟨n, hn⟩ := hbt.good.defined p hp r hr id hid
    unfold TypeLib.idOf at hn
    rw [Option.map_eq_some_iff] at hn
    obtain ⟨t, ht, hi⟩ := hn
    exact ⟨l, hl, n, t, OMap.get_mem ht, hi⟩
  · obtain ⟨sym, ⟨-, m, hm, hi⟩, -, h2⟩ := hbt.good.recorded p hp r hr e he
    obtain ⟨k, hk, -, hd, -⟩ := hx l hl _ m _ _ hm hi
    exact ⟨k, hk, sym.tyName, by rw [← h2]; exact hd⟩
  · obtain ⟨m, hm, rfl⟩ := hbt.deps d hd
    rcases hbefore m hm with h | h
    · cases h
    · exact ⟨m, h, rfl⟩

theorem buildAll_wf {H : Hash} {debug : Bool} {cs : List Crate} {fuel : Nat}
    (hc : ¬ CrateCollision H debug fuel cs) (hb : Buildable debug cs) (hf : 65535 ≤ fuel) {ls : List TypeLib}
    (h : buildAll H debug fuel cs [] = .ok ls) : ∀ l ∈ ls, l.WF := fun l hl => by
  obtain ⟨c, -, before, hbt, -⟩ := allBuilt_mem (buildAll_built hc hb hf h) l hl
  exact hbt.wf

/-- **C67**: the libraries of crates, imported in whatever order, make up a complete type system: nothing
is reported as missing, every reference leads to a type of the system and every Rust type of the crates
is in it under the id of its meaning (or there is a hash collision). Conditions: the system fits its
container, and no type has 255 references in a build with overflow checks. -/
theorem C67_system_complete (H : Hash) (debug : Bool) (cs : List Crate) (hb : Buildable debug cs)
    (fuel : Nat) (hf : 65535 ≤ fuel) (ls ms : List TypeLib) (h : buildAll H debug fuel cs [] = .ok ls)
    (hp : ls.Perm ms) (hr : FewRefs H debug ms)
    (ht : ∃ ids : List SemId, ids.length ≤ 2 ^ 24 - 1 ∧ ∀ p ∈ allDefs H ms, p.1 ∈ ids) :
    (∃ sys, assembleSys H debug ms = .ok sys ∧ sys.types.Closed ∧
      ∀ c ∈ cs, ∀ s n, c.Owns s n → ∃ t, sys.types.get (s.semId H) = some t) ∨ CrateCollision H debug fuel cs := by
  by_cases hc : CrateCollision H debug fuel cs
  · exact .inr hc
  have hall := allBuilt_all2 (buildAll_built hc hb hf h)
  have hw : ∀ l ∈ ms, l.WF := fun l hl => buildAll_wf hc hb hf h l (hp.mem_iff.mpr hl)
  have hlink : ∀ l ∈ ms, l.Linked H ms ∧ ∀ d ∈ l.dependencies, Satisfied H ms d := by
    intro l hl
    obtain ⟨h1, h2⟩ := buildAll_linked hc hb hf h l (hp.mem_iff.mpr hl)
    refine ⟨fun p hq r hr => ⟨fun id hid => ?_, fun e he => ?_⟩, fun d hd => ?_⟩
    · obtain ⟨m, hm, x⟩ := (h1 p hq r hr).1 id hid
      exact ⟨m, hp.mem_iff.mp hm, x⟩
    · obtain ⟨m, hm, x⟩ := (h1 p hq r hr).2 e he
      exact ⟨m, hp.mem_iff.mp hm, x⟩
    · obtain ⟨m, hm, x⟩ := h2 d hd
      exact ⟨m, hp.mem_iff.mp hm, x⟩
  have hfit : Fits H ms := by
    refine ⟨⟨ms.map (TypeLib.id H), ?_, fun l hl => List.mem_map_of_mem hl⟩, ht⟩
    have := hb.few
    rw [all2_length hall] at this
    rw [List.length_map, ← hp.length_eq]
    omega
  obtain ⟨sys, hs⟩ := C13_complete_succeeds H debug ms hw hr hfit fun l hl => (hlink l hl).2
  refine .inl ⟨sys, hs, (C14_complete_partial H debug ms sys hw hs).2 fun l hl => (hlink l hl).1, ?_⟩
  intro c hcm s n ho
  obtain ⟨l, hl, hof⟩ := all2_left hall hcm
  obtain ⟨t, -, hd⟩ := declares_def (hp.mem_iff.mp hl) ((hof.declares n _).mpr ⟨s, ho, rfl⟩)
  exact (C58_definitions_partial H debug ms sys hw hs).2.1 _ hd

/-- **C67, partial** (for systems where definitions with the same id are the same; without that it is
`C58_definitions_violated`): the type found under the id of a Rust type is its meaning. -/
theorem C67_system_types_partial (H : Hash) (debug : Bool) (cs : List Crate) (hb : Buildable debug cs)
    (fuel : Nat) (hf : 65535 ≤ fuel) (ls ms : List TypeLib) (h : buildAll H debug fuel cs [] = .ok ls)
    (hp : ls.Perm ms) (sys : SymbolicSys) (hs : assembleSys H debug ms = .ok sys)
    (hcon : Consistent (allDefs H ms)) :
    (∀ c ∈ cs, ∀ s n, c.Owns s n →
      sys.types.get (s.semId H) = some ((s.sem H).mapRefs (TranspileRef.id H))) ∨ CrateCollision H debug fuel cs := by
  by_cases hc : CrateCollision H debug fuel cs
  · exact .inr hc
  refine .inl fun c hcm s n ho => ?_
  have hw : ∀ l ∈ ms, l.WF := fun l hl => buildAll_wf hc hb hf h l (hp.mem_iff.mpr hl)
  obtain ⟨l, hl, -, u, hu, hi, hm⟩ := (C66_definitions H debug cs hb fuel hf ls h).resolve_right hc c hcm s n ho
  have hd : (s.semId H, (⟨some ⟨l.name, n⟩, u.mapRefs (LibRef.semId H)⟩ : SymTy)) ∈ allDefs H ms :=
    List.mem_flatMap.mpr ⟨l, hp.mem_iff.mp hl, List.mem_flatMap.mpr ⟨(n, u), hu, by simp [← hi]⟩⟩
  rw [(C58_definitions_partial H debug ms sys hw hs).2.2 hcon _ hd, ← hm]

/-- **C67, partial** (for crates which do not define the same type under the same name, and without
inline types having ids of named types; without that it is `C16_alias_violated`): the full name of every
Rust type resolves to the id of its meaning, and back. -/
theorem C67_names_resolve_partial (H : Hash) (debug : Bool) (cs : List Crate) (hb : Buildable debug cs)
    (fuel : Nat) (hf : 65535 ≤ fuel) (ls ms : List TypeLib) (h : buildAll H debug fuel cs [] = .ok ls)
    (hp : ls.Perm ms) (sys : SymbolicSys) (hs : assembleSys H debug ms = .ok sys)
    (hA : ∀ c ∈ cs, ∀ d ∈ cs, ∀ s s' n, c.Owns s n → d.Owns s' n → s.semId H = s'.semId H → c = d)
    (hC : ∀ p ∈ allDefs H ms, p.2.orig = none → ∀ c ∈ cs, ∀ s n, c.Owns s n → p.1 ≠ s.semId H) :
    (∀ c ∈ cs, ∀ s n, c.Owns s n → sys.resolve ⟨c.name, n⟩ = some (s.semId H) ∧
      sys.lookup (s.semId H) = some ⟨c.name, n⟩) ∨ CrateCollision H debug fuel cs := by
  by_cases hc : CrateCollision H debug fuel cs
  · exact .inr hc
  have hall := allBuilt_all2 (buildAll_built hc hb hf h)
  have hw : ∀ l ∈ ms, l.WF := fun l hl => buildAll_wf hc hb hf h l (hp.mem_iff.mpr hl)
  have hoff : ∀ l ∈ ms, ∃ c ∈ cs, Offers H c l := fun l hl => all2_right hall (hp.mem_iff.mpr hl)
  have htexts : ¬ Collision H (· ∈ ms.flatMap TypeLib.namedTexts) := fun hcol => hc (.inl (hcol.mono fun x hx => by
    obtain ⟨l, hl, hx⟩ := List.mem_flatMap.mp hx
    obtain ⟨c, hcm, before, hbt, -⟩ := allBuilt_mem (buildAll_built hc hb hf h) l (hp.mem_iff.mpr hl)
    obtain ⟨s, n, ho, rfl⟩ := hbt.texts x hx
    exact ho.1.text hcm))
  have hres := (C16_names_resolve_partial H debug ms sys hw hs ?_ ?_ ?_).resolve_right htexts
  · refine .inl fun c hcm s n ho => ?_
    obtain ⟨l, hl, hof⟩ := all2_left hall hcm
    rw [← hof.name]
    exact hres l (hp.mem_iff.mp hl) n _ ((hof.declares n _).mpr ⟨s, ho, rfl⟩)
  · intro l hl m hm n id h1 h2
    obtain ⟨c, hcm, hoc⟩ := hoff l hl
    obtain ⟨d, hdm, hod⟩ := hoff m hm
    obtain ⟨s, hs1, rfl⟩ := (hoc.declares n id).mp h1
    obtain ⟨s', hs2, e⟩ := (hod.declares n _).mp h2
    rw [hoc.name, hod.name, hA c hcm d hdm s s' n hs1 hs2 e]
  · intro l hl m hm e n id id' h1 h2
    obtain ⟨c, hcm, hoc⟩ := hoff l hl
    obtain ⟨d, hdm, hod⟩ := hoff m hm
    obtain ⟨s, hs1, rfl⟩ := (hoc.declares n id).mp h1
    obtain ⟨s', hs2, rfl⟩ := (hod.declares n _).mp h2
    rw [hoc.name, hod.name] at e
    rw [hb.one c hcm d hdm s s' hs1.1 hs2.1 (by simp [hs1.2.2]) (by rw [hs1.2.1, hs2.2.1, e])
      (by rw [hs1.2.2, hs2.2.2])]
  · intro p hpm hn l hl n hd
    obtain ⟨c, hcm, hoc⟩ := hoff l hl
    obtain ⟨s, hs1, e⟩ := (hoc.declares n _).mp hd
    exact hC p hpm hn c hcm s n hs1 e

/-! ### A concrete case -/

/-- Two crates, the second one using a type of the first one. -/
def exCrates : List Crate := [⟨n!"Other", [exForeign]⟩, ⟨n!"Own", [exPicture, exPoint]⟩]

theorem exForeign_contains {s : RTy} : exForeign.Contains s ↔
    s = exForeign ∨ s = .array (.prim 1) 32 ∨ s = .prim 1 := by
  have hprim : ∀ s, (RTy.prim 1).Contains s ↔ s = .prim 1 := by
    intro s; rw [RTy.contains_iff]; simp [RTy.parts]
  have harr : ∀ s, (RTy.array (.prim 1) 32).Contains s ↔ s = .array (.prim 1) 32 ∨ s = .prim 1 := by
    intro s; rw [RTy.contains_iff]
    simp only [RTy.parts, List.mem_cons, List.not_mem_nil, or_false, exists_eq_left, hprim]
  rw [RTy.contains_iff]
  rw [show exForeign.parts = [.array (.prim 1) 32] from rfl]
  simp only [List.mem_cons, List.not_mem_nil, or_false, exists_eq_left, harr]

theorem exCrates_mentions {c : Crate} (hc : c ∈ exCrates) {s : RTy} (h : c.Mentions s) :
    (c = ⟨n!"Other", [exForeign]⟩ ∧ s ∈ [exForeign, .array (.prim 1) 32, .prim 1]) ∨
    (c = ⟨n!"Own", [exPicture, exPoint]⟩ ∧ s ∈ [exPicture, exShape, .record n!"Own" none true [(none, exPoint)], exPoint,
      .prim 1, .record n!"Own" none true [], .list exPoint ⟨0, 255⟩, exForeign, .array (.prim 1) 32]) := by
  simp only [exCrates, List.mem_cons, List.not_mem_nil, or_false] at hc
  obtain ⟨t, ht, h⟩ := h
  rcases hc with rfl | rfl
  · simp only [List.mem_cons, List.not_mem_nil, or_false] at ht ⊢
    subst ht
    exact .inl ⟨trivial, exForeign_contains.mp h⟩
  · have hp : exPicture.Contains exPoint := exPicture_contains.mpr (by simp)
    have : exPicture.Contains s := by
      simp only [List.mem_cons, List.not_mem_nil, or_false] at ht
      rcases ht with rfl | rfl
      · exact h
      · exact hp.trans h
    refine .inr ⟨rfl, ?_⟩
    simpa only [List.mem_cons, List.not_mem_nil, or_false] using exPicture_contains.mp this

/-- The hypotheses of the theorems hold for the example. -/
theorem exCrates_buildable : Buildable true exCrates := by
  refine ⟨by decide, by decide, by decide, ?_, ?_, ?_, ?_, ?_, ?_⟩
  · intro c hc
    simp only [exCrates, List.mem_cons, List.not_mem_nil, or_false] at hc
    rcases hc with rfl | rfl
    · exact ⟨exForeign, n!"Id", ⟨_, by simp, .refl _⟩, rfl, rfl⟩
    · exact ⟨exPoint, n!"Point", ⟨_, List.mem_cons_of_mem _ (by simp), .refl _⟩, rfl, rfl⟩
  · intro c hc
    refine ⟨[n!"Id", n!"Point", n!"Shape", n!"Picture"], by decide, ?_⟩
    rintro s n ⟨hm, hl, hn⟩
    rcases exCrates_mentions hc hm with ⟨rfl, h⟩ | ⟨rfl, h⟩ <;>
    simp only [List.mem_cons, List.not_mem_nil, or_false] at h
    · rcases h with rfl | rfl | rfl <;> cases hn
      simp
    · rcases h with rfl | rfl | rfl | rfl | rfl | rfl | rfl | rfl | rfl <;> cases hn <;> simp
  · intro c hc s hm
    rcases exCrates_mentions hc hm with ⟨rfl, h⟩ | ⟨rfl, h⟩ <;>
    simp only [List.mem_cons, List.not_mem_nil, or_false] at h
    · rcases h with rfl | rfl | rfl <;>
      simp [RTy.DistinctVariants, RTy.NodeOk, RTy.name, RTy.lib, exForeign, exCrates]
    · rcases h with rfl | rfl | rfl | rfl | rfl | rfl | rfl | rfl | rfl <;>
      simp [RTy.DistinctVariants, RTy.NodeOk, RTy.name, RTy.lib, exPicture, exShape, exPoint, exForeign, exCrates]
  · rintro c hc s n ⟨hm, hl, hn⟩
    rcases exCrates_mentions hc hm with ⟨rfl, h⟩ | ⟨rfl, h⟩ <;>
    simp only [List.mem_cons, List.not_mem_nil, or_false] at h
    · rcases h with rfl | rfl | rfl <;> cases hn
      simp [exForeign, RTy.sem, RTy.tyWith, RTy.tyWithFields, RTy.tyWithField, absolute, RTy.name,
        Ty.DepthLe, Ty.refs, TranspileRef.DepthLe]
    · rcases h with rfl | rfl | rfl | rfl | rfl | rfl | rfl | rfl | rfl <;> cases hn
      · simp [exForeign, exPoint, exShape, exPicture, RTy.sem, RTy.tyWith, RTy.tyWithFields, RTy.tyWithField,
          absolute, RTy.name, RTy.lib, Ty.DepthLe, Ty.refs, TranspileRef.DepthLe]
      · simp only [exPoint, exShape, RTy.sem, RTy.tyWith, RTy.tyWithFields, RTy.tyWithField,
          RTy.tyWithVariants, RTy.tyWithVariant, absolute, RTy.name, Ty.DepthLe, Ty.refs, List.mem_map, byTag,
          List.mem_flatMap, List.mem_filter]
        rintro r ⟨x, ⟨tag, -, hx, -⟩, rfl⟩
        simp only [List.mem_cons, List.not_mem_nil, or_false] at hx
        rcases hx with rfl | rfl <;> simp [TranspileRef.DepthLe, Ty.UNIT, Ty.refs]
      · simp [exPoint, RTy.sem, RTy.tyWith, RTy.tyWithFields, RTy.tyWithField,
          absolute, RTy.name, Ty.DepthLe, Ty.refs, TranspileRef.DepthLe]
      · exact absurd hl (by decide)
  · intro c hc d hd s s' hs hs' h1 h2 h3
    rcases exCrates_mentions hc hs with ⟨-, h⟩ | ⟨-, h⟩ <;>
    rcases exCrates_mentions hd hs' with ⟨-, h'⟩ | ⟨-, h'⟩ <;>
    simp only [List.mem_cons, List.not_mem_nil, or_false] at h h'
    · rcases h with rfl | rfl | rfl <;> rcases h' with rfl | rfl | rfl <;>
      first
        | rfl
        | exact absurd h3 (by decide)
        | exact absurd h1 (by decide)
    · rcases h with rfl | rfl | rfl <;> rcases h' with rfl | rfl | rfl | rfl | rfl | rfl | rfl | rfl | rfl <;>
      first
        | rfl
        | exact absurd h3 (by decide)
        | exact absurd h1 (by decide)
    · rcases h with rfl | rfl | rfl | rfl | rfl | rfl | rfl | rfl | rfl <;> rcases h' with rfl | rfl | rfl <;>
      first
        | rfl
        | exact absurd h3 (by decide)
        | exact absurd h1 (by decide)
    · rcases h with rfl | rfl | rfl | rfl | rfl | rfl | rfl | rfl | rfl <;>
      rcases h' with rfl | rfl | rfl | rfl | rfl | rfl | rfl | rfl | rfl <;>
      first
        | rfl
        | exact absurd h3 (by decide)
        | exact absurd h1 (by decide)
  · intro pre c post e s hs hn
    have hc : c ∈ exCrates := by rw [e]; simp
    rcases exCrates_mentions hc hs with ⟨rfl, h⟩ | ⟨rfl, h⟩ <;>
    simp only [List.mem_cons, List.not_mem_nil, or_false] at h
    · rcases h with rfl | rfl | rfl
      · exact .inl rfl
      · exact absurd rfl hn
      · exact absurd rfl hn
    · have hpre : (⟨n!"Other", [exForeign]⟩ : Crate) ∈ pre := by
        match pre, e with
        | [], e =>
          rw [exCrates, List.nil_append] at e
          have := congrArg (List.map Crate.name) e
          simp at this
        | p :: pre, e =>
          rw [exCrates, List.cons_append] at e
          injection e with e1 e2
          rw [e1]; simp
      rcases h with rfl | rfl | rfl | rfl | rfl | rfl | rfl | rfl | rfl
      · exact .inl rfl
      · exact .inl rfl
      · exact absurd rfl hn
      · exact .inl rfl
      · exact absurd rfl hn
      · exact absurd rfl hn
      · exact absurd rfl hn
      · exact .inr ⟨_, hpre, ⟨_, by simp, .refl _⟩, rfl⟩
      · exact absurd rfl hn

/-- What is built for the example. -/
example : ((buildAll toyHash true 65535 exCrates []).bind fun ls => .ok (ls.map fun l =>
      (l.name, l.types.map Prod.fst, l.externTypes.map fun p => (p.1, p.2.map Prod.snd)))) =
    .ok [(n!"Other", [n!"Id"], []),
      (n!"Own", [n!"Picture", n!"Point", n!"Shape"], [(n!"Other", [n!"Id"])])] := by
  decide +kernel

instance (H : Hash) (debug : Bool) (ls : List TypeLib) : Decidable (FewRefs H debug ls) :=
  inferInstanceAs (Decidable (debug = true → ∀ p ∈ allDefs H ls, p.2.ty.refs.length < 255))

instance (ds : List (SemId × SymTy)) : Decidable (Consistent ds) :=
  inferInstanceAs (Decidable (∀ p ∈ ds, ∀ q ∈ ds, p.1 = q.1 → p.2.ty = q.2.ty))

/-- The type system of the example, and the other conditions of the theorems. -/
example : ∀ ls, buildAll toyHash true 65535 exCrates [] = .ok ls →
    FewRefs toyHash true ls.reverse ∧ (allDefs toyHash ls.reverse).length ≤ 2 ^ 24 - 1 ∧
    Consistent (allDefs toyHash ls.reverse) ∧
    (∀ p ∈ allDefs toyHash ls.reverse, p.2.orig = none → ∀ q ∈ allDefs toyHash ls.reverse, q.2.orig ≠ none → p.1 ≠ q.1) ∧
    ((assembleSys toyHash true ls.reverse).get?.map fun s => s.types.length) = some 9 := by
  have h : ∀ ls ∈ (buildAll toyHash true 65535 exCrates []).get?.toList,
      FewRefs toyHash true ls.reverse ∧ (allDefs toyHash ls.reverse).length ≤ 2 ^ 24 - 1 ∧
      Consistent (allDefs toyHash ls.reverse) ∧
      (∀ p ∈ allDefs toyHash ls.reverse, p.2.orig = none → ∀ q ∈ allDefs toyHash ls.reverse,
        q.2.orig ≠ none → p.1 ≠ q.1) ∧
      ((assembleSys toyHash true ls.reverse).get?.map fun s => s.types.length) = some 9 := by
    decide +kernel
  intro ls hl
  exact h ls (by rw [hl]; simp [Out.get?])

end Verif
