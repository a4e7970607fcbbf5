import Verif.Props.Compile
import Verif.Lemmas.Symbolic
import Verif.Lemmas.Builder

/-!
# Properties of compiled libraries: C21 (characterisation), C24, C27, C28
-/

namespace Verif

/-! ## C21, characterisation -/

/-- **C21**: compilation computes exactly the library described by `CompilesTo`: with enough passes
it returns `l` if and only if `l` is the compiled form of `s` and names are acyclic, external
libraries known and the number of types within its limit. In particular there is at most one
compiled form, the same in both build modes. -/
theorem C21_compiles_iff (H : Hash) (debug : Bool) (fuel : Nat) (s : SymbolicLib) (hw : s.WF)
    (hf : s.types.length ≤ fuel) (l : TypeLib) :
    s.compile H debug fuel = .ok l ↔
      s.CompilesTo H l ∧ s.Acyclic ∧ s.KnownLibs ∧ s.types.length ≤ 65535 := by
  constructor
  · intro h
    obtain ⟨-, h1, -, h2, h3⟩ := C22_conditions_necessary H debug fuel s hw l h
    exact ⟨compile_ok_compilesTo hw h, h1, h2, h3⟩
  · rintro ⟨hc, hac, hk, hlen⟩
    have hcomp : ∀ p ∈ s.types, ∃ u, (p.1, u) ∈ l.types ∧ p.2.CompiledTo (l.idOf H) u := by
      intro p hp
      have : p.1 ∈ l.types.keys := by rw [hc.keys]; exact List.mem_map_of_mem (f := Prod.fst) hp
      obtain ⟨q, hq, hqn⟩ := List.mem_map.mp this
      have hq : (p.1, q.2) ∈ l.types := by rw [← hqn]; exact hq
      exact ⟨q.2, hq, hc.types _ _ _ hp hq⟩
    have hdef : s.Defined := by
      intro p hp n hm
      obtain ⟨u, -, hcu⟩ := hcomp p hp
      have := hcu.props.2 n hm
      unfold TypeLib.idOf at this
      rw [Option.isSome_map] at this
      have := OMap.get_isSome_iff.mp this
      rw [hc.keys] at this
      obtain ⟨q, hq, rfl⟩ := List.mem_map.mp this
      exact ⟨q.2, hq⟩
    have hsh : s.Shallow := by
      intro p hp
      obtain ⟨u, -, hcu⟩ := hcomp p hp
      exact hcu.props.1
    obtain ⟨l', hl'⟩ := C22_terminates H debug s hw hdef hac hsh hk hlen fuel hf
    have hc' := compile_ok_compilesTo hw hl'
    rw [hl']
    have hdeps : l'.dependencies = l.dependencies :=
      depsSorted_ext hc'.deps hc.deps fun d => (hc'.used d).trans (hc.used d).symm
    obtain ⟨rank, hr⟩ := hac
    have htypes : l'.types = l.types :=
      compiled_unique hr hc'.sorted hc.sorted hc'.keys hc.keys hc'.types hc.types
    have hn := hc'.name.trans hc.name.symm
    have he := hc'.externTypes.trans hc.externTypes.symm
    cases l'
    cases l
    simp_all

/-! ## C24 -/

/-- **C24, on library level**: a well-formed library whose references are to its own types (without
cycles of ids) and to recorded external types, with exactly one dependency per external library and no
external library at the size limit, can be turned into symbolic form, and compiling that gives back
the same library, for every hash and in both build modes. Missing: libraries outside these
conditions, see the theorems below. -/
theorem C24_roundtrip_partial (H : Hash) (l : TypeLib) (hw : l.WF) (hdef : l.Defined H)
    (hac : l.Acyclic H) (hrec : l.Recorded) (hex : l.ExactDeps) (hroom : l.Roomy) :
    ∃ s, l.toSymbolic H = .ok s ∧
      ∀ debug fuel, l.types.length ≤ fuel → s.compile H debug fuel = .ok l := by
  obtain ⟨us, h1, h2⟩ := toSymTypes_ok (H := H) hw hroom hw.types fun p hp =>
    ⟨fun id hid => by
      obtain ⟨r, hr, hid⟩ := List.mem_flatMap.mp hid
      exact hdef p hp r hr id hid,
    fun e he => by
      obtain ⟨r, hr, he⟩ := List.mem_flatMap.mp he
      exact hrec p hp r hr e he⟩
  refine ⟨⟨l.name, l.dependencies, l.externTypes, us⟩, ?_, ?_⟩
  · unfold TypeLib.toSymbolic
    rw [h1]; rfl
  intro debug fuel hf
  have hlen : l.types.length = us.length := all2_length h2
  have hkeys : l.types.keys = us.keys := by
    simp only [OMap.keys]
    exact all2_map_fst (R := fun p q => Ty.CompiledTo (l.idOf H) q p ∧
      SymOf H l (p.refs.flatMap LibRef.locals) (.embedded q)) h2
  have hus : us.Sorted := by
    have hs := hw.typesSorted
    simp only [OMap.Sorted, ← List.pairwise_map (f := Prod.fst)
      (R := fun a b => KeyOrd.lt a b = true)] at hs ⊢
    simp only [OMap.keys] at hkeys
    rw [← hkeys]; exact hs
  have hback : ∀ q ∈ us, ∃ u, (q.1, u) ∈ l.types ∧ q.2.CompiledTo (l.idOf H) u ∧
      SymOf H l (u.refs.flatMap LibRef.locals) (.embedded q.2) := by
    intro q hq
    obtain ⟨p, hp, he, h3, h4⟩ := all2_right h2 hq
    exact ⟨p.2, by rw [← he]; exact hp, h3, h4⟩
  have hws : SymbolicLib.WF ⟨l.name, l.dependencies, l.externTypes, us⟩ := by
    refine ⟨hus, ?_, hw.deps, hw.fewDeps, hw.externSorted, hw.fewExterns, hw.externs, ?_⟩
    · intro e
      apply hw.nonEmpty
      have he : us.length = 0 := by simp only at e; rw [e]; rfl
      exact List.eq_nil_of_length_eq_zero (hlen.trans he)
    · intro q hq
      obtain ⟨u, -, -, h4⟩ := hback q hq
      exact Deep.embedded_inv h4.deep
  refine (C21_compiles_iff H debug fuel _ hws (by simp only; omega) l).mpr ⟨?_, ?_, ?_, ?_⟩
  · refine ⟨rfl, rfl, hw.typesSorted, hkeys, ?_, hw.deps, ?_⟩
    · intro n t u ht hu
      obtain ⟨u', hu', h3, -⟩ := hback _ ht
      have := OMap.get_of_mem hw.typesSorted hu
      have h' := OMap.get_of_mem hw.typesSorted hu'
      rw [this] at h'
      cases h'
      exact h3
    · intro d
      constructor
      · intro hd
        refine ⟨hd, (hex.used d hd).1, (hex.used d hd).2, ?_⟩
        intro e he hen
        rw [hex.unique e he d hd hen]
        simp [LawfulKeyOrd.irrefl]
      · exact fun h => h.1
  · obtain ⟨rank, hr⟩ := hac
    refine ⟨fun n => match l.idOf H n with | some id => rank id | none => 0, ?_⟩
    intro q hq n hm
    obtain ⟨u, hu, -, h4⟩ := hback q hq
    obtain ⟨id, hid, hn⟩ := h4.names n (by obtain ⟨r, h1, h2⟩ := hm; exact .embedded h1 h2)
    obtain ⟨r, hr', hid⟩ := List.mem_flatMap.mp hid
    have hq' : l.idOf H q.1 = some (u.semIdNamed H LibRef.commit q.1) := by
      unfold TypeLib.idOf
      rw [OMap.get_of_mem hw.typesSorted hu]; rfl
    simp only [hn, hq']
    exact hr (q.1, u) hu r hr' id hid
  · exact fun p hp hne => hex.listed p hp hne
  · simp only; rw [← hlen]; exact hw.fewTypes

/-- **C24, for every library that was compiled**: if the external symbols of the symbolic library are
recorded and no external library is at the size limit, `to_symbolic` gives back the symbolic library
(with its dependencies reduced to the used ones) and compiling it again gives back the same compiled
library, unless two of the texts hashed for the types of the compiled library collide. -/
theorem C24_compiled_roundtrip_partial (H : Hash) (debug : Bool) (fuel : Nat) (s : SymbolicLib)
    (hw : s.WF) (hrec : s.Recorded) (l : TypeLib) (h : s.compile H debug fuel = .ok l)
    (hroom : l.Roomy) :
    (l.toSymbolic H = .ok { s with dependencies := l.dependencies } ∧
      ∀ debug' fuel', s.types.length ≤ fuel' →
        SymbolicLib.compile H debug' fuel' { s with dependencies := l.dependencies } = .ok l) ∨
    Collision H (· ∈ l.namedTexts) := by
  by_cases hcol : Collision H (· ∈ l.namedTexts)
  · exact Or.inr hcol
  left
  have hc := compile_ok_compilesTo hw h
  obtain ⟨-, hac, -, hk, hlen⟩ := C22_conditions_necessary H debug fuel s hw l h
  have hback : ∀ q ∈ l.types, ∃ t, (q.1, t) ∈ s.types ∧ t.CompiledTo (l.idOf H) q.2 := by
    intro q hq
    have : q.1 ∈ s.types.keys := by rw [← hc.keys]; exact List.mem_map_of_mem (f := Prod.fst) hq
    obtain ⟨p, hp, hpn⟩ := List.mem_map.mp this
    have hp : (q.1, p.2) ∈ s.types := by rw [← hpn]; exact hp
    exact ⟨p.2, hp, hc.types _ _ _ hp hq⟩
  have hleneq : l.types.length = s.types.length := by
    rw [← OMap.length_keys, hc.keys, OMap.length_keys]
  have hsym : ∀ p ∈ s.types, ∀ sym, p.2.Uses sym → l.Symbol sym := by
    intro p hp sym hu
    obtain ⟨h1, h2, h3, m, h4, h5⟩ := hrec p hp sym hu
    refine ⟨(hc.used _).mpr ⟨h1, h2, ⟨m, h4⟩, ?_⟩, m, by rw [hc.externTypes]; exact h4, h5⟩
    intro e he hen
    rw [h3 e he hen]
    simp [LawfulKeyOrd.irrefl]
  have hlw : l.WF := by
    refine ⟨hc.sorted, ?_, by omega, hc.deps, ?_, ?_, ?_, ?_, ?_⟩
    · intro e
      have := hleneq
      rw [e] at this
      exact hw.nonEmpty (List.eq_nil_of_length_eq_zero this.symm)
    · refine Nat.le_trans (nodup_length_le ?_ fun d hd => ((hc.used d).mp hd).1) hw.fewDeps
      exact List.Pairwise.imp
        (fun {a b} h (e : a = b) => KeyOrd.ne_of_lt h (congrArg Dependency.id e)) hc.deps
    · rw [hc.externTypes]; exact hw.externSorted
    · rw [hc.externTypes]; exact hw.fewExterns
    · rw [hc.externTypes]; exact hw.externs
    · intro q hq
      obtain ⟨t, ht, hct⟩ := hback q hq
      exact hct.deep (hw.types _ ht)
  have hdef : l.Defined H := by
    intro q hq r hr id hid
    obtain ⟨t, ht, hct⟩ := hback q hq
    obtain ⟨n, -, hn⟩ := hct.from.locals id (List.mem_flatMap.mpr ⟨r, hr, hid⟩)
    exact ⟨n, hn⟩
  have hrecl : l.Recorded := by
    intro q hq r hr e he
    obtain ⟨t, ht, hct⟩ := hback q hq
    obtain ⟨sym, hu, h1⟩ := hct.from.externs e (List.mem_flatMap.mpr ⟨r, hr, he⟩)
    exact ⟨sym, hsym _ ht sym (uses_embedded hu), h1⟩
  have hacl : l.Acyclic H := by
    obtain ⟨rank, hrank⟩ := hac
    classical
    refine ⟨fun id => if h : ∃ n, l.idOf H n = some id then rank (Classical.choose h) else 0, ?_⟩
    have hval : ∀ n id, l.idOf H n = some id →
        (if h : ∃ n, l.idOf H n = some id then rank (Classical.choose h) else 0) = rank n := by
      intro n id hn
      have hex : ∃ n, l.idOf H n = some id := ⟨n, hn⟩
      rw [dif_pos hex, idOf_inj hcol (Classical.choose_spec hex) hn]
    intro q hq r hr id hid
    obtain ⟨t, ht, hct⟩ := hback q hq
    obtain ⟨n, hm, hn⟩ := hct.from.locals id (List.mem_flatMap.mpr ⟨r, hr, hid⟩)
    have hq' : l.idOf H q.1 = some (q.2.semIdNamed H LibRef.commit q.1) := by
      unfold TypeLib.idOf
      rw [OMap.get_of_mem hlw.typesSorted hq]; rfl
    show (if h : _ then _ else _) < (if h : _ then _ else _)
    rw [hval n id hn, hval q.1 _ hq']
    exact hrank _ ht n (mentions_embedded hm)
  have hex : l.ExactDeps := by
    refine ⟨?_, ?_, ?_⟩
    · intro d hd
      obtain ⟨-, h1, h2, -⟩ := (hc.used d).mp hd
      exact ⟨h1, by rw [hc.externTypes]; exact h2⟩
    · exact (C26_dependencies_exact H debug fuel s hw l h).2.1
    · exact (C26_dependencies_exact H debug fuel s hw l h).2.2.1
  obtain ⟨s', h1, h2⟩ := C24_roundtrip_partial H l hlw hdef hacl hrecl hex hroom
  have hs' : s' = { s with dependencies := l.dependencies } := by
    obtain ⟨us, h3, h4⟩ := toSymTypes_ok (H := H) hlw hroom hlw.types fun p hp =>
      ⟨fun id hid => by
        obtain ⟨r, hr, hid⟩ := List.mem_flatMap.mp hid
        exact hdef p hp r hr id hid,
      fun e he => by
        obtain ⟨r, hr, he⟩ := List.mem_flatMap.mp he
        exact hrecl p hp r hr e he⟩
    unfold TypeLib.toSymbolic at h1
    rw [h3] at h1
    cases h1
    have hkeys : l.types.keys = us.keys := by
      simp only [OMap.keys]
      exact all2_map_fst (R := fun p q => Ty.CompiledTo (l.idOf H) q p ∧
        SymOf H l (p.refs.flatMap LibRef.locals) (.embedded q)) h4
    have hus : us.Sorted := by
      have hs := hlw.typesSorted
      simp only [OMap.Sorted, ← List.pairwise_map (f := Prod.fst)
        (R := fun a b => KeyOrd.lt a b = true)] at hs ⊢
      simp only [OMap.keys] at hkeys
      rw [← hkeys]; exact hs
    have htypes : us = s.types := by
      apply OMap.ext hus hw.typesSorted
      intro n
      have hiff : (us.get n).isSome ↔ (s.types.get n).isSome := by
        rw [OMap.get_isSome_iff, OMap.get_isSome_iff, ← hkeys, hc.keys]
      cases ha : us.get n with
      | none =>
        cases hb : s.types.get n with
        | none => rfl
        | some t => rw [ha, hb] at hiff; simp at hiff
      | some a =>
        cases hb : s.types.get n with
        | none => rw [ha, hb] at hiff; simp at hiff
        | some t =>
          obtain ⟨p, hp, he, h5, h6⟩ := all2_right h4 (OMap.get_mem ha)
          have hp : (n, p.2) ∈ l.types := by
            have : p.1 = n := he
            rw [← this]; exact hp
          have ht := OMap.get_mem hb
          have h7 := hc.types n t p.2 ht hp
          have : a = t := Ty.CompiledTo.left_unique (P := l.Symbol)
            (fun n n' id => idOf_inj hcol)
            (by
              rintro ⟨a1, a2, a3, a4⟩ ⟨b1, b2, b3, b4⟩ ⟨ha, m, hm, hma⟩ ⟨hb, m', hm', hmb⟩ e1 e2
              dsimp only at *
              subst e1 e2
              have e := depsSorted_id_inj hlw.deps ha hb rfl
              cases e
              have e1 := OMap.get_of_mem hlw.externSorted hm
              have e2 := OMap.get_of_mem hlw.externSorted hm'
              rw [e1] at e2
              cases e2
              have e3 := OMap.get_of_mem (hlw.externs _ hm).1 hma
              have e4 := OMap.get_of_mem (hlw.externs _ hm).1 hmb
              rw [e3] at e4
              cases e4
              rfl)
            h5 h7
            (fun sym hs => h6.symbols sym (by obtain ⟨r, h1, h2⟩ := hs; exact .embedded h1 h2))
            (hsym _ ht)
          rw [this]
    rw [htypes, hc.name, hc.externTypes]
  subst hs'
  exact ⟨h1, fun debug' fuel' hf => h2 debug' fuel' (by omega)⟩

/-- The external symbols of the example library are recorded. -/
theorem exSym_recorded : exSym.Recorded := by
  have hu : ∀ p ∈ exSym.types, ∀ sym, p.2.Uses sym → sym = exExt := by
    intro p hp sym hm
    simp only [exSym, List.mem_cons, List.not_mem_nil, or_false] at hp
    rcases hp with rfl | rfl | rfl
    · obtain ⟨r, hr, hm⟩ := hm
      simp only [Ty.refs, List.map_cons, List.map_nil, List.mem_cons, List.not_mem_nil, or_false]
        at hr
      rcases hr with rfl | rfl
      · cases hm
      · cases hm with
        | embedded hr hm =>
          simp only [Ty.refs, List.mem_cons, List.not_mem_nil, or_false] at hr
          subst hr
          cases hm with
          | embedded hr hm =>
            simp only [Ty.refs, List.mem_cons, List.not_mem_nil, or_false] at hr
            rcases hr with rfl | rfl
            · cases hm; rfl
            · cases hm
    · obtain ⟨r, hr, hm⟩ := hm
      simp [Ty.refs] at hr
    · obtain ⟨r, hr, hm⟩ := hm
      simp only [Ty.refs, List.map_cons, List.map_nil, List.mem_cons, List.not_mem_nil, or_false]
        at hr
      subst hr
      cases hm
  intro p hp sym hs
  rw [hu p hp sym hs]
  refine ⟨by simp [exSym, exExt], by decide, ?_, [(Id32.rep 5, n!"U")], by simp [exSym, exExt],
    by simp [exExt]⟩
  intro d hd
  simp only [exSym, List.mem_cons, List.not_mem_nil, or_false] at hd
  rcases hd with rfl | rfl
  · intro _; rfl
  · intro h; exact absurd h (by decide)

/-- The example library, its compiled form and the symbolic form of that. -/
example : ∃ l, exSym.compile toyHash true 2 = .ok l ∧ exSym.WF ∧ exSym.Recorded ∧ l.Roomy :=
  ⟨_, rfl, exSym_wf, exSym_recorded, by simp [TypeLib.Roomy, exSym]⟩

/-- **C24 is violated** for libraries changed after compilation: adding a dependency (with
`TypeLib::import`) to any library whose types need none, then turning it into symbolic form and
compiling that, loses the dependency, for every hash. -/
theorem C24_unused_dependency_violated (H : Hash) (debug : Bool) (fuel : Nat) (d : Dependency) :
    ∃ l l' : TypeLib, l.WF ∧ d ∈ l.dependencies ∧
      (∃ s, l.toSymbolic H = .ok s ∧ s.compile H debug (fuel + 1) = .ok l') ∧
      l'.dependencies = [] := by
  refine ⟨⟨n!"Lib", [d], [], [(n!"A", .primitive 1)]⟩, ⟨n!"Lib", [], [], [(n!"A", .primitive 1)]⟩,
    ?_, by simp, ⟨⟨n!"Lib", [d], [], [(n!"A", .primitive 1)]⟩, rfl, ?_⟩, rfl⟩
  · refine ⟨?_, by simp, by simp, ?_, by simp, List.Pairwise.nil, by simp, by simp, ?_⟩
    · show List.Pairwise _ _
      simp
    · simp [DepsSorted]
    · intro p hp
      simp only [List.mem_cons, List.not_mem_nil, or_false] at hp
      subst hp
      exact ⟨trivial, by simp [Ty.refs]⟩
  · cases debug <;> cases fuel <;> rfl

/-! ## C27 -/

/-- **C27**: compilation of symbols succeeds only if every external type recorded by the builder is
provided by a known library of that name (which then is listed as a dependency); the result has the
types and the external types of the builder and nothing else. -/
theorem C27_externs_checked (b : LibBuilder) (hw : b.WF) (s : SymbolicLib)
    (h : b.compileSymbols = .ok s) :
    (∀ lib m id name, (lib, m) ∈ b.externTypes → (id, name) ∈ m → b.Provides lib id) ∧
    b.KnownLibs ∧ b.DirectlyDefined ∧ s.name = b.libName ∧ s.KnownLibs ∧
    (∀ d ∈ s.dependencies, (∃ v, (d, v) ∈ b.knownLibs) ∧ ∃ m, (d.name, m) ∈ b.externTypes) ∧
    s.types.Sorted ∧ (∀ p, p ∈ s.types ↔ p ∈ b.types) ∧
    s.externTypes.Sorted ∧ ∀ p, p ∈ s.externTypes ↔ p ∈ b.externTypes := by
  have hne : b.types ≠ [] := by
    intro e
    unfold LibBuilder.compileSymbols at h
    rw [e] at h
    cases h
  rcases compileSymbols_cases b hw hne with ⟨n, h', -⟩ | ⟨-, lib, m, -, h', -⟩ |
    ⟨hdef, dep, prov, h1, ⟨lib, m, id, name, ids, -, -, -, -, h'⟩ | ⟨lib, m, -, -, h'⟩ |
      ⟨h2, ⟨h', -⟩ | ⟨h', -⟩⟩⟩
  all_goals rw [h] at h'; cases h'
  have hsub : ∀ (ds acc : List Dependency) (d : Dependency), d ∈ ds.foldl depInsert acc →
      d ∈ acc ∨ d ∈ ds := by
    intro ds
    induction ds with
    | nil => intro acc d h; exact Or.inl h
    | cons x ds ih =>
      intro acc d h
      rcases ih _ d h with h | h
      · rcases mem_depInsert_sub h with rfl | h
        · simp
        · exact Or.inl h
      · simp [h]
  have hcov : ∀ (ds acc : List Dependency), ∀ d, d ∈ acc ∨ d ∈ ds →
      ∃ x ∈ ds.foldl depInsert acc, x.id = d.id := by
    intro ds
    induction ds with
    | nil =>
      rintro acc d (h | h)
      · exact ⟨d, h, rfl⟩
      · cases h
    | cons x ds ih =>
      rintro acc d (h | h)
      · exact ih _ d (Or.inl (mem_depInsert_old h))
      · rcases List.mem_cons.mp h with rfl | h
        · obtain ⟨y, hy, e⟩ := depInsert_id acc d
          obtain ⟨z, hz, e'⟩ := ih (depInsert acc d) y (Or.inl hy)
          exact ⟨z, hz, e'.trans e⟩
        · exact ih _ d (Or.inr h)
  have hmem : ∀ {V : Type} (l : List (Name × V)), (l.map Prod.fst).Nodup →
      (OMap.ofPairs l).Sorted ∧ ∀ p, p ∈ OMap.ofPairs l ↔ p ∈ l := by
    intro V l hn
    have hs : ∀ (l : List (Name × V)) (acc : OMap Name V), acc.Sorted →
        OMap.Sorted (l.foldl (fun m p => OMap.insert m p.1 p.2) acc) := by
      intro l
      induction l with
      | nil => exact fun acc h => h
      | cons p l ih => exact fun acc h => ih _ (OMap.sorted_insert h _ _)
    have hs := hs l [] List.Pairwise.nil
    refine ⟨hs, fun p => ?_⟩
    obtain ⟨k, v⟩ := p
    constructor
    · intro hp
      exact ofPairs_mem (OMap.get_of_mem hs hp)
    · intro hp
      obtain ⟨v', hv'⟩ := ofPairs_some hp
      have := hmGet_of_mem hn (ofPairs_mem hv')
      rw [hmGet_of_mem hn hp] at this
      cases this
      exact OMap.get_mem hv'
  have hdep : ∀ p ∈ b.externTypes, dep p.1 ∈
      (b.externTypes.map fun p => dep p.1).foldl depInsert [] := by
    intro p hp
    obtain ⟨x, hx, e⟩ := hcov (b.externTypes.map fun p => dep p.1) [] (dep p.1)
      (Or.inr (List.mem_map.mpr ⟨p, hp, rfl⟩))
    rcases hsub _ _ _ hx with h | h
    · cases h
    · obtain ⟨q, hq, rfl⟩ := List.mem_map.mp h
      have : dep q.1 = dep p.1 := by
        have hk := hw.known
        have a1 := (h1 q hq).1
        have a2 := (h1 p hp).1
        revert hk a1 a2
        generalize b.knownLibs = K
        intro hk a1 a2
        induction K with
        | nil => cases a1
        | cons y K ih =>
          simp only [List.map_cons, List.nodup_cons] at hk
          rcases List.mem_cons.mp a1 with e1 | a1 <;> rcases List.mem_cons.mp a2 with e2 | a2
          · exact congrArg Prod.fst (e1.trans e2.symm)
          · refine absurd (List.mem_map.mpr ⟨_, a2, ?_⟩) hk.1
            rw [← e1]; exact e.symm
          · refine absurd (List.mem_map.mpr ⟨_, a1, ?_⟩) hk.1
            rw [← e2]; exact e
          · exact ih hk.2 a1 a2
      rw [← this]; exact hx
  refine ⟨?_, ?_, hdef, rfl, ?_, ?_, (hmem _ hw.types).1, (hmem _ hw.types).2,
    (hmem _ hw.externs).1, (hmem _ hw.externs).2⟩
  · intro lib m id name hm hn
    exact ⟨_, (h1 _ hm).1, (h1 _ hm).2, fun ids e => (h2 _ hm).2 _ hn ids e⟩
  · exact fun p hp => ⟨_, (h1 p hp).1, (h1 p hp).2⟩
  · intro p hp _
    have hp := ((hmem _ hw.externs).2 p).mp hp
    exact ⟨dep p.1, hdep p hp, (h1 p hp).2⟩
  · intro d hd
    rcases hsub _ _ _ hd with h | h
    · cases h
    · obtain ⟨p, hp, rfl⟩ := List.mem_map.mp h
      exact ⟨⟨_, (h1 p hp).1⟩, p.2, by rw [(h1 p hp).2]; exact hp⟩

/-- **C27**: the error about a missing type names a recorded external type which the library of that
name does not provide. -/
theorem C27_error_sound (b : LibBuilder) (hw : b.WF) (hne : b.types ≠ []) (lib : Name) (id : SemId)
    (name : Name) (h : b.compileSymbols = .err (.dependencyMissesType lib id name)) :
    (∃ m, (lib, m) ∈ b.externTypes ∧ (id, name) ∈ m) ∧
    ∃ d ids, (d, some ids) ∈ b.knownLibs ∧ d.name = lib ∧ id ∉ ids := by
  rcases compileSymbols_cases b hw hne with ⟨n, h', -⟩ | ⟨-, lib', m, -, h', -⟩ |
    ⟨hdef, dep, prov, h1, ⟨lib', m, id', name', ids, hm, hn, hp, hid, h'⟩ | ⟨lib', m, -, -, h'⟩ |
      ⟨h2, ⟨h', -⟩ | ⟨h', -⟩⟩⟩
  all_goals rw [h] at h'; cases h'
  refine ⟨⟨m, hm, hn⟩, dep lib, ids, ?_, (h1 _ hm).2, hid⟩
  rw [← hp]
  exact (h1 _ hm).1

/-- **C27**: with distinct library names, at most 255 external libraries of at most 65535 types and
all direct references defined, compilation of symbols succeeds exactly when every recorded external
type is provided; otherwise the error names a missing type or library. -/
theorem C27_externs_exact (b : LibBuilder) (hw : b.WF) (hne : b.types ≠ [])
    (hdef : b.DirectlyDefined)
    (huniq : ∀ d ∈ b.knownLibs, ∀ e ∈ b.knownLibs, d.1.name = e.1.name → d = e)
    (hfew : b.externTypes.length ≤ 255) (hlen : ∀ p ∈ b.externTypes, p.2.length ≤ 65535) :
    ((∃ s, b.compileSymbols = .ok s) ↔ b.KnownLibs ∧
      ∀ lib m id name, (lib, m) ∈ b.externTypes → (id, name) ∈ m → b.Provides lib id) ∧
    (¬ b.KnownLibs → ∃ lib m, b.compileSymbols = .err (.unknownLib lib) ∧
      (lib, m) ∈ b.externTypes ∧ ∀ d ∈ b.knownLibs, d.1.name ≠ lib) ∧
    (b.KnownLibs → (¬ ∀ lib m id name, (lib, m) ∈ b.externTypes → (id, name) ∈ m →
      b.Provides lib id) → ∃ lib m id name, (lib, m) ∈ b.externTypes ∧ (id, name) ∈ m ∧
        ¬ b.Provides lib id ∧ b.compileSymbols = .err (.dependencyMissesType lib id name)) := by
  have hcases : (∃ lib m, (lib, m) ∈ b.externTypes ∧ b.compileSymbols = .err (.unknownLib lib) ∧
        ∀ d ∈ b.knownLibs, d.1.name ≠ lib) ∨
      (b.KnownLibs ∧ ∃ lib m id name, (lib, m) ∈ b.externTypes ∧ (id, name) ∈ m ∧
        ¬ b.Provides lib id ∧ b.compileSymbols = .err (.dependencyMissesType lib id name)) ∨
      (∃ s, b.compileSymbols = .ok s) := by
    rcases compileSymbols_cases b hw hne with ⟨n, -, hn, p, hp, hr⟩ | ⟨-, lib', m, hm, h', hno⟩ |
      ⟨-, dep, prov, h1, ⟨lib', m, id', name', ids, hm, hn, hp, hid, h'⟩ | ⟨lib', m, hm, hbig, -⟩ |
        ⟨h2, ⟨-, hbig⟩ | ⟨h', -⟩⟩⟩
    · obtain ⟨t, ht⟩ := hdef p hp n hr
      exact absurd ht (hn t)
    · exact Or.inl ⟨lib', m, hm, h', hno⟩
    · right; left
      refine ⟨fun p hp => ⟨_, (h1 p hp).1, (h1 p hp).2⟩, lib', m, id', name', hm, hn, ?_, h'⟩
      rintro ⟨e, he, hen, hprov⟩
      have := huniq e he _ (h1 _ hm).1 (hen.trans (h1 _ hm).2.symm)
      subst this
      exact hid (hprov ids hp)
    · have := hlen _ hm
      simp only at this
      omega
    · omega
    · exact Or.inr (Or.inr ⟨_, h'⟩)
  have hsound : (∃ s, b.compileSymbols = .ok s) → b.KnownLibs ∧
      ∀ lib m id name, (lib, m) ∈ b.externTypes → (id, name) ∈ m → b.Provides lib id := by
    rintro ⟨s, hs⟩
    have := C27_externs_checked b hw s hs
    exact ⟨this.2.1, this.1⟩
  refine ⟨⟨hsound, ?_⟩, ?_, ?_⟩
  · rintro ⟨hk, hp⟩
    rcases hcases with ⟨lib, m, hm, -, hno⟩ | ⟨-, lib, m, id, name, hm, hn, hnp, -⟩ | h
    · obtain ⟨e, he, hen⟩ := hk _ hm
      exact absurd hen (hno e he)
    · exact absurd (hp lib m id name hm hn) hnp
    · exact h
  · intro hk
    rcases hcases with ⟨lib, m, hm, h, hno⟩ | ⟨hk', -⟩ | h
    · exact ⟨lib, m, h, hm, hno⟩
    · exact absurd hk' hk
    · exact absurd (hsound h).1 hk
  · intro hk hp
    rcases hcases with ⟨lib, m, hm, h, hno⟩ | ⟨-, h⟩ | h
    · obtain ⟨e, he, hen⟩ := hk _ hm
      exact absurd hen (hno e he)
    · exact h
    · exact absurd (hsound h).2 hp

/-- A builder with one external type. -/
def exBuilder (ids : List SemId) : LibBuilder where
  libName := n!"Lib"
  knownLibs := [(⟨Id32.rep 7, n!"Old"⟩, none), (⟨Id32.rep 9, n!"Std"⟩, some ids)]
  externTypes := [(n!"Std", [(Id32.rep 5, n!"U")])]
  types := [(n!"B", .tuple [.named n!"A"]), (n!"A", .list (.extern exExt) ⟨0, 9⟩)]

/-- The hypotheses are met, with and without the type in the library. -/
example (ids : List SemId) : (exBuilder ids).WF ∧ (exBuilder ids).DirectlyDefined ∧
    (∀ d ∈ (exBuilder ids).knownLibs, ∀ e ∈ (exBuilder ids).knownLibs,
      d.1.name = e.1.name → d = e) := by
  refine ⟨⟨by simp [exBuilder], by simp [exBuilder, Id32.rep], by simp [exBuilder], by
    simp [exBuilder]⟩, ?_, ?_⟩
  · intro p hp n hn
    simp only [exBuilder, List.mem_cons, List.not_mem_nil, or_false] at hp
    rcases hp with rfl | rfl
    · simp only [Ty.refs, List.mem_cons, List.not_mem_nil, or_false, TranspileRef.named.injEq] at hn
      subst hn
      exact ⟨_, by simp [exBuilder]; rfl⟩
    · simp [Ty.refs] at hn
  · intro d hd e he
    simp only [exBuilder, List.mem_cons, List.not_mem_nil, or_false] at hd he
    rcases hd with rfl | rfl <;> rcases he with rfl | rfl <;> simp

example : (∃ s, (exBuilder [Id32.rep 4, Id32.rep 5]).compileSymbols = .ok s) ∧
    (exBuilder [Id32.rep 4]).compileSymbols
      = .err (.dependencyMissesType n!"Std" (Id32.rep 5) n!"U") := ⟨⟨_, rfl⟩, rfl⟩

/-! ## C28 -/

/-- One call changing a library. -/
inductive LibCall where
  | import (d : Dependency)
  | populate (n : Name) (t : Ty LibRef)

/-- The effect of a call, with its outcome. -/
def LibCall.run (l : TypeLib) : LibCall → Out CompileError Unit × TypeLib
  | .import d => l.import d
  | .populate n t => l.populate n t

/-- The library after a sequence of calls. -/
def runCalls (l : TypeLib) (cs : List LibCall) : TypeLib := cs.foldl (fun l c => (c.run l).2) l

/-- **C28**, one call: a failed call leaves the library unchanged, a successful one adds exactly one
entry that was not there (no dependency of the same id, no type of the same name) and keeps all the
others. A call never panics. -/
theorem C28_call (l : TypeLib) (hw : l.WF) (c : LibCall) :
    ((∃ e, (c.run l).1 = .err e) ∧ (c.run l).2 = l) ∨
    ((c.run l).1 = .ok () ∧ (c.run l).2.name = l.name ∧ (c.run l).2.externTypes = l.externTypes ∧
      match c with
      | .import d => (∀ x ∈ l.dependencies, x.id ≠ d.id) ∧ (c.run l).2.types = l.types ∧
          ∀ x, x ∈ (c.run l).2.dependencies ↔ x = d ∨ x ∈ l.dependencies
      | .populate n t => (∀ u, (n, u) ∉ l.types) ∧
          (c.run l).2.dependencies = l.dependencies ∧
          ∀ p, p ∈ (c.run l).2.types ↔ p = (n, t) ∨ p ∈ l.types) := by
  cases c with
  | «import» d =>
    simp only [LibCall.run, TypeLib.import]
    split
    · exact Or.inl ⟨⟨_, rfl⟩, rfl⟩
    · rename_i hno
      split
      · exact Or.inl ⟨⟨_, rfl⟩, rfl⟩
      · right
        have hno : ∀ x ∈ l.dependencies, x.id ≠ d.id := by
          intro x hx e
          apply hno
          simp only [List.any_eq_true, decide_eq_true_eq]
          exact ⟨x, hx, e⟩
        refine ⟨rfl, rfl, rfl, hno, rfl, ?_⟩
        intro x
        constructor
        · exact mem_depInsert_sub
        · rintro (rfl | h)
          · exact mem_depInsert_new hno
          · exact mem_depInsert_old h
  | populate n t =>
    simp only [LibCall.run, TypeLib.populate]
    split
    · exact Or.inl ⟨⟨_, rfl⟩, rfl⟩
    · rename_i hno
      split
      · exact Or.inl ⟨⟨_, rfl⟩, rfl⟩
      · right
        have hnone : l.types.get n = none := by
          cases h : l.types.get n with
          | none => rfl
          | some => simp [h] at hno
        have hs := OMap.sorted_insert hw.typesSorted n t
        refine ⟨rfl, rfl, rfl, ?_, rfl, ?_⟩
        · intro u hu
          rw [OMap.get_of_mem hw.typesSorted hu] at hnone
          cases hnone
        · rintro ⟨k, v⟩
          rw [← OMap.get_eq_some_iff hs, OMap.get_insert, ← OMap.get_eq_some_iff hw.typesSorted]
          constructor
          · intro h
            split at h
            · rename_i e; cases h; rw [e]; exact Or.inl rfl
            · exact Or.inr h
          · rintro (e | h)
            · cases e; simp
            · rw [if_neg, h]
              intro e
              rw [← e, hnone] at h
              cases h

/-- **C28**, any sequence of calls: starting from a well-formed library and populating it with types
within their limits, the library stays well-formed (sorted, duplicate-free, within all limits), keeps
its name and external types, and keeps every dependency and every type it had. -/
theorem C28_sequence (l : TypeLib) (hw : l.WF) (cs : List LibCall)
    (hcs : ∀ n t, LibCall.populate n t ∈ cs → t.LibDeep) :
    (runCalls l cs).WF ∧ (runCalls l cs).name = l.name ∧
    (runCalls l cs).externTypes = l.externTypes ∧
    (∀ d ∈ l.dependencies, d ∈ (runCalls l cs).dependencies) ∧
    (∀ p ∈ l.types, p ∈ (runCalls l cs).types) ∧
    (∀ d ∈ (runCalls l cs).dependencies, d ∈ l.dependencies ∨ LibCall.import d ∈ cs) ∧
    (∀ p ∈ (runCalls l cs).types, p ∈ l.types ∨ LibCall.populate p.1 p.2 ∈ cs) := by
  induction cs generalizing l with
  | nil => exact ⟨hw, rfl, rfl, fun _ h => h, fun _ h => h, fun _ h => Or.inl h, fun _ h => Or.inl h⟩
  | cons c cs ih =>
    have step : (c.run l).2.WF := by
      cases c with
      | «import» d =>
        simp only [LibCall.run, TypeLib.import]
        split
        · exact hw
        · split
          · exact hw
          · have hlen : ∀ s : List Dependency, (depInsert s d).length ≤ s.length + 1 := by
              intro s
              induction s with
              | nil => simp [depInsert]
              | cons a s ih =>
                simp only [depInsert]
                split
                · simp
                · split <;> simp; omega
            have := hlen l.dependencies
            exact { hw with deps := depsSorted_insert hw.deps d, fewDeps := by simp only; omega }
      | populate n t =>
        have ht := hcs n t (by simp)
        simp only [LibCall.run, TypeLib.populate]
        split
        · exact hw
        · split
          · exact hw
          · have hlen : ∀ s : OMap Name (Ty LibRef), (s.insert n t).length ≤ s.length + 1 := by
              intro s
              induction s with
              | nil => simp [OMap.insert]
              | cons a s ih =>
                simp only [OMap.insert]
                split
                · simp
                · split <;> simp; omega
            have := hlen l.types
            refine { hw with
              typesSorted := OMap.sorted_insert hw.typesSorted n t
              nonEmpty := ?_
              fewTypes := by simp only; omega
              types := ?_ }
            · intro e
              have := OMap.get_insert l.types n t n
              simp only at e
              rw [e] at this
              simp at this
            · intro p hp
              rcases OMap.mem_insert_key hp with h | h
              · rw [h]; exact ht
              · exact hw.types p h
    have hrun : runCalls l (c :: cs) = runCalls (c.run l).2 cs := rfl
    rw [hrun]
    obtain ⟨h1, h2, h3, h4, h5, h6, h7⟩ := ih _ step fun n t h => hcs n t (by simp [h])
    have hone := C28_call l hw c
    rcases hone with ⟨-, he⟩ | ⟨-, e1, e2, hc⟩
    · rw [he] at h1 h2 h3 h4 h5 h6 h7 ⊢
      refine ⟨h1, h2, h3, h4, h5, ?_, ?_⟩
      · intro d hd
        rcases h6 d hd with h | h <;> simp [h]
      · intro p hp
        rcases h7 p hp with h | h <;> simp [h]
    · refine ⟨h1, h2.trans e1, h3.trans e2, ?_⟩
      cases c with
      | «import» d =>
        obtain ⟨-, et, hd⟩ := hc
        refine ⟨fun x hx => h4 x ((hd x).mpr (Or.inr hx)), fun p hp => h5 p (by rw [et]; exact hp),
          ?_, ?_⟩
        · intro x hx
          rcases h6 x hx with h | h
          · rcases (hd x).mp h with rfl | h
            · simp
            · exact Or.inl h
          · simp [h]
        · intro p hp
          rcases h7 p hp with h | h
          · rw [et] at h; exact Or.inl h
          · simp [h]
      | populate n t =>
        obtain ⟨-, ed, hp⟩ := hc
        refine ⟨fun x hx => h4 x (by rw [ed]; exact hx), fun p h => h5 p ((hp p).mpr (Or.inr h)),
          ?_, ?_⟩
        · intro x hx
          rcases h6 x hx with h | h
          · rw [ed] at h; exact Or.inl h
          · simp [h]
        · intro p h
          rcases h7 p h with h | h
          · rcases (hp p).mp h with rfl | h
            · simp
            · exact Or.inl h
          · simp [h]

/-- A sequence with a repeated name and a repeated dependency. -/
example : (runCalls ⟨n!"Lib", [], [], [(n!"M", .primitive 1)]⟩
    [.populate n!"A" (.primitive 2), .import ⟨Id32.rep 3, n!"X"⟩, .populate n!"M" (.primitive 5),
     .import ⟨Id32.rep 3, n!"Y"⟩, .import ⟨Id32.rep 1, n!"X"⟩])
    = ⟨n!"Lib", [⟨Id32.rep 1, n!"X"⟩, ⟨Id32.rep 3, n!"X"⟩], [],
        [(n!"A", .primitive 2), (n!"M", .primitive 1)]⟩ := by decide +kernel

/-- Dependencies are told apart by id only: two with the same name, which the code's own equality
(`PartialEq for Dependency`) takes for equal, can both be imported, into any library with room. -/
theorem C28_same_name_allowed (l : TypeLib) (a b : Dependency) (hn : a.name = b.name)
    (hid : a.id ≠ b.id) (hroom : l.dependencies.length ≤ 253)
    (ha : ∀ x ∈ l.dependencies, x.id ≠ a.id) (hb : ∀ x ∈ l.dependencies, x.id ≠ b.id) :
    (l.import a).1 = .ok () ∧ ((l.import a).2.import b).1 = .ok () ∧ a.eqv b = true ∧
    a ∈ ((l.import a).2.import b).2.dependencies ∧
    b ∈ ((l.import a).2.import b).2.dependencies := by
  have hlen : ∀ s : List Dependency, (depInsert s a).length ≤ s.length + 1 := by
    intro s
    induction s with
    | nil => simp [depInsert]
    | cons x s ih =>
      simp only [depInsert]
      split
      · simp
      · split <;> simp; omega
  have h1 : l.dependencies.any (fun d => d.id = a.id) = false := by
    simp only [List.any_eq_false, decide_eq_true_eq]; exact ha
  have e1 : l.import a = (.ok (), { l with dependencies := depInsert l.dependencies a }) := by
    simp only [TypeLib.import, h1, Bool.false_eq_true, if_false]
    rw [if_neg (by omega)]
  have hb' : ∀ x ∈ depInsert l.dependencies a, x.id ≠ b.id := by
    intro x hx
    rcases mem_depInsert_sub hx with rfl | hx
    · exact hid
    · exact hb x hx
  have h2 : (depInsert l.dependencies a).any (fun d => d.id = b.id) = false := by
    simp only [List.any_eq_false, decide_eq_true_eq]; exact hb'
  have := hlen l.dependencies
  have e2 : (l.import a).2.import b = (.ok (), { l with
      dependencies := depInsert (depInsert l.dependencies a) b }) := by
    rw [e1]
    simp only [TypeLib.import, h2, Bool.false_eq_true, if_false]
    rw [if_neg (by omega)]
  rw [e2, e1]
  exact ⟨rfl, rfl, by simp [Dependency.eqv, hn], mem_depInsert_old (mem_depInsert_new ha),
    mem_depInsert_new hb'⟩

end Verif
