import Verif.Lemmas.CompileLib
import Verif.Spec.Example

/-!
# Properties C08, C21-C23, C25, C26: compilation of symbolic libraries

Everything holds for every hash function `H`, every number of passes allowed (`fuel`) and both build
modes (`debug`) unless stated.
-/

namespace Verif

/-! ## An example library -/

/-- External symbol `Std.U`. -/
def exExt : SymbolRef := ⟨n!"Std", n!"U", Id32.rep 9, Id32.rep 5⟩

/-- `Alpha` refers to `Beta` and, two levels deep, to `Gamma` and to an external type; `Gamma` refers
to `Beta`. Two dependencies, one of them unused. -/
def exSym : SymbolicLib where
  name := n!"Lib"
  dependencies := [⟨Id32.rep 9, n!"Std"⟩, ⟨Id32.rep 10, n!"Zed"⟩]
  externTypes := [(n!"Std", [(Id32.rep 5, n!"U")])]
  types :=
    [(n!"Alpha", .struct [(n!"b", .named n!"Beta"),
        (n!"l", .embedded (.list (.embedded (.tuple [.extern exExt, .named n!"Gamma"])) ⟨0, 10⟩))]),
     (n!"Beta", .enum [⟨n!"x", 0⟩, ⟨n!"y", 1⟩]),
     (n!"Gamma", .union [(⟨n!"v", 3⟩, .named n!"Beta")])]

/-- What `exSym` mentions. -/
theorem exSym_mentions : ∀ p ∈ exSym.types, ∀ n, p.2.Mentions n →
    (p.1 = n!"Alpha" ∧ (n = n!"Beta" ∨ n = n!"Gamma")) ∨ (p.1 = n!"Gamma" ∧ n = n!"Beta") := by
  intro p hp n hm
  simp only [exSym, List.mem_cons, List.not_mem_nil, or_false] at hp
  rcases hp with rfl | rfl | rfl
  · obtain ⟨r, hr, hm⟩ := hm
    simp only [Ty.refs, List.map_cons, List.map_nil, List.mem_cons, List.not_mem_nil, or_false] at hr
    rcases hr with rfl | rfl
    · cases hm; exact Or.inl ⟨rfl, Or.inl rfl⟩
    · cases hm with
      | embedded hr hm =>
        simp only [Ty.refs, List.mem_cons, List.not_mem_nil, or_false] at hr
        subst hr
        cases hm with
        | embedded hr hm =>
          simp only [Ty.refs, List.mem_cons, List.not_mem_nil, or_false] at hr
          rcases hr with rfl | rfl
          · cases hm
          · cases hm; exact Or.inl ⟨rfl, Or.inr rfl⟩
  · obtain ⟨r, hr, hm⟩ := hm
    simp [Ty.refs] at hr
  · obtain ⟨r, hr, hm⟩ := hm
    simp only [Ty.refs, List.map_cons, List.map_nil, List.mem_cons, List.not_mem_nil, or_false] at hr
    subst hr
    cases hm
    exact Or.inr ⟨rfl, rfl⟩

theorem exSym_deep : ∀ p ∈ exSym.types, p.2.Deep := by
  intro p hp
  simp only [exSym, List.mem_cons, List.not_mem_nil, or_false] at hp
  rcases hp with rfl | rfl | rfl
  · refine ⟨by decide +revert, ?_⟩
    intro r hr
    simp only [Ty.refs, List.map_cons, List.map_nil, List.mem_cons, List.not_mem_nil, or_false] at hr
    rcases hr with rfl | rfl
    · exact .named _
    · refine .embedded trivial ?_
      intro r hr
      simp only [Ty.refs, List.mem_cons, List.not_mem_nil, or_false] at hr
      subst hr
      refine .embedded ⟨by simp, by simp⟩ ?_
      intro r hr
      simp only [Ty.refs, List.mem_cons, List.not_mem_nil, or_false] at hr
      rcases hr with rfl | rfl
      · exact .extern _
      · exact .named _
  · refine ⟨by decide, ?_⟩
    intro r hr
    simp [Ty.refs] at hr
  · refine ⟨?_, ?_⟩
    · show VariantsWF [⟨n!"v", 3⟩]
      decide
    · intro r hr
      simp only [Ty.refs, List.map_cons, List.map_nil, List.mem_cons, List.not_mem_nil, or_false] at hr
      subst hr
      exact .named _

theorem exSym_wf : exSym.WF where
  typesSorted := by
    show List.Pairwise _ _
    simp only [exSym, List.pairwise_cons, List.mem_cons, List.not_mem_nil, or_false, forall_eq_or_imp,
      forall_eq, List.Pairwise.nil, and_true, false_imp_iff, implies_true]
    decide
  nonEmpty := by simp [exSym]
  deps := by unfold DepsSorted; decide
  fewDeps := by decide
  externSorted := by unfold OMap.Sorted; decide
  fewExterns := by decide
  externs := by unfold OMap.Sorted; decide
  types := exSym_deep

theorem exSym_defined : exSym.Defined := by
  intro p hp n hm
  rcases exSym_mentions p hp n hm with ⟨-, rfl | rfl⟩ | ⟨-, rfl⟩ <;> simp [exSym]

theorem exSym_acyclic : exSym.Acyclic := by
  refine ⟨fun n => if n = n!"Alpha" then 2 else if n = n!"Gamma" then 1 else 0, ?_⟩
  intro p hp n hm
  rcases exSym_mentions p hp n hm with ⟨h, rfl | rfl⟩ | ⟨h, rfl⟩ <;> rw [h] <;> decide

theorem exSym_shallow : exSym.Shallow := by
  intro p hp
  simp only [exSym, List.mem_cons, List.not_mem_nil, or_false] at hp
  rcases hp with rfl | rfl | rfl <;> intro r hr
  · simp only [Ty.refs, List.map_cons, List.map_nil, List.mem_cons, List.not_mem_nil, or_false] at hr
    rcases hr with rfl | rfl
    · trivial
    · simp [TranspileRef.DepthLe, Ty.refs]
  · simp [Ty.refs] at hr
  · simp only [Ty.refs, List.map_cons, List.map_nil, List.mem_cons, List.not_mem_nil, or_false] at hr
    subst hr
    trivial

theorem exSym_knownLibs : exSym.KnownLibs := by
  intro p hp _
  simp only [exSym, List.mem_cons, List.not_mem_nil, or_false] at hp
  subst hp
  exact ⟨⟨Id32.rep 9, n!"Std"⟩, by simp [exSym], rfl⟩

/-! ## C08 -/

/-- **C08 is violated**: a type with a named reference, `data X: (B)`, gets one id as a symbolic type
(the name `B` is committed to) and another as a compiled type (the id of `B` is committed to); the
two can only agree if the hash function collides on the two texts. -/
theorem C08_same_id_violated (H : Hash) (b : SemId) (name : Name) :
    ∃ (t : Ty TranspileRef) (u : Ty LibRef), t.Deep ∧
      t.CompiledTo (fun n => if n = n!"B" then some b else none) u ∧
      (TranspileRef.semIdNamed H t name = u.semIdNamed H LibRef.commit name →
        Clash H SEM_ID_TAG (name.commit ++ TranspileRef.commitTy t) (name.commit ++ u.commit LibRef.commit)) := by
  refine ⟨.tuple [.named n!"B"], .tuple [.named b], ⟨⟨by simp, by simp⟩, ?_⟩, ?_, ?_⟩
  · intro r hr
    simp only [Ty.refs, List.mem_cons, List.not_mem_nil, or_false] at hr
    subst hr
    exact .named _
  · exact ⟨by simp [LibRef.Compiled], trivial⟩
  · intro h
    rw [TranspileRef.semIdNamed, Ty.semIdNamed_eq] at h
    rcases taggedHash_inj h with h | h
    · have h := congrArg List.length h
      simp [TranspileRef.commitTy, TranspileRef.commitRefs, TranspileRef.commit, Ty.commit,
        LibRef.commit, SemId.commit, Name.commit, b.len] at h
    · exact h

/-- The two ids really differ for a concrete hash function. -/
example : TranspileRef.semIdNamed toyHash (.tuple [.named n!"B"]) n!"X" ≠
    (Ty.tuple [LibRef.named (Id32.rep 1)]).semIdNamed toyHash LibRef.commit n!"X" := by
  decide +kernel

/-- **C08, what holds**: a type that mentions no name of its own library, at any depth, has the same
id in symbolic and in compiled form, for every hash. Missing: types with named references. -/
theorem C08_same_id_partial (H : Hash) (idx : Name → Option SemId) (t : Ty TranspileRef)
    (u : Ty LibRef) (hc : t.CompiledTo idx u) (hn : ∀ n, ¬ t.Mentions n) (name : Name) :
    TranspileRef.semIdNamed H t name = u.semIdNamed H LibRef.commit name := by
  rw [TranspileRef.semIdNamed, Ty.semIdNamed_eq, TranspileRef.commitTy_eq]
  rw [Ty.commit_congr hc fun a ha b hb => hb.commit fun n hm => hn n ⟨a, ha, hm⟩]

/-- A type with an embedded type and an external reference. -/
example : Ty.CompiledTo (fun _ => none)
    (.struct [(n!"a", .extern exExt), (n!"b", .embedded (.list (.extern exExt) ⟨0, 9⟩))])
    (.struct [(n!"a", .extern ⟨Id32.rep 9, Id32.rep 5⟩),
      (n!"b", .inline (.list (.extern ⟨Id32.rep 9, Id32.rep 5⟩) ⟨0, 9⟩))]) ∧
    ∀ n, ¬ Ty.Mentions
      (.struct [(n!"a", .extern exExt), (n!"b", .embedded (.list (.extern exExt) ⟨0, 9⟩))]) n := by
  refine ⟨by simp [Ty.CompiledTo, Ty.Rel, All2, LibRef.Compiled, InlineRef.Compiled, exExt], ?_⟩
  rintro n ⟨r, hr, hm⟩
  simp only [Ty.refs, List.map_cons, List.map_nil, List.mem_cons, List.not_mem_nil, or_false] at hr
  rcases hr with rfl | rfl
  · cases hm
  · cases hm with
    | embedded hr hm =>
      simp only [Ty.refs, List.mem_cons, List.not_mem_nil, or_false] at hr
      subst hr
      cases hm

/-! ## C21 -/

/-- **C21**: if compilation succeeds, the compiled library has exactly the type names of the symbolic
one, and each type is compiled with every name, at any depth, replaced by the id under which that
name appears in the compiled library, every external symbol replaced by its library and type id, and
nothing else changed. -/
theorem C21_names_resolved (H : Hash) (debug : Bool) (fuel : Nat) (s : SymbolicLib) (hw : s.WF)
    (l : TypeLib) (h : s.compile H debug fuel = .ok l) :
    l.name = s.name ∧ l.externTypes = s.externTypes ∧ l.types.Sorted ∧
    l.types.keys = s.types.keys ∧
    ∀ n t, (n, t) ∈ s.types → ∃ u, (n, u) ∈ l.types ∧ t.CompiledTo (l.idOf H) u := by
  obtain ⟨st, used, hi, ho, -, -, rfl⟩ := compile_ok hw h
  obtain ⟨h1, h2, h3, h4, -⟩ := hi.finished hw.typesSorted ho
  refine ⟨rfl, rfl, h1, h2, ?_⟩
  intro n t ht
  obtain ⟨u, hu, hc⟩ := h4 n t (OMap.get_of_mem hw.typesSorted ht)
  exact ⟨u, OMap.get_mem hu, hc.mono fun m id hm => by rw [← hm]; exact (h3 m).symm⟩

/-- Every name a type of the compiled library refers to is a name of that library. -/
theorem C21_names_defined (H : Hash) (debug : Bool) (fuel : Nat) (s : SymbolicLib) (hw : s.WF)
    (l : TypeLib) (h : s.compile H debug fuel = .ok l) : s.Defined := by
  intro p hp n hm
  obtain ⟨-, -, -, hk, hall⟩ := C21_names_resolved H debug fuel s hw l h
  obtain ⟨u, -, hc⟩ := hall p.1 p.2 hp
  have := hc.props.2 n hm
  unfold TypeLib.idOf at this
  rw [Option.isSome_map] at this
  have := OMap.get_isSome_iff.mp this
  rw [hk] at this
  obtain ⟨q, hq, rfl⟩ := List.mem_map.mp this
  exact ⟨q.2, hq⟩

/-- The example library compiles in two passes (`Alpha` has to wait for the others), also in release
mode. -/
example (debug : Bool) : ∃ l, exSym.compile toyHash debug 2 = .ok l := by
  cases debug
  · exact ⟨_, rfl⟩
  · exact ⟨_, rfl⟩

example : exSym.compile toyHash true 1 = .diverge := rfl

/-! ## C22 -/

/-- **C22**: if every mentioned name is defined, no type mentions itself even indirectly, embedding
is at most three levels deep, the external libraries are among the dependencies and there are at most
65535 types, compilation succeeds within as many passes as there are types, in both build modes and
for every hash. -/
theorem C22_terminates (H : Hash) (debug : Bool) (s : SymbolicLib) (hw : s.WF) (hdef : s.Defined)
    (hac : s.Acyclic) (hsh : s.Shallow) (hk : s.KnownLibs) (hlen : s.types.length ≤ 65535)
    (fuel : Nat) (hf : s.types.length ≤ fuel) : ∃ l, s.compile H debug fuel = .ok l := by
  rcases compile_cases H debug fuel s hw with
    ⟨st, -, hi, ho, ⟨-, used, hu, h'⟩ | ⟨lib, -, hl, hne, hno⟩ | ⟨hbig, -⟩⟩ | ⟨n, t, p, q, hT, hq, -⟩ |
    ⟨st, hi, hne, hs, -⟩ | ⟨hlt, -⟩
  · exact ⟨_, h'⟩
  · obtain ⟨p, hp, rfl⟩ := List.mem_map.mp hl
    obtain ⟨d, hd, he⟩ := hk p hp hne
    exact absurd he (hno d hd)
  · omega
  · exact absurd (hsh (n, t) (OMap.get_mem hT)) hq
  · obtain ⟨rank, hr⟩ := hac
    exfalso
    refine hi.not_stuck ?_ (rank := rank) ?_ hne hs
    · intro n t hT m hm
      obtain ⟨t', ht'⟩ := hdef (n, t) (OMap.get_mem hT) m hm
      exact ⟨t', OMap.get_of_mem hw.typesSorted ht'⟩
    · intro n t hT m hm
      exact hr (n, t) (OMap.get_mem hT) m hm
  · omega

/-- The conditions are also necessary: a library that compiles satisfies all of them. -/
theorem C22_conditions_necessary (H : Hash) (debug : Bool) (fuel : Nat) (s : SymbolicLib)
    (hw : s.WF) (l : TypeLib) (h : s.compile H debug fuel = .ok l) :
    s.Defined ∧ s.Acyclic ∧ s.Shallow ∧ s.KnownLibs ∧ s.types.length ≤ 65535 := by
  refine ⟨C21_names_defined H debug fuel s hw l h, ?_⟩
  obtain ⟨st, used, hi, ho, hlen, hu, rfl⟩ := compile_ok hw h
  obtain ⟨-, -, -, h4, rank, hr⟩ := hi.finished hw.typesSorted ho
  refine ⟨⟨rank, ?_⟩, ?_, ?_, hlen⟩
  · intro p hp n hm
    exact hr p.1 p.2 (OMap.get_of_mem hw.typesSorted hp) n hm
  · intro p hp
    obtain ⟨u, -, hc⟩ := h4 p.1 p.2 (OMap.get_of_mem hw.typesSorted hp)
    exact hc.props.1
  · intro p hp hne
    rcases usedDeps_spec hw.deps s.externTypes.keys (used := []) (by simp) List.Pairwise.nil with
      ⟨used', -, -, -, h, -⟩ | ⟨lib, -, -, -, h'⟩
    · exact h p.1 (List.mem_map_of_mem (f := Prod.fst) hp) hne
    · rw [hu] at h'; cases h'

example : exSym.WF ∧ exSym.Defined ∧ exSym.Acyclic ∧ exSym.Shallow ∧ exSym.KnownLibs ∧
    exSym.types.length ≤ 65535 :=
  ⟨exSym_wf, exSym_defined, exSym_acyclic, exSym_shallow, exSym_knownLibs, by simp [exSym]⟩

/-! ## C23 -/

/-- **C23 is violated**: for every symbolic library with shallow types whose names are undefined or
cyclic, compilation panics when debug assertions are on and never terminates when they are off (it
exceeds every bound on the number of passes). No error is ever returned. -/
theorem C23_bad_references_violated (H : Hash) (s : SymbolicLib) (hw : s.WF) (hsh : s.Shallow)
    (hbad : ¬ (s.Defined ∧ s.Acyclic)) :
    (∀ fuel, s.types.length ≤ fuel → s.compile H true fuel = .panic) ∧
    (∀ fuel, s.compile H false fuel = .diverge) := by
  have hno : ∀ debug fuel l, s.compile H debug fuel ≠ .ok l := by
    intro debug fuel l h
    have := C22_conditions_necessary H debug fuel s hw l h
    exact hbad ⟨this.1, this.2.1⟩
  have hnot : ∀ st, CompileInv H s.types st → st.oldTypes = [] → False := by
    intro st hi ho
    obtain ⟨-, -, h3, h4, rank, hr⟩ := hi.finished hw.typesSorted ho
    apply hbad
    constructor
    · intro p hp n hm
      obtain ⟨u, -, hc⟩ := h4 p.1 p.2 (OMap.get_of_mem hw.typesSorted hp)
      have h5 := hc.props.2 n hm
      obtain ⟨id, hid⟩ := Option.isSome_iff_exists.mp h5
      cases hn : st.newTypes.get n with
      | none => rw [(hi.todo n hn).2] at hid; cases hid
      | some v =>
        obtain ⟨-, -, t', ht', -⟩ := hi.done n v hn
        exact ⟨t', OMap.get_mem ht'⟩
    · exact ⟨rank, fun p hp n hm => hr p.1 p.2 (OMap.get_of_mem hw.typesSorted hp) n hm⟩
  constructor
  · intro fuel hf
    rcases compile_cases H true fuel s hw with
      ⟨st, -, hi, ho, -⟩ | ⟨n, t, p, q, hT, hq, -⟩ |
      ⟨st, hi, hne, hs, ⟨-, h⟩ | ⟨h, -⟩⟩ | ⟨hlt, -⟩
    · exact (hnot st hi ho).elim
    · exact absurd (hsh (n, t) (OMap.get_mem hT)) hq
    · exact h
    · cases h
    · omega
  · intro fuel
    rcases compile_cases H false fuel s hw with
      ⟨st, -, hi, ho, -⟩ | ⟨n, t, p, q, hT, hq, -⟩ |
      ⟨st, hi, hne, hs, ⟨h, -⟩ | ⟨-, h⟩⟩ | ⟨-, h⟩
    · exact (hnot st hi ho).elim
    · exact absurd (hsh (n, t) (OMap.get_mem hT)) hq
    · cases h
    · exact h
    · exact h

/-- A library whose only type refers to itself through a list: `data A: [A ^ 0..10]`. -/
def exCyclicLib : SymbolicLib where
  name := n!"Lib"
  dependencies := []
  externTypes := []
  types := [(n!"A", .list (.named n!"A") ⟨0, 10⟩)]

/-- The theorem is not vacuous: the cyclic library meets its hypotheses. -/
example : exCyclicLib.WF ∧ exCyclicLib.Shallow ∧ ¬ (exCyclicLib.Defined ∧ exCyclicLib.Acyclic) := by
  refine ⟨⟨?_, by simp [exCyclicLib], List.Pairwise.nil, by simp [exCyclicLib], List.Pairwise.nil,
    by simp [exCyclicLib], by simp [exCyclicLib], ?_⟩, ?_, ?_⟩
  · show List.Pairwise _ _
    simp [exCyclicLib]
  · intro p hp
    simp only [exCyclicLib, List.mem_cons, List.not_mem_nil, or_false] at hp
    subst hp
    refine ⟨trivial, ?_⟩
    intro r hr
    simp only [Ty.refs, List.mem_cons, List.not_mem_nil, or_false] at hr
    subst hr
    exact .named _
  · intro p hp r hr
    simp only [exCyclicLib, List.mem_cons, List.not_mem_nil, or_false] at hp
    subst hp
    simp only [Ty.refs, List.mem_cons, List.not_mem_nil, or_false] at hr
    subst hr
    trivial
  · rintro ⟨-, rank, hr⟩
    have := hr (n!"A", .list (.named n!"A") ⟨0, 10⟩) (by simp [exCyclicLib]) n!"A"
      ⟨_, by simp [Ty.refs], .named _⟩
    simp at this

/-- **C23, what holds**: a library with an undefined name or a cycle never compiles successfully, in
either build mode. Missing: an error is not returned (see `C23_bad_references_violated`). -/
theorem C23_bad_references_partial (H : Hash) (debug : Bool) (fuel : Nat) (s : SymbolicLib)
    (hw : s.WF) (hbad : ¬ (s.Defined ∧ s.Acyclic)) (l : TypeLib) :
    s.compile H debug fuel ≠ .ok l := by
  intro h
  have := C22_conditions_necessary H debug fuel s hw l h
  exact hbad ⟨this.1, this.2.1⟩

/-! ## C25 -/

/-- **C25**: the nesting error is returned only if a type of the library (the one named in the error)
embeds other types more than three levels deep. -/
theorem C25_nesting_error_sound (H : Hash) (debug : Bool) (fuel : Nat) (s : SymbolicLib)
    (hw : s.WF) (n : Name) (p : List Cls) (q : Option Cls)
    (h : s.compile H debug fuel = .err (.nestedInline n p q)) :
    ∃ t, (n, t) ∈ s.types ∧ ¬ t.DepthLe 3 := by
  rcases compile_cases H debug fuel s hw with
    ⟨st, -, hi, ho, ⟨-, used, -, h'⟩ | ⟨lib, h', -⟩ | ⟨-, h'⟩⟩ | ⟨n', t, p', q', hT, hq, h'⟩ |
    ⟨st, -, -, -, ⟨-, h'⟩ | ⟨-, h'⟩⟩ | ⟨-, h'⟩
  case inr.inl =>
    rw [h] at h'
    cases h'
    exact ⟨t, OMap.get_mem hT, hq⟩
  all_goals rw [h] at h'; cases h'

/-- **C25**: if a type of the library embeds others more than three levels deep, and names are
defined and acyclic, compilation ends with the nesting error. -/
theorem C25_nesting_error_complete (H : Hash) (debug : Bool) (fuel : Nat) (s : SymbolicLib)
    (hw : s.WF) (hdef : s.Defined) (hac : s.Acyclic) (hf : s.types.length ≤ fuel)
    (hdeep : ∃ p ∈ s.types, ¬ p.2.DepthLe 3) :
    ∃ n p q, s.compile H debug fuel = .err (.nestedInline n p q) := by
  obtain ⟨p, hp, hd⟩ := hdeep
  rcases compile_cases H debug fuel s hw with
    ⟨st, -, hi, ho, -⟩ | ⟨n, t, p, q, -, -, h'⟩ | ⟨st, hi, hne, hs, -⟩ | ⟨hlt, -⟩
  · obtain ⟨-, -, -, h4, -⟩ := hi.finished hw.typesSorted ho
    obtain ⟨u, -, hc⟩ := h4 p.1 p.2 (OMap.get_of_mem hw.typesSorted hp)
    exact absurd hc.props.1 hd
  · exact ⟨n, p, q, h'⟩
  · obtain ⟨rank, hr⟩ := hac
    exfalso
    refine hi.not_stuck ?_ (rank := rank) ?_ hne hs
    · intro n t hT m hm
      obtain ⟨t', ht'⟩ := hdef (n, t) (OMap.get_mem hT) m hm
      exact ⟨t', OMap.get_of_mem hw.typesSorted ht'⟩
    · intro n t hT m hm
      exact hr (n, t) (OMap.get_mem hT) m hm
  · omega

/-- Four levels of embedding are refused, three are not. -/
example :
    (∃ l, SymbolicLib.compile toyHash true 1 ⟨n!"Lib", [], [], [(n!"A",
      .tuple [.embedded (.tuple [.embedded (.tuple [.embedded (.primitive 1)])])])]⟩ = .ok l) ∧
    SymbolicLib.compile toyHash true 1 ⟨n!"Lib", [], [], [(n!"A",
      .tuple [.embedded (.tuple [.embedded (.tuple [.embedded (.list (.embedded (.primitive 1))
        ⟨0, 1⟩)])])])]⟩
      = .err (.nestedInline n!"A" [.tuple, .tuple] (some .list)) :=
  ⟨⟨_, rfl⟩, rfl⟩

/-! ## C26 -/

/-- **C26**: a compiled library lists as dependencies exactly one of the declared dependencies per
external library (other than the pseudo-library of embedded types): each listed dependency has the
name of an external library, each external library is listed, no two listed ones share a name, and
all of them were declared. -/
theorem C26_dependencies_exact (H : Hash) (debug : Bool) (fuel : Nat) (s : SymbolicLib) (hw : s.WF)
    (l : TypeLib) (h : s.compile H debug fuel = .ok l) :
    (∀ d ∈ l.dependencies, d ∈ s.dependencies ∧ d.name ≠ n!"_" ∧
      ∃ m, (d.name, m) ∈ l.externTypes) ∧
    (∀ p ∈ l.externTypes, p.1 ≠ n!"_" → ∃ d ∈ l.dependencies, d.name = p.1) ∧
    (∀ d ∈ l.dependencies, ∀ e ∈ l.dependencies, d.name = e.name → d = e) ∧
    DepsSorted l.dependencies := by
  obtain ⟨st, used, hi, ho, hlen, hu, rfl⟩ := compile_ok hw h
  rcases usedDeps_spec hw.deps s.externTypes.keys (used := []) (by simp) List.Pairwise.nil with
    ⟨used', hu', hs, hsub, hall, hmem⟩ | ⟨lib, -, -, -, h'⟩
  · rw [hu] at hu'
    cases hu'
    dsimp only
    have hfind : ∀ d ∈ used, ∃ lib ∈ s.externTypes.keys, lib ≠ LIB_EMBEDDED ∧
        s.dependencies.find? (fun d => d.name = lib) = some d := by
      intro d hd
      simpa using (hmem d).mp hd
    refine ⟨?_, ?_, ?_, hs⟩
    · intro d hd
      obtain ⟨lib, hl, hne, hf⟩ := hfind d hd
      obtain ⟨h1, rfl⟩ := find_name hf
      obtain ⟨p, hp, hpn⟩ := List.mem_map.mp hl
      exact ⟨h1, hne, p.2, by rw [← hpn]; exact hp⟩
    · intro p hp hne
      have hl : p.1 ∈ s.externTypes.keys := List.mem_map_of_mem (f := Prod.fst) hp
      obtain ⟨d, hd, hname⟩ := hall p.1 hl hne
      cases hf : s.dependencies.find? fun d => d.name = p.1 with
      | none =>
        have := List.find?_eq_none.mp hf d hd
        simp [hname] at this
      | some e =>
        exact ⟨e, (hmem e).mpr (Or.inr ⟨p.1, hl, hne, hf⟩), (find_name hf).2⟩
    · intro d hd e he hde
      obtain ⟨lib, -, -, hf⟩ := hfind d hd
      obtain ⟨lib', -, -, hf'⟩ := hfind e he
      have h1 := (find_name hf).2
      have h2 := (find_name hf').2
      rw [← h1] at hf
      rw [← h2, ← hde, hf] at hf'
      exact Option.some.inj hf'
  · rw [hu] at h'; cases h'

/-- **C26**: an external library that is not a declared dependency makes compilation fail; if the
types compile, the error names such a library. -/
theorem C26_unknown_library_refused (H : Hash) (debug : Bool) (s : SymbolicLib) (hw : s.WF)
    (hbad : ¬ s.KnownLibs) :
    (∀ fuel l, s.compile H debug fuel ≠ .ok l) ∧
    (s.Defined → s.Acyclic → s.Shallow → s.types.length ≤ 65535 → ∀ fuel, s.types.length ≤ fuel →
      ∃ lib m, s.compile H debug fuel = .err (.unknownLib lib) ∧ (lib, m) ∈ s.externTypes ∧
        ∀ d ∈ s.dependencies, d.name ≠ lib) := by
  constructor
  · intro fuel l h
    exact hbad (C22_conditions_necessary H debug fuel s hw l h).2.2.2.1
  · intro hdef hac hsh hlen fuel hf
    rcases compile_cases H debug fuel s hw with
      ⟨st, -, hi, ho, ⟨-, used, hu, h'⟩ | ⟨lib, h, hl, hne, hno⟩ | ⟨hbig, -⟩⟩ |
      ⟨n, t, p, q, hT, hq, -⟩ | ⟨st, hi, hne, hs, -⟩ | ⟨hlt, -⟩
    · exact absurd (C22_conditions_necessary H debug fuel s hw _ h').2.2.2.1 hbad
    · obtain ⟨p, hp, rfl⟩ := List.mem_map.mp hl
      exact ⟨p.1, p.2, h, hp, hno⟩
    · omega
    · exact absurd (hsh (n, t) (OMap.get_mem hT)) hq
    · obtain ⟨rank, hr⟩ := hac
      exfalso
      refine hi.not_stuck ?_ (rank := rank) ?_ hne hs
      · intro n t hT m hm
        obtain ⟨t', ht'⟩ := hdef (n, t) (OMap.get_mem hT) m hm
        exact ⟨t', OMap.get_of_mem hw.typesSorted ht'⟩
      · intro n t hT m hm
        exact hr (n, t) (OMap.get_mem hT) m hm
    · omega

/-- The unused dependency of the example is dropped. -/
example : ∃ l, exSym.compile toyHash true 2 = .ok l ∧
    l.dependencies = [⟨Id32.rep 9, n!"Std"⟩] := ⟨_, rfl, rfl⟩

end Verif
