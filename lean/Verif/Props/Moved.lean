import Verif.Props.Compile
import Verif.Lemmas.Moved

/-!
# Ids of types do not depend on the library in which they are declared: C106
-/

namespace Verif

/-- Ids of a compiled library, from its compiled types. -/
theorem idOf_of_mem {H : Hash} {l : TypeLib} (hs : l.types.Sorted) {n : Name} {u : Ty LibRef} (h : (n, u) ∈ l.types) :
    l.idOf H n = some (u.semIdNamed H LibRef.commit n) := by
  simp only [TypeLib.idOf, OMap.get_of_mem hs h, Option.map_some]

/-- **C106**: types with the same name and the same references have the same id in two compiled
libraries. A reference to a type of the library is the same as a reference to an external type with
its id, so that types may be moved to a dependency (or taken from it) and libraries, dependencies
and external types may be called otherwise: the ids of the types stay. The types of `S` may refer to
each other. -/
theorem C106_ids (H : Hash) (debug debug' : Bool) (fuel fuel' : Nat) (a b : SymbolicLib) (ha : a.WF) (hb : b.WF)
    (l l' : TypeLib) (hl : a.compile H debug fuel = .ok l) (hl' : b.compile H debug' fuel' = .ok l')
    (S : Name → Prop)
    (hS : ∀ n, S n → ∃ t u, (n, t) ∈ a.types ∧ (n, u) ∈ b.types ∧ SameTy (l.idOf H) (l'.idOf H) S t u) :
    ∀ n, S n → ∃ id, l.idOf H n = some id ∧ l'.idOf H n = some id := by
  obtain ⟨-, ⟨rank, hrank⟩, -⟩ := C22_conditions_necessary H debug fuel a ha l hl
  obtain ⟨-, -, hs1, -, hc1⟩ := C21_names_resolved H debug fuel a ha l hl
  obtain ⟨-, -, hs2, -, hc2⟩ := C21_names_resolved H debug' fuel' b hb l' hl'
  have main : ∀ k n, rank n < k → S n → ∃ id, l.idOf H n = some id ∧ l'.idOf H n = some id := by
    intro k
    induction k with
    | zero => intro n h; omega
    | succ k ih =>
      intro n hk hn
      obtain ⟨t, u, ht, hu, hr⟩ := hS n hn
      obtain ⟨x, hx, hcx⟩ := hc1 n t ht
      obtain ⟨y, hy, hcy⟩ := hc2 n u hu
      refine ⟨_, idOf_of_mem hs1 hx, ?_⟩
      rw [idOf_of_mem hs2 hy]
      simp only [Ty.semIdNamed, Ty.semIdInner]
      rw [moved_ty hcx hcy hr fun m hm hSm => ?_]
      have := hrank (n, t) ht m hm
      obtain ⟨id, h1, h2⟩ := ih m (by dsimp only at this; omega) hSm
      rw [h1, h2]
  exact fun n hn => main _ n (Nat.lt_succ_self _) hn

/-- **C106**: adding types to a library does not change the ones it had: all have the same ids and
compiled definitions as before. The name of the library, its dependencies and the external types
recorded in it may change as well. -/
theorem C106_extended (H : Hash) (debug debug' : Bool) (fuel fuel' : Nat) (a b : SymbolicLib) (ha : a.WF) (hb : b.WF)
    (l l' : TypeLib) (hl : a.compile H debug fuel = .ok l) (hl' : b.compile H debug' fuel' = .ok l')
    (hab : ∀ p ∈ a.types, p ∈ b.types) :
    (∀ p ∈ l.types, p ∈ l'.types) ∧ ∀ n id, l.idOf H n = some id → l'.idOf H n = some id := by
  obtain ⟨hdef, ⟨rank, hrank⟩, -⟩ := C22_conditions_necessary H debug fuel a ha l hl
  obtain ⟨-, -, hs1, hk, hc1⟩ := C21_names_resolved H debug fuel a ha l hl
  obtain ⟨-, -, hs2, -, hc2⟩ := C21_names_resolved H debug' fuel' b hb l' hl'
  have main : ∀ k n t, rank n < k → (n, t) ∈ a.types → ∃ u, (n, u) ∈ l.types ∧ (n, u) ∈ l'.types := by
    intro k
    induction k with
    | zero => intro n t h; omega
    | succ k ih =>
      intro n t hk ht
      obtain ⟨x, hx, hcx⟩ := hc1 n t ht
      obtain ⟨y, hy, hcy⟩ := hc2 n t (hab _ ht)
      have : x = y := by
        refine Ty.CompiledTo.right_unique (hcx.congr fun m hm => ?_) hcy
        obtain ⟨s, hs⟩ := hdef (n, t) ht m hm
        have := hrank (n, t) ht m hm
        obtain ⟨u, h1, h2⟩ := ih m s (by dsimp only at this; omega) hs
        rw [idOf_of_mem hs1 h1, idOf_of_mem hs2 h2]
      exact ⟨x, hx, this ▸ hy⟩
  have hmem : ∀ p ∈ l.types, p ∈ l'.types := by
    rintro ⟨n, u⟩ hp
    have : n ∈ a.types.keys := hk ▸ List.mem_map_of_mem (f := Prod.fst) hp
    obtain ⟨⟨n', t⟩, ht, rfl⟩ := List.mem_map.mp this
    obtain ⟨v, h1, h2⟩ := main _ n' t (Nat.lt_succ_self _) ht
    have := (OMap.get_of_mem hs1 hp).symm.trans (OMap.get_of_mem hs1 h1)
    cases this
    exact h2
  refine ⟨hmem, fun n id h => ?_⟩
  simp only [TypeLib.idOf, Option.map_eq_some_iff] at h
  obtain ⟨u, hu, rfl⟩ := h
  exact idOf_of_mem hs2 (hmem _ (OMap.get_mem hu))

/-- A library with the smallest type of the example only. -/
def exTiny : SymbolicLib where
  name := n!"Small"
  dependencies := []
  externTypes := []
  types := [(n!"Beta", .enum [⟨n!"x", 0⟩, ⟨n!"y", 1⟩])]

theorem exTiny_wf : exTiny.WF where
  typesSorted := by unfold OMap.Sorted; simp [exTiny]
  nonEmpty := by simp [exTiny]
  deps := by unfold DepsSorted; decide
  fewDeps := by decide
  externSorted := by unfold OMap.Sorted; decide
  fewExterns := by decide
  externs := by unfold OMap.Sorted; decide
  types := fun p hp => by
    rw [List.mem_singleton.mp hp]
    exact ⟨by decide, by simp [Ty.refs]⟩

example : ∃ l l', exTiny.compile toyHash true 1 = .ok l ∧ exSym.compile toyHash false 2 = .ok l' ∧
    l.types ≠ [] ∧ ∀ p ∈ l.types, p ∈ l'.types := by
  obtain ⟨l, hl, hne⟩ : ∃ l, exTiny.compile toyHash true 1 = .ok l ∧ l.types ≠ [] := ⟨_, rfl, by simp [OMap.insert]⟩
  obtain ⟨l', hl'⟩ : ∃ l', exSym.compile toyHash false 2 = .ok l' := ⟨_, rfl⟩
  exact ⟨l, l', hl, hl', hne, (C106_extended toyHash true false 1 2 exTiny exSym exTiny_wf exSym_wf l l' hl hl'
    (by simp [exTiny, exSym])).1⟩

/-! ### A type moved to a dependency -/

/-- The type `Beta` of the example library, declared by the library `Base` now. -/
def exBeta : SymbolRef :=
  ⟨n!"Base", n!"Beta", Id32.rep 8, Ty.semIdNamed toyHash LibRef.commit (.enum [⟨n!"x", 0⟩, ⟨n!"y", 1⟩]) n!"Beta"⟩

/-- The external type of the example library, declared by another library under another name. -/
def exExt' : SymbolRef := ⟨n!"Core", n!"V", Id32.rep 7, Id32.rep 5⟩

/-- The example library with its smallest type moved to a dependency. -/
def exMoved : SymbolicLib where
  name := n!"Other"
  dependencies := [⟨Id32.rep 7, n!"Core"⟩, ⟨Id32.rep 8, n!"Base"⟩]
  externTypes := [(n!"Base", [(exBeta.semId, n!"Beta")]), (n!"Core", [(Id32.rep 5, n!"V")])]
  types :=
    [(n!"Alpha", .struct [(n!"b", .extern exBeta),
        (n!"l", .embedded (.list (.embedded (.tuple [.extern exExt', .named n!"Gamma"])) ⟨0, 10⟩))]),
     (n!"Gamma", .union [(⟨n!"v", 3⟩, .extern exBeta)])]

theorem exMoved_wf : exMoved.WF where
  typesSorted := by
    show List.Pairwise _ _
    simp only [exMoved, List.pairwise_cons, List.mem_cons, List.not_mem_nil, or_false,
      forall_eq, List.Pairwise.nil, and_true, false_imp_iff, implies_true]
    decide
  nonEmpty := by simp [exMoved]
  deps := by unfold DepsSorted; decide
  fewDeps := by simp [exMoved]
  externSorted := by unfold OMap.Sorted; decide
  fewExterns := by simp [exMoved]
  externs := by unfold OMap.Sorted; decide
  types := by
    intro p hp
    simp only [exMoved, List.mem_cons, List.not_mem_nil, or_false] at hp
    rcases hp with rfl | rfl
    · refine ⟨by decide +revert, ?_⟩
      intro r hr
      simp only [Ty.refs, List.map_cons, List.map_nil, List.mem_cons, List.not_mem_nil, or_false] at hr
      rcases hr with rfl | rfl
      · exact .extern _
      · refine .embedded trivial ?_
        intro r hr
        simp only [Ty.refs, List.mem_cons, List.not_mem_nil, or_false] at hr
        subst hr
        refine .embedded ⟨by simp, by simp⟩ ?_
        intro r hr
        simp only [Ty.refs, List.mem_cons, List.not_mem_nil, or_false] at hr
        rcases hr with rfl | rfl
        · exact .extern _
        · exact .named _
    · refine ⟨?_, ?_⟩
      · show VariantsWF [⟨n!"v", 3⟩]
        decide
      · intro r hr
        simp only [Ty.refs, List.map_cons, List.map_nil, List.mem_cons, List.not_mem_nil, or_false] at hr
        subst hr
        exact .extern _

example : ∃ l l', exSym.compile toyHash true 2 = .ok l ∧ exMoved.compile toyHash true 2 = .ok l' ∧
    (∃ t u, (n!"Alpha", t) ∈ exSym.types ∧ (n!"Alpha", u) ∈ exMoved.types ∧ t ≠ u) ∧
    ∃ id, l.idOf toyHash n!"Alpha" = some id ∧ l'.idOf toyHash n!"Alpha" = some id := by
  obtain ⟨l, hl⟩ : ∃ l, exSym.compile toyHash true 2 = .ok l := ⟨_, rfl⟩
  obtain ⟨l', hl'⟩ : ∃ l', exMoved.compile toyHash true 2 = .ok l' := ⟨_, rfl⟩
  have hid : l.idOf toyHash n!"Beta" = some exBeta.semId := by
    obtain ⟨-, -, hs, -, hc⟩ := C21_names_resolved _ _ _ _ exSym_wf _ hl
    obtain ⟨u, hu, hcu⟩ := hc n!"Beta" _ (List.mem_cons_of_mem _ (List.mem_cons_self ..))
    rw [idOf_of_mem hs hu]
    cases u <;> simp only [Ty.CompiledTo, Ty.Rel] at hcu
    subst hcu
    rfl
  refine ⟨l, l', hl, hl', ⟨_, _, List.mem_cons_self .., List.mem_cons_self .., by simp⟩, ?_⟩
  refine C106_ids toyHash true true 2 2 exSym exMoved exSym_wf exMoved_wf l l' hl hl'
    (fun n => n = n!"Alpha" ∨ n = n!"Gamma") ?_ _ (Or.inl rfl)
  rintro n (rfl | rfl)
  · refine ⟨_, _, List.mem_cons_self .., List.mem_cons_self .., ?_⟩
    simp [SameTy, Ty.Rel, SameRef, All2, hid, exExt, exExt']
  · refine ⟨_, _, List.mem_cons_of_mem _ (List.mem_cons_of_mem _ (List.mem_cons_self ..)), List.mem_cons_of_mem _ (List.mem_cons_self ..), ?_⟩
    simp [SameTy, Ty.Rel, SameRef, All2, hid]

end Verif
