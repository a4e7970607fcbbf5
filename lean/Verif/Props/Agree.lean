import Verif.Props.Merge
import Verif.Props.System
import Verif.Props.Codec

/-!
# Whoever knows a type by the same id agrees about its data: C107
-/

namespace Verif

/-! ## What is violated -/

/-- **C107 is violated**: two libraries declare a type with the same name and id (for every hash function, see
`C03_inline_commitment_violated`), and two systems assembled from them disagree about its data: what one of them reads as a value
of the type is refused by the other. -/
theorem C107_violated (debug : Bool) :
    ∃ (l m : TypeLib) (s r : SymbolicSys) (id : SemId) (v : Val) (e : DErr), l.WF ∧ m.WF ∧
      assembleSys toyHash debug [l] = .ok s ∧ assembleSys toyHash debug [m] = .ok r ∧
      l.Declares toyHash n!"T" id ∧ m.Declares toyHash n!"T" id ∧ s.types.Closed ∧ r.types.Closed ∧
      deserialize (exWith debug s.types) 3 id [1, 7] = .ok v ∧ deserialize (exWith debug r.types) 3 id [1, 7] = .err e := by
  have w1 : (exLib1 n!"A" n!"T" [] exNarrow).WF := exLib1_wf (by simp [DepsSorted]) (by simp)
    ⟨by decide, by simp [Ty.refs, LibRef.Deep, exNarrow, Ty.WF, VariantsWF]⟩
  have w2 : (exLib1 n!"B" n!"T" [] exWide).WF := exLib1_wf (by simp [DepsSorted]) (by simp)
    ⟨by decide, by simp [Ty.refs, LibRef.Deep, exWide, Ty.WF, VariantsWF]⟩
  have main : ∃ s r v e, assembleSys toyHash debug [exLib1 n!"B" n!"T" [] exWide] = .ok s ∧
      assembleSys toyHash debug [exLib1 n!"A" n!"T" [] exNarrow] = .ok r ∧
      deserialize (exWith debug s.types) 3 (exWide.semIdNamed toyHash LibRef.commit n!"T") [1, 7] = .ok v ∧
      deserialize (exWith debug r.types) 3 (exWide.semIdNamed toyHash LibRef.commit n!"T") [1, 7] = .err e := by
    cases debug <;> exact ⟨_, _, _, _, rfl, rfl, rfl, rfl⟩
  obtain ⟨s, r, v, e, h1, h2, h3, h4⟩ := main
  refine ⟨_, _, s, r, _, v, e, w2, w1, h1, h2, ⟨_, List.mem_singleton.mpr rfl, rfl⟩,
    ⟨exNarrow, List.mem_singleton.mpr rfl, C03_inline_commitment_violated.2.2.2 _ _⟩, ?_, ?_, h3, h4⟩
  · refine (C14_complete_partial _ _ _ _ (by simpa using w2) h1).2 ?_
    simp [TypeLib.Linked, exLib1, exWide, Ty.refs, LibRef.locals, LibRef.externs]
  · refine (C14_complete_partial _ _ _ _ (by simpa using w1) h2).2 ?_
    simp [TypeLib.Linked, exLib1, exNarrow, Ty.refs, LibRef.locals, LibRef.externs]

/-! ## What holds -/

/-- Types reachable in one system are reachable in the other. -/
theorem reach_consistent {a b : TypeSystem} (hab : a.Consistent b) {S : SemId → Prop}
    (hb : ∀ j, Reach b S j → ∃ t, b.get j = some t) {j : SemId} (h : Reach a S j) : Reach b S j := by
  induction h with
  | root h => exact .root h
  | step _ ht hr ih =>
    obtain ⟨u, hu⟩ := hb _ ih
    rw [hab _ _ _ ht hu] at hr
    exact .step ih hu hr

/-- **C107, what holds** for any two systems with the same definitions under common ids: values of a type which is complete in both
are checked, written and read alike, whatever else the systems contain. -/
theorem C107_values_partial (E : Env) (a b : TypeSystem) (hab : a.Consistent b) (id : SemId)
    (ha : ∀ j, Reach a (· = id) j → ∃ t, a.get j = some t) (hb : ∀ j, Reach b (· = id) j → ∃ t, b.get j = some t) (n : Nat) :
    (∀ v, typify { E with sys := a } n v id = typify { E with sys := b } n v id) ∧
    (∀ v, write { E with sys := a } n v id = write { E with sys := b } n v id) ∧
    (∀ max v, serialize { E with sys := a } n max v id = serialize { E with sys := b } n max v id) ∧
    (∀ bs, read { E with sys := a } n id bs = read { E with sys := b } n id bs) ∧
    (∀ bs, deserialize { E with sys := a } n id bs = deserialize { E with sys := b } n id bs) := by
  have hA : Env.Agree { E with sys := b } { E with sys := a } (Reach a (· = id)) := by
    have hf : ∀ j, Reach a (· = id) j → b.get j = a.get j := by
      intro j hj
      obtain ⟨t, ht⟩ := ha j hj
      obtain ⟨u, hu⟩ := hb j (reach_consistent hab hb hj)
      rw [ht, hu, hab _ _ _ ht hu]
    refine ⟨rfl, rfl, rfl, rfl, fun j hj => ?_, fun j t hj ht r hr => ?_⟩
    · simp only [Env.find, hf j hj]
    · simp only [Env.find, hf j hj] at ht
      exact .step hj ht hr
  have hid : Reach a (· = id) id := .root rfl
  have hw : ∀ v, write { E with sys := a } n v id = write { E with sys := b } n v id := fun v =>
    (write_le hA.symm (Nat.le_refl n) hid v).antisymm (write_le hA (Nat.le_refl n) hid v)
  have hr : ∀ bs, read { E with sys := a } n id bs = read { E with sys := b } n id bs := fun bs =>
    (read_le hA.symm (Nat.le_refl n) hid bs).antisymm (read_le hA (Nat.le_refl n) hid bs)
  refine ⟨fun v => ?_, hw, fun max v => ?_, hr, fun bs => ?_⟩
  · exact (typify_le hA.symm (Nat.le_refl n) hid v).antisymm (typify_le hA (Nat.le_refl n) hid v)
  · simp only [serialize, hw]
  · simp only [deserialize, hr]

/-- **C107, what holds** for systems extracted from two systems with the same definitions under common ids: what is extracted for
given types is the same system, with the same id. -/
theorem C107_extract_partial (H : Hash) (debug : Bool) (a b out out' : TypeSystem) (hab : a.Consistent b) (wa : a.TypesWF)
    (wb : b.TypesWF) (fuel fuel' : Nat) (hf : a.length < fuel) (hf' : b.length < fuel') (ids : List SemId)
    (h : extract debug fuel a ids = .ok out) (h' : extract debug fuel' b ids = .ok out') :
    out = out' ∧ TypeSystem.id H out = TypeSystem.id H out' := by
  obtain ⟨a1, a2, a3, -⟩ := Reach.extracted wa hf h
  obtain ⟨b1, b2, b3, -⟩ := Reach.extracted wb hf' h'
  have pa : ∀ j, Reach a (· ∈ ids) j → ∃ t, a.get j = some t := fun j hj => let ⟨t, ht, _⟩ := a1 j hj; ⟨t, ht⟩
  have pb : ∀ j, Reach b (· ∈ ids) j → ∃ t, b.get j = some t := fun j hj => let ⟨t, ht, _⟩ := b1 j hj; ⟨t, ht⟩
  have hba : b.Consistent a := fun i t u ht hu => (hab i u t hu ht).symm
  have : out = out' := by
    refine OMap.ext a3 b3 fun i => Option.ext fun t => ⟨fun hg => ?_, fun hg => ?_⟩
    · obtain ⟨hr, ht⟩ := a2 i t hg
      obtain ⟨u, hu, ho⟩ := b1 i (reach_consistent hab pb hr)
      rw [hab i t u ht hu]; exact ho
    · obtain ⟨hr, ht⟩ := b2 i t hg
      obtain ⟨u, hu, ho⟩ := a1 i (reach_consistent hba pa hr)
      rw [hba i t u ht hu]; exact ho
  exact ⟨this, by rw [this]⟩

/-- Systems assembled from libraries in which definitions with the same id are the same. -/
theorem assembled_consistent {H : Hash} {debug debug' : Bool} {ls ms : List TypeLib} {s r : SymbolicSys} (wl : ∀ l ∈ ls, l.WF)
    (wm : ∀ l ∈ ms, l.WF) (h : assembleSys H debug ls = .ok s) (h' : assembleSys H debug' ms = .ok r)
    (hc : Consistent (allDefs H (ls ++ ms))) : s.types.Consistent r.types := by
  intro i t u ht hu
  obtain ⟨o, ho⟩ := (C58_definitions_partial H debug ls s wl h).1 i t ht
  obtain ⟨o', ho'⟩ := (C58_definitions_partial H debug' ms r wm h').1 i u hu
  have h1 : (i, (⟨o, t⟩ : SymTy)) ∈ allDefs H (ls ++ ms) := by
    simp only [allDefs, List.flatMap_append, List.mem_append]; exact .inl ho
  have h2 : (i, (⟨o', u⟩ : SymTy)) ∈ allDefs H (ls ++ ms) := by
    simp only [allDefs, List.flatMap_append, List.mem_append]; exact .inr ho'
  exact hc _ h1 _ h2 rfl

/-- **C107, what holds** for libraries without inline types: two systems, each assembled from libraries complete in themselves,
agree about the values of every type they have in common, or the hash collided on the texts of two types. The libraries may have other
names, versions and types besides. Missing: inline types, see `C107_violated`; with them, libraries where definitions with the same id
are the same are covered by `C107_values_partial`. -/
theorem C107_libraries_partial (H : Hash) (debug debug' : Bool) (ls ms : List TypeLib) (s r : SymbolicSys) (wl : ∀ l ∈ ls, l.WF)
    (wm : ∀ l ∈ ms, l.WF) (h : assembleSys H debug ls = .ok s) (h' : assembleSys H debug' ms = .ok r)
    (fl : ∀ l ∈ ls ++ ms, ∀ p ∈ l.types, p.2.InlineFree) (ll : ∀ l ∈ ls, l.Linked H ls) (lm : ∀ l ∈ ms, l.Linked H ms)
    (E : Env) (id : SemId) (hs : s.types.get id ≠ none) (hr : r.types.get id ≠ none) (n : Nat) :
    ((∀ v, typify { E with sys := s.types } n v id = typify { E with sys := r.types } n v id) ∧
      (∀ max v, serialize { E with sys := s.types } n max v id = serialize { E with sys := r.types } n max v id) ∧
      (∀ bs, deserialize { E with sys := s.types } n id bs = deserialize { E with sys := r.types } n id bs)) ∨
    Collision H (· ∈ (ls ++ ms).flatMap TypeLib.namedTexts) := by
  refine (consistent_of_inlineFree H fl).imp_left fun hc => ?_
  have hab := assembled_consistent wl wm h h' hc
  have full : ∀ {a : TypeSystem}, a.Closed → a.get id ≠ none → ∀ j, Reach a (· = id) j → ∃ t, a.get j = some t := by
    intro a hcl hne j hj
    induction hj with
    | root e => subst e; exact Option.ne_none_iff_exists'.mp hne
    | step _ ht hr _ => exact hcl _ _ ht _ hr
  obtain ⟨h1, -, h3, -, h5⟩ := C107_values_partial E s.types r.types hab id
    (full ((C14_complete_partial H debug ls s wl h).2 ll) hs) (full ((C14_complete_partial H debug' ms r wm h').2 lm) hr) n
  exact ⟨h1, h3, h5⟩

/-! ### Two libraries with a common type -/

/-- The common type. -/
def exCommon : Ty LibRef := .enum [⟨n!"x", 0⟩, ⟨n!"y", 1⟩]

/-- A library which uses the common type in another one. -/
def exUsing : TypeLib :=
  ⟨n!"B", [], [], [(n!"S", .tuple [.named (exCommon.semIdNamed toyHash LibRef.commit n!"T")]), (n!"T", exCommon)]⟩

example (debug : Bool) : ∃ s r, assembleSys toyHash debug [exLib1 n!"A" n!"T" [] exCommon] = .ok s ∧
    assembleSys toyHash debug [exUsing] = .ok r ∧ s.types ≠ r.types ∧
    s.types.get (exCommon.semIdNamed toyHash LibRef.commit n!"T") ≠ none ∧
    r.types.get (exCommon.semIdNamed toyHash LibRef.commit n!"T") ≠ none ∧
    extract debug 2 s.types [exCommon.semIdNamed toyHash LibRef.commit n!"T"] =
      extract debug 3 r.types [exCommon.semIdNamed toyHash LibRef.commit n!"T"] ∧
    (∀ l ∈ [exLib1 n!"A" n!"T" [] exCommon] ++ [exUsing], ∀ p ∈ l.types, p.2.InlineFree) := by
  have hfree : ∀ l ∈ [exLib1 n!"A" n!"T" [] exCommon] ++ [exUsing], ∀ p ∈ l.types, p.2.InlineFree := by
    intro l hl p hp
    simp only [List.cons_append, List.nil_append, List.mem_cons, List.not_mem_nil, or_false] at hl
    rcases hl with rfl | rfl
    · simp only [exLib1, List.mem_singleton] at hp
      subst hp
      simp [Ty.InlineFree, exCommon, Ty.refs]
    · simp only [exUsing, List.mem_cons, List.not_mem_nil, or_false] at hp
      rcases hp with rfl | rfl
      · simp [Ty.InlineFree, Ty.refs, LibRef.target]
      · simp [Ty.InlineFree, exCommon, Ty.refs]
  cases debug <;> refine ⟨_, _, rfl, rfl, ?_, ?_, ?_, ?_, hfree⟩ <;> decide +kernel

example : exUsing.Linked toyHash [exUsing] ∧ (exLib1 n!"A" n!"T" [] exCommon).Linked toyHash [exLib1 n!"A" n!"T" [] exCommon] := by
  have h : exUsing.Declares toyHash n!"T" (exCommon.semIdNamed toyHash LibRef.commit n!"T") :=
    ⟨exCommon, List.mem_cons_of_mem _ (List.mem_cons_self ..), rfl⟩
  refine ⟨?_, by simp [TypeLib.Linked, exLib1, exCommon, Ty.refs]⟩
  intro p hp r hr
  simp only [exUsing, List.mem_cons, List.not_mem_nil, or_false] at hp
  rcases hp with rfl | rfl
  · simp only [Ty.refs, List.mem_singleton] at hr
    subst hr
    refine ⟨fun id hid => ?_, by simp [LibRef.externs]⟩
    simp only [LibRef.locals, List.mem_singleton] at hid
    subst hid
    exact ⟨_, List.mem_singleton.mpr rfl, _, h⟩
  · simp [exCommon, Ty.refs] at hr

end Verif
