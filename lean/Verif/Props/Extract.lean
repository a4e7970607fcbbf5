import Verif.Lemmas.Extract
import Verif.Lemmas.Fuel

/-!
# Properties C17-C20: extraction and extension of type systems
-/

namespace Verif

/-- Example system: a struct-like tuple of a byte and a list of itself. -/
def exCyclic : TypeSystem :=
  [(Id32.rep 1, .tuple [Id32.rep 2, Id32.rep 3]), (Id32.rep 2, Ty.BYTE),
   (Id32.rep 3, .list (Id32.rep 1) ⟨0, 255⟩), (Id32.rep 9, Ty.U8)]

theorem exCyclic_iterable (debug : Bool) : exCyclic.Iterable debug := by
  intro id t h
  have hm := OMap.get_mem h
  simp only [exCyclic, List.mem_cons, Prod.mk.injEq, List.not_mem_nil, or_false] at hm
  rcases hm with h | h | h | h <;> obtain ⟨-, rfl⟩ := h <;> simp [Ty.WF, Ty.refs]

/-! ## C17 -/

/-- A tuple with the maximal number of fields, all of them bytes. -/
def exFull : TypeSystem := [(Id32.rep 1, .tuple (List.replicate 255 (Id32.rep 2))),
  (Id32.rep 2, Ty.BYTE)]

set_option maxRecDepth 20000 in
/-- **C17 is violated** in builds with overflow checks: extracting a well-formed type with 255 fields
panics although all its references are present. -/
theorem C17_extract_violated :
    extract true 3 exFull [Id32.rep 1] = .panic ∧ (∀ id t, (id, t) ∈ exFull → t.WF) := by
  constructor
  · decide +kernel
  · intro id t h
    simp only [exFull, List.mem_cons, Prod.mk.injEq, List.not_mem_nil, or_false] at h
    rcases h with h | h <;> obtain ⟨-, rfl⟩ := h <;> simp [Ty.WF]

/-- **C17, what holds.** For all types which respect the limits of their containers: `extract`
terminates (after at most one step per type of the system); it succeeds exactly if all reachable types
are present and, in builds with overflow checks, none of them has 255 references; it then returns
exactly the types reachable from the ids, unchanged. An error names a reachable missing type, and a
missing type makes the extraction fail. The only other outcome is the panic of
`C17_extract_violated`, which needs a build with overflow checks and a reachable type with 255
references; this is what is missing. -/
theorem C17_extract_exact_partial (debug : Bool) (sys : TypeSystem) (hi : sys.TypesWF)
    (fuel : Nat) (hf : sys.length < fuel) (ids : List SemId) :
    ((∃ out, extract debug fuel sys ids = .ok out) ↔
      ∀ id, Reach sys (· ∈ ids) id →
        ∃ t, sys.get id = some t ∧ (debug = true → t.refs.length ≠ 255)) ∧
    (∀ out, extract debug fuel sys ids = .ok out → out.Sorted ∧
      ∀ id t, out.get id = some t ↔ Reach sys (· ∈ ids) id ∧ sys.get id = some t) ∧
    (∀ id, extract debug fuel sys ids = .err id → Reach sys (· ∈ ids) id ∧ sys.get id = none) ∧
    ((∃ id, Reach sys (· ∈ ids) id ∧ sys.get id = none) →
      (debug = true → ∀ id t, Reach sys (· ∈ ids) id → sys.get id = some t → t.refs.length ≠ 255) →
      ∃ id, extract debug fuel sys ids = .err id) ∧
    (extract debug fuel sys ids = .panic → debug = true ∧
      ∃ id t, Reach sys (· ∈ ids) id ∧ sys.get id = some t ∧ t.refs.length = 255) ∧
    extract debug fuel sys ids ≠ .diverge := by
  rcases extract_spec (debug := debug) hi hf ids with ⟨out, h1, h2, h3, h4, h5⟩ | ⟨id, h1, h2, h3⟩ |
      ⟨h1, rfl, id, t, h2, h3, h4⟩ <;> rw [h1]
  · refine ⟨⟨fun _ id hr => ?_, fun _ => ⟨out, rfl⟩⟩, ?_, fun _ h => (by cases h), ?_,
      fun h => (by cases h), fun h => (by cases h)⟩
    · obtain ⟨t, ht, ho⟩ := h3 id hr
      exact ⟨t, ht, fun hd e => by have := (h5 id t ho).2 hd; omega⟩
    · intro o ho
      cases ho
      refine ⟨h2, fun id t => ⟨h4 id t, fun ⟨hr, hg⟩ => ?_⟩⟩
      obtain ⟨u, hu, ho⟩ := h3 id hr
      rw [hg] at hu
      cases hu
      exact ho
    · rintro ⟨id, hr, hg⟩
      obtain ⟨u, hu, -⟩ := h3 id hr
      rw [hg] at hu
      cases hu
  · refine ⟨⟨fun ⟨o, h⟩ => (by cases h), fun h => ?_⟩, fun _ h => (by cases h), ?_,
      fun _ _ => ⟨id, rfl⟩, fun h => (by cases h), fun h => (by cases h)⟩
    · obtain ⟨t, ht, -⟩ := h id h2
      rw [h3] at ht
      cases ht
    · intro j hj
      cases hj
      exact ⟨h2, h3⟩
  · refine ⟨⟨fun ⟨o, h⟩ => (by cases h), fun h => ?_⟩, fun _ h => (by cases h),
      fun _ h => (by cases h), fun _ h => absurd h4 (h rfl id t h2 h3),
      fun _ => ⟨rfl, id, t, h2, h3, h4⟩, fun h => (by cases h)⟩
    obtain ⟨u, hu, hl⟩ := h id h2
    rw [h3] at hu
    cases hu
    exact absurd h4 (hl rfl)

example : exCyclic.TypesWF := fun id t h => (exCyclic_iterable true id t h).1

/-- Extraction from a cyclic system with an unrelated type. -/
example : ∃ out, extract false 5 exCyclic [Id32.rep 3] = .ok out ∧ out.length = 3 := ⟨_, rfl, rfl⟩
example : extract true 5 exCyclic [Id32.rep 4] = .err (Id32.rep 4) := rfl

/-! ## C18 -/

theorem Reach.extracted {debug : Bool} {sys out : TypeSystem} {ids : List SemId} {fuel : Nat}
    (hi : sys.TypesWF) (hf : sys.length < fuel)
    (h : extract debug fuel sys ids = .ok out) :
    (∀ id, Reach sys (· ∈ ids) id → ∃ t, sys.get id = some t ∧ out.get id = some t) ∧
    (∀ id t, out.get id = some t → Reach sys (· ∈ ids) id ∧ sys.get id = some t) ∧ out.Sorted ∧
    out.Iterable debug := by
  rcases extract_spec hi hf ids with ⟨out', h1, h2, h3, h4, h5⟩ | ⟨id, h1, -, -⟩ | ⟨h1, -⟩
  · rw [h] at h1
    cases h1
    exact ⟨h3, h4, h2, h5⟩
  · rw [h] at h1
    cases h1
  · rw [h] at h1
    cases h1

/-- **C18.** Every reference inside an extracted system resolves inside it; extracting
any ids that are reachable from the original ones (in particular the same ids or fewer) from the
extracted system gives exactly what extracting them from the full system gives, and succeeds. -/
theorem C18_extract_closed (debug : Bool) (sys out : TypeSystem) (hi : sys.TypesWF)
    (fuel : Nat) (hf : sys.length < fuel) (ids : List SemId)
    (h : extract debug fuel sys ids = .ok out) :
    out.Closed ∧
    (∀ fuel', out.length < fuel' → ∀ ids' : List SemId, (∀ i ∈ ids', Reach sys (· ∈ ids) i) →
      ∃ out', extract debug fuel' out ids' = .ok out' ∧ extract debug fuel sys ids' = .ok out') ∧
    (∀ fuel', out.length < fuel' → extract debug fuel' out ids = .ok out) := by
  obtain ⟨h3, h4, h2, hit⟩ := Reach.extracted hi hf h
  have hio : out.TypesWF := fun id t ht => hi id t (h4 id t ht).2
  have hro : ∀ (ids' : List SemId), (∀ i ∈ ids', Reach sys (· ∈ ids) i) →
      ∀ id, Reach out (· ∈ ids') id ↔ Reach sys (· ∈ ids') id := by
    intro ids' hsub id
    constructor
    · intro hr
      induction hr with
      | root hm => exact .root hm
      | step _ hg hm ih => exact .step ih (h4 _ _ hg).2 hm
    · intro hr
      induction hr with
      | root hm => exact .root hm
      | step hr' hg hm ih =>
        obtain ⟨t, ht, ho⟩ := h3 _ (hr'.mono hsub)
        rw [hg] at ht
        cases ht
        exact .step ih ho hm
  have hpart : ∀ fuel', out.length < fuel' → ∀ ids' : List SemId,
      (∀ i ∈ ids', Reach sys (· ∈ ids) i) →
      ∃ out', extract debug fuel' out ids' = .ok out' ∧ extract debug fuel sys ids' = .ok out' := by
    intro fuel' hf' ids' hsub
    have few : ∀ id t, Reach sys (· ∈ ids') id → sys.get id = some t → debug = true →
        t.refs.length ≠ 255 := fun id t hr hg hd e => by
      obtain ⟨u, hu, ho⟩ := h3 id (hr.mono hsub)
      rw [hg] at hu
      cases hu
      have := (hit id t ho).2 hd
      omega
    rcases extract_spec (debug := debug) hi hf ids' with ⟨a, a1, a2, a3, a4, -⟩ | ⟨id, -, a2, a3⟩ |
      ⟨-, a1, id, t, a2, a3, a4⟩
    · rcases extract_spec (debug := debug) hio hf' ids' with ⟨b, b1, b2, b3, b4, -⟩ | ⟨id, -, b2, b3⟩ |
        ⟨-, b1, id, t, b2, b3, b4⟩
      · refine ⟨b, b1, ?_⟩
        rw [a1]
        congr 1
        refine OMap.ext a2 b2 fun id => Option.ext fun t => ⟨fun hx => ?_, fun hx => ?_⟩
        · obtain ⟨hr, hg⟩ := a4 id t hx
          obtain ⟨u, hu, hb⟩ := b3 id ((hro ids' hsub id).mpr hr)
          have := (h4 id u hu).2
          rw [hg] at this
          cases this
          exact hb
        · obtain ⟨hr, hg⟩ := b4 id t hx
          obtain ⟨u, hu, ha⟩ := a3 id ((hro ids' hsub id).mp hr)
          have := (h4 id t hg).2
          rw [hu] at this
          cases this
          exact ha
      · have hr := (hro ids' hsub id).mp b2
        obtain ⟨t, -, ho⟩ := h3 id (hr.mono hsub)
        rw [b3] at ho
        cases ho
      · exact absurd b4 (few id t ((hro ids' hsub id).mp b2) (h4 id t b3).2 b1)
    · obtain ⟨t, hs, -⟩ := h3 id (a2.mono hsub)
      rw [a3] at hs
      cases hs
    · exact absurd a4 (few id t a2 a3 a1)
  refine ⟨?_, hpart, ?_⟩
  · intro id t ht r hr
    obtain ⟨hre, hg⟩ := h4 id t ht
    obtain ⟨u, -, hu⟩ := h3 r (.step hre hg hr)
    exact ⟨u, hu⟩
  · intro fuel' hf'
    obtain ⟨o, ho, hs⟩ := hpart fuel' hf' ids fun i hi' => .root hi'
    rw [h] at hs
    cases hs
    exact ho

example : ∃ out, extract true 5 exCyclic [Id32.rep 3] = .ok out ∧
    extract true 4 out [Id32.rep 2] = extract true 5 exCyclic [Id32.rep 2] := ⟨_, rfl, rfl⟩

/-! ## C19 -/

/-- **C19.** For every id covered by the extraction, checking, serialising and deserialising any
value against the extracted system gives the same result (value, error, panic or non-termination) as
against the full system. -/
theorem C19_extract_preserves (E : Env) (out : TypeSystem) (hi : E.sys.TypesWF)
    (fuel : Nat) (hf : E.sys.length < fuel) (ids : List SemId)
    (h : extract E.debug fuel E.sys ids = .ok out) (id : SemId)
    (hid : Reach E.sys (· ∈ ids) id) (n : Nat) :
    (∀ v, typify { E with sys := out } n v id = typify E n v id) ∧
    (∀ v, write { E with sys := out } n v id = write E n v id) ∧
    (∀ max v, serialize { E with sys := out } n max v id = serialize E n max v id) ∧
    (∀ bs, read { E with sys := out } n id bs = read E n id bs) ∧
    (∀ bs, deserialize { E with sys := out } n id bs = deserialize E n id bs) := by
  obtain ⟨h3, h4, -, -⟩ := Reach.extracted hi hf h
  have ha : E.Agree { E with sys := out } (Reach E.sys (· ∈ ids)) := by
    refine ⟨rfl, rfl, rfl, rfl, fun j hj => ?_, fun j t hj ht r hr => .step hj ht hr⟩
    obtain ⟨t, ht, ho⟩ := h3 j hj
    simp only [Env.find, ht, ho]
  have hw : ∀ v, write { E with sys := out } n v id = write E n v id := fun v =>
    (write_le ha.symm (Nat.le_refl n) hid v).antisymm (write_le ha (Nat.le_refl n) hid v)
  have hr : ∀ bs, read { E with sys := out } n id bs = read E n id bs := fun bs =>
    (read_le ha.symm (Nat.le_refl n) hid bs).antisymm (read_le ha (Nat.le_refl n) hid bs)
  refine ⟨fun v => ?_, hw, fun max v => ?_, hr, fun bs => ?_⟩
  · exact (typify_le ha.symm (Nat.le_refl n) hid v).antisymm (typify_le ha (Nat.le_refl n) hid v)
  · simp only [serialize, hw]
  · simp only [deserialize, hr]

/-- A concrete environment: the cyclic system, an arbitrary hash. -/
def exEnv (H : Hash) (sys : TypeSystem) : Env :=
  { H := H, sys := sys, debug := true, primSize := fun p => p.toNat % 64, valSize := 24 }

example (H : Hash) : ∃ out, extract true 5 (exEnv H exCyclic).sys [Id32.rep 3] = .ok out ∧
    Reach (exEnv H exCyclic).sys (· ∈ [Id32.rep 3]) (Id32.rep 2) :=
  ⟨_, rfl, .step (id := Id32.rep 1) (t := .tuple [Id32.rep 2, Id32.rep 3])
    (.step (id := Id32.rep 3) (t := .list (Id32.rep 1) ⟨0, 255⟩) (.root (by simp)) rfl
      (by simp [Ty.refs])) rfl (by simp [Ty.refs])⟩

/-! ## C20 -/

/-- **C20.** If all types reachable from an id are present in a system, extending the system by
types under other ids never changes the result of checking, serialising or deserialising a value
of that type. -/
theorem C20_extend_preserves (E : Env) (sys' : TypeSystem)
    (hext : ∀ id t, E.sys.get id = some t → sys'.get id = some t) (id : SemId)
    (hall : ∀ j, Reach E.sys (· = id) j → ∃ t, E.sys.get j = some t) (n : Nat) :
    (∀ v, typify { E with sys := sys' } n v id = typify E n v id) ∧
    (∀ v, write { E with sys := sys' } n v id = write E n v id) ∧
    (∀ max v, serialize { E with sys := sys' } n max v id = serialize E n max v id) ∧
    (∀ bs, read { E with sys := sys' } n id bs = read E n id bs) ∧
    (∀ bs, deserialize { E with sys := sys' } n id bs = deserialize E n id bs) := by
  have ha : E.Agree { E with sys := sys' } (Reach E.sys (· = id)) := by
    refine ⟨rfl, rfl, rfl, rfl, fun j hj => ?_, fun j t hj ht r hr => .step hj ht hr⟩
    obtain ⟨t, ht⟩ := hall j hj
    simp only [Env.find, ht, hext j t ht]
  have hid : Reach E.sys (· = id) id := .root rfl
  have hw : ∀ v, write { E with sys := sys' } n v id = write E n v id := fun v =>
    (write_le ha.symm (Nat.le_refl n) hid v).antisymm (write_le ha (Nat.le_refl n) hid v)
  have hr : ∀ bs, read { E with sys := sys' } n id bs = read E n id bs := fun bs =>
    (read_le ha.symm (Nat.le_refl n) hid bs).antisymm (read_le ha (Nat.le_refl n) hid bs)
  refine ⟨fun v => ?_, hw, fun max v => ?_, hr, fun bs => ?_⟩
  · exact (typify_le ha.symm (Nat.le_refl n) hid v).antisymm (typify_le ha (Nat.le_refl n) hid v)
  · simp only [serialize, hw]
  · simp only [deserialize, hr]

/-- The first three types of the cyclic system. -/
def exSmall : TypeSystem := exCyclic.take 3

/-- The cyclic system extends its first three types. -/
example : (∀ id t, exSmall.get id = some t → exCyclic.get id = some t) ∧
    (∀ j, Reach exSmall (· = Id32.rep 1) j → ∃ t, exSmall.get j = some t) := by
  have hs : exCyclic.Sorted := by
    simp [exCyclic, OMap.Sorted]; decide
  constructor
  · intro id t h
    exact OMap.get_of_mem hs (List.mem_of_mem_take (OMap.get_mem h))
  · intro j hj
    have : j = Id32.rep 1 ∨ j = Id32.rep 2 ∨ j = Id32.rep 3 := by
      induction hj with
      | root h => exact Or.inl h
      | step _ hg hr ih =>
        rcases ih with rfl | rfl | rfl <;> cases hg <;> simp [Ty.refs] at hr
        · rcases hr with h | h <;> simp [h]
        · simp [hr]
    rcases this with rfl | rfl | rfl <;> exact ⟨_, rfl⟩

end Verif
