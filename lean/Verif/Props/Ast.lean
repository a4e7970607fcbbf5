import Verif.Lemmas.Ast

/-!
# Properties C42, C44-C47, C54, C55: the type syntax
-/

namespace Verif
variable {α β σ ε : Type}

/-! ## C44 -/

/-- **C44 is violated**: iterating a tuple yields no item case for any of its fields. -/
theorem C44_tuple_case_violated (debug : Bool) (a b : α) :
    Ty.collectIter (Ty.iterNext debug) 3 (Ty.iterStart (.tuple [a, b])) =
      .ok [(a, none), (b, none)] := by
  cases debug <;> rfl

/-- **C44 is violated**: in builds with overflow checks, iterating a type with the maximal allowed
number of fields (255) panics, whatever the fields are. -/
theorem C44_iter_enumerates_violated (fs : List α) (h : fs.length = 255) (fuel : Nat)
    (hf : 256 ≤ fuel) :
    (Ty.tuple fs).WF ∧
    Ty.collectIter (Ty.intoIterNext true) fuel (Ty.iterStart (.tuple fs)) = .panic := by
  refine ⟨⟨by omega, by omega⟩, ?_⟩
  have key : ∀ (n k fuel : Nat), n = 255 - k → k ≤ 255 → n < fuel →
      Ty.collectIter (Ty.intoIterNext true) fuel ⟨.tuple fs, BitVec.ofNat 8 k⟩ = .panic := by
    intro n
    induction n with
    | zero =>
      intro k fuel hn hk hf
      obtain ⟨f, rfl⟩ : ∃ f, fuel = f + 1 := ⟨fuel - 1, by omega⟩
      have : k = 255 := by omega
      subst this
      rfl
    | succ n ih =>
      intro k fuel hn hk hf
      obtain ⟨f, rfl⟩ : ∃ f, fuel = f + 1 := ⟨fuel - 1, by omega⟩
      have hk' : (BitVec.ofNat 8 k).toNat = k := by simp; omega
      have h1 : BitVec.ofNat 8 k + 1 = BitVec.ofNat 8 (k + 1) := by
        apply BitVec.eq_of_toNat_eq; simp
      have hinc : Ty.incPos true (BitVec.ofNat 8 k) = .ok (BitVec.ofNat 8 (k + 1)) := by
        unfold Ty.incPos
        rw [h1, if_neg]
        intro h
        simp only [Bool.and_eq_true, beq_iff_eq] at h
        have h2 := congrArg BitVec.toNat h.2
        have h3 : (255 : Byte).toNat = 255 := rfl
        rw [hk', h3] at h2
        omega
      have hn : Ty.intoIterNext true ⟨.tuple fs, BitVec.ofNat 8 k⟩ =
          .ok (some (fs[k]'(by omega)), ⟨.tuple fs, BitVec.ofNat 8 (k + 1)⟩) := by
        simp only [Ty.intoIterNext, hinc, Out.bind_ok, Out.pure_eq, Ty.tyAt, hk']
        rw [List.getElem?_eq_getElem (by omega)]
      unfold Ty.collectIter
      rw [hn]
      simp only [Out.bind_ok]
      rw [ih (k + 1) f (by omega) (by omega) (by omega)]
      rfl
  exact key 255 0 fuel rfl (by omega) (by omega)

example : (List.replicate 255 (Id32.rep 1)).length = 255 := List.length_replicate

/-- **C44, what holds** for the consuming iterator: it yields every direct reference exactly once in
declaration order and then stops, for every well-formed type with fewer than 255 references (any
number in builds without overflow checks). Missing: 255 references with overflow checks. -/
theorem C44_into_iter_enumerates_partial (debug : Bool) (t : Ty α) (h : t.WF)
    (hd : debug = true → t.refs.length < 255) (fuel : Nat) (hf : t.refs.length < fuel) :
    Ty.collectIter (Ty.intoIterNext debug) fuel (Ty.iterStart t) =
      .ok (t.items.map Prod.fst) := by
  rw [Ty.items_map_fst]
  exact collectIter_list (Ty.intoIterNext debug) t t.refs debug
    (fun pos => by simp [Ty.intoIterNext, Ty.tyAt_eq]) (Ty.refs_length_le h) hd 0 (by omega) fuel
    (by omega)

/-- **C44, what holds** for the borrowing iterator: for every type but tuples it yields every direct
reference exactly once, in declaration order, with the right item case, and then stops. Missing:
item cases of tuples (`C44_tuple_case_violated`) and 255 references with overflow checks. -/
theorem C44_iter_enumerates_partial (debug : Bool) (t : Ty α) (h : t.WF)
    (ht : ∀ fs, t ≠ .tuple fs)
    (hd : debug = true → t.refs.length < 255) (fuel : Nat) (hf : t.refs.length < fuel) :
    Ty.collectIter (Ty.iterNext debug) fuel (Ty.iterStart t) =
      .ok (t.items.map fun p => (p.1, some p.2)) := by
  have hl : t.items.length = t.refs.length := by rw [← Ty.items_map_fst]; simp
  have := collectIter_list (Ty.iterNext debug) t (t.items.map fun p => (p.1, some p.2)) debug
    (fun pos => by
      simp only [Ty.iterNext, Ty.tyAt_eq, Ty.caseAt_eq t pos ht, ← Ty.items_map_fst,
        List.getElem?_map]
      cases t.items[pos.toNat]? <;> simp)
    (by simp only [List.length_map, hl]; exact Ty.refs_length_le h)
    (by simp only [List.length_map, hl]; exact hd) 0 (by omega) fuel
    (by simp only [List.length_map, hl]; omega)
  exact this

/-- **C44, what holds** for tuples: the references are right, the cases are absent. -/
theorem C44_iter_tuple_partial (debug : Bool) (fs : List α) (h : (Ty.tuple fs).WF)
    (hd : debug = true → fs.length < 255) (fuel : Nat) (hf : fs.length < fuel) :
    Ty.collectIter (Ty.iterNext debug) fuel (Ty.iterStart (.tuple fs)) =
      .ok (fs.map fun r => (r, none)) := by
  have := collectIter_list (Ty.iterNext debug) (.tuple fs) (fs.map fun r => (r, none)) debug
    (fun pos => by
      simp only [Ty.iterNext, Ty.tyAt_eq, Ty.refs, List.getElem?_map]
      cases hg : fs[pos.toNat]? with
      | none => simp
      | some a =>
        have hlt := (List.getElem?_eq_some_iff.mp hg).1
        have hc : (Ty.tuple fs).caseAt pos = none := by
          simp only [Ty.caseAt]
          rw [if_neg]
          intro e
          have := congrArg BitVec.toNat e
          simp only [BitVec.toNat_ofNat] at this
          have := h.2
          omega
        simp [hc])
    (by simpa using h.2) (by simpa using hd) 0 (by omega) fuel (by simpa using hf)
  exact this

example : (Ty.map (Id32.rep 1) (Id32.rep 2) ⟨0, 255⟩).WF ∧
    (Ty.map (Id32.rep 1) (Id32.rep 2) ⟨0, 255⟩).items =
      [(Id32.rep 1, .mapKey), (Id32.rep 2, .mapValue)] := by decide

/-! ## C45 -/

/-- **C45**: the reference count is the number of direct references, and the positions carrying a
reference are exactly those below it. -/
theorem C45_count_agrees (t : Ty α) (h : t.WF) :
    t.countTypeRefs.toNat = t.items.length ∧
    ∀ pos : Byte, (t.tyAt pos).isSome ↔ pos.toNat < t.countTypeRefs.toNat := by
  have h1 : t.countTypeRefs.toNat = t.refs.length := by
    have := Ty.refs_length_le h
    cases t <;> simp_all [Ty.countTypeRefs, Ty.refs] <;> omega
  have h2 : t.items.length = t.refs.length := by rw [← Ty.items_map_fst]; simp
  refine ⟨by rw [h1, h2], fun pos => ?_⟩
  rw [Ty.tyAt_eq, h1]
  simp

example : (Ty.struct [(n!"a", Id32.rep 1), (n!"b", Id32.rep 1)]).countTypeRefs = 2 := by decide

/-! ## C46 -/

/-- **C46** for enums: name-to-tag and tag-to-name lookups are inverse partial functions, defined
exactly on the names and tags of the enum. -/
theorem C46_enum_lookups_inverse (vs : List Variant) (h : VariantsWF vs) (n : Name) (t : Byte) :
    (Ty.enumTagByName vs n = some t ↔ Ty.enumNameByTag vs t = some n) ∧
    (Ty.enumTagByName vs n = some t ↔ ⟨n, t⟩ ∈ vs) ∧
    (Ty.enumHasTag vs t = true ↔ ∃ m, Ty.enumNameByTag vs t = some m) ∧
    (Ty.enumHasName vs n = true ↔ ∃ u, Ty.enumTagByName vs n = some u) ∧
    (∀ v, Ty.enumByTag vs t = some v ↔ v ∈ vs ∧ v.tag = t) ∧
    (∀ v, Ty.enumByName vs n = some v ↔ v ∈ vs ∧ v.name = n) := by
  refine ⟨?_, enumTagByName_iff h n t, ?_, ?_, ?_, ?_⟩
  · rw [enumTagByName_iff h, enumNameByTag_iff h]
  · simp only [enumNameByTag_iff h, Ty.enumHasTag, List.any_eq_true, beq_iff_eq]
    constructor
    · rintro ⟨⟨m, u⟩, h1, rfl⟩; exact ⟨m, h1⟩
    · rintro ⟨m, h1⟩; exact ⟨_, h1, rfl⟩
  · simp only [enumTagByName_iff h, Ty.enumHasName, List.any_eq_true, beq_iff_eq]
    constructor
    · rintro ⟨⟨m, u⟩, h1, rfl⟩; exact ⟨u, h1⟩
    · rintro ⟨m, h1⟩; exact ⟨_, h1, rfl⟩
  · intro v
    constructor
    · intro e; exact ⟨List.mem_of_find?_eq_some e, by simpa using List.find?_some e⟩
    · rintro ⟨h1, rfl⟩; exact (h.find_tag v).mpr h1
  · intro v
    constructor
    · intro e; exact ⟨List.mem_of_find?_eq_some e, by simpa using List.find?_some e⟩
    · rintro ⟨h1, rfl⟩; exact (h.find_name v).mpr h1

/-- **C46** for unions: the same, and both lookups of the payload type agree with them. -/
theorem C46_union_lookups_inverse (vs : List (Variant × α)) (h : VariantsWF (vs.map Prod.fst))
    (n : Name) (t : Byte) :
    (Ty.unionTagByName vs n = some t ↔ Ty.unionNameByTag vs t = some n) ∧
    (Ty.unionHasTag vs t = true ↔ ∃ m, Ty.unionNameByTag vs t = some m) ∧
    (Ty.unionTagByName vs n = some t → Ty.unionTyByName vs n = Ty.unionTyByTag vs t) ∧
    (∀ p, Ty.unionByTag vs t = some p ↔ p ∈ vs ∧ p.1.tag = t) ∧
    (∀ p, Ty.unionByName vs n = some p ↔ p ∈ vs ∧ p.1.name = n) ∧
    (∀ r, Ty.unionTyByTag vs t = some r ↔ ∃ m, (⟨m, t⟩, r) ∈ vs) ∧
    (∀ r, Ty.unionTyByName vs n = some r ↔ ∃ u, (⟨n, u⟩, r) ∈ vs) := by
  have hn : ∀ n t, Ty.unionTagByName vs n = some t ↔ (⟨n, t⟩ : Variant) ∈ vs.map Prod.fst :=
    enumTagByName_iff h
  have ht : ∀ n t, Ty.unionNameByTag vs t = some n ↔ (⟨n, t⟩ : Variant) ∈ vs.map Prod.fst :=
    enumNameByTag_iff h
  refine ⟨by rw [hn, ht], ?_, ?_, fun p => unionByTag_iff h p t, fun p => unionByName_iff h p n,
    fun r => unionTyByTag_iff h t r, fun r => unionTyByName_iff h n r⟩
  · simp only [ht, Ty.unionHasTag, List.any_eq_true, beq_iff_eq, List.mem_map]
    constructor
    · rintro ⟨⟨⟨m, u⟩, r⟩, h1, rfl⟩; exact ⟨m, _, h1, rfl⟩
    · rintro ⟨m, p, h1, h2⟩; exact ⟨p, h1, by rw [h2]⟩
  · intro h1
    rw [hn] at h1
    obtain ⟨⟨v, r⟩, h2, h3⟩ := List.mem_map.mp h1
    simp only at h3
    subst h3
    rw [(unionTyByName_iff h n r).mpr ⟨t, h2⟩, (unionTyByTag_iff h t r).mpr ⟨n, h2⟩]

example : VariantsWF [⟨n!"red", 0⟩, ⟨n!"green", 3⟩, ⟨n!"blue", 200⟩] := by decide

/-- Without the distinctness of names the lookups are not inverse: `C46` needs its hypothesis. -/
example : Ty.enumTagByName [⟨n!"a", 0⟩, ⟨n!"a", 1⟩] n!"a" = some 0 ∧
    Ty.enumNameByTag [⟨n!"a", 0⟩, ⟨n!"a", 1⟩] 1 = some n!"a" := by decide

/-! ## C47 (type part; the value part is in `Props/Typify.lean`) -/

/-- **C47**: a well-formed type is recognised as optional exactly when it is the union of
`none = 0` and `some = 1`, and the payload found is the one of `some`. -/
theorem C47_option_recognised (t : Ty α) (r : α) :
    (t.asSome = some r ↔ ∃ n, t = .union [(⟨n!"none", 0⟩, n), (⟨n!"some", 1⟩, r)]) ∧
    (t.isOption = true ↔ ∃ n s, t = .union [(⟨n!"none", 0⟩, n), (⟨n!"some", 1⟩, s)]) := by
  have key : ∀ r, (t.asSome = some r ↔
      ∃ n, t = .union [(⟨n!"none", 0⟩, n), (⟨n!"some", 1⟩, r)]) := by
    intro r
    constructor
    · intro h
      cases t with
      | union vs =>
        simp only [Ty.asSome] at h
        split at h
        · rename_i hl
          obtain ⟨p, q, rfl⟩ : ∃ p q, vs = [p, q] := by
            rcases vs with _ | ⟨p, _ | ⟨q, _ | _⟩⟩ <;> simp at hl
            exact ⟨p, q, rfl⟩
          obtain ⟨⟨n1, t1⟩, a⟩ := p
          obtain ⟨⟨n2, t2⟩, b⟩ := q
          simp only [List.head?_cons, List.getLast?_cons_cons, List.getLast?_singleton] at h
          split at h
          · rename_i hc
            obtain ⟨rfl, rfl, rfl, rfl⟩ := hc
            simp only [Option.some.injEq] at h
            subst h
            exact ⟨a, rfl⟩
          · cases h
        · cases h
      | _ => simp [Ty.asSome] at h
    · rintro ⟨n, rfl⟩; rfl
  refine ⟨key r, ?_⟩
  rw [Ty.isOption, Option.isSome_iff_exists]
  simp only [key]
  constructor
  · rintro ⟨s, n, h⟩; exact ⟨n, s, h⟩
  · rintro ⟨n, s, h⟩; exact ⟨s, n, h⟩

example : (Ty.union [(⟨n!"none", 0⟩, Id32.rep 1), (⟨n!"some", 1⟩, Id32.rep 2)]).asSome =
    some (Id32.rep 2) := by decide

/-! ## C42 -/

/-- Type with a struct inside a struct, with embedded definitions. -/
def exNested : Ty TranspileRef :=
  .struct [(n!"a", .embedded (.struct [(n!"b", .embedded .U8)]))]

/-- **C42 is violated**: a two-step path that exists is reported as an error, and a two-step path
that does not exist is accepted, because every step is matched against the root type. -/
theorem C42_path_violated :
    Ty.Follows TranspileRef.asTy exNested [.namedField n!"a", .namedField n!"b"] .U8 ∧
    exNested.atPath TranspileRef.asTy [.namedField n!"a", .namedField n!"b"] =
      .err [.namedField n!"b"] ∧
    (¬ ∃ u, Ty.Follows TranspileRef.asTy exNested [.namedField n!"a", .namedField n!"a"] u) ∧
    exNested.atPath TranspileRef.asTy [.namedField n!"a", .namedField n!"a"] =
      .ok (.struct [(n!"b", .embedded .U8)]) := by
  refine ⟨?_, rfl, ?_, rfl⟩
  · refine .cons (r := .embedded (.struct [(n!"b", .embedded .U8)])) ?_ rfl
      (.cons (r := .embedded .U8) ?_ rfl (.nil _))
    · simp [exNested, Ty.SpecStep]
    · simp [Ty.SpecStep]
  · rintro ⟨u, h⟩
    cases h with
    | cons h1 h2 h3 =>
      simp only [exNested, Ty.SpecStep, List.mem_singleton, Prod.mk.injEq, true_and] at h1
      subst h1
      simp only [TranspileRef.asTy, Option.some.injEq] at h2
      subst h2
      cases h3 with
      | cons h4 h5 h6 =>
        simp only [Ty.SpecStep, List.mem_singleton, Prod.mk.injEq] at h4
        exact absurd h4.1 (by decide)

/-- For a well-formed type other than a tuple with distinct field names the matching of one step
finds exactly what the step leads to. -/
theorem stepRef_iff {t : Ty α} {s : Ty.Step} (hw : t.WF) (ht : ∀ fs, t ≠ .tuple fs)
    (hs : ∀ fs, t = .struct fs → (fs.map Prod.fst).Nodup) (r : α) :
    t.stepRef s = some r ↔ t.SpecStep s r := by
  cases t with
  | tuple fs => exact absurd rfl (ht fs)
  | struct fs =>
    cases s <;> simp only [Ty.stepRef, Ty.SpecStep, reduceCtorEq]
    case namedField n =>
      simp only [Ty.fieldTy, Option.map_eq_some_iff]
      constructor
      · rintro ⟨⟨m, r'⟩, h1, rfl⟩
        have h2 := List.find?_some h1
        simp only [beq_iff_eq] at h2
        subst h2
        exact List.mem_of_find?_eq_some h1
      · intro h
        refine ⟨(n, r), find_unique h (by simp) ?_, rfl⟩
        rintro ⟨m, r'⟩ hb e
        simp only [beq_iff_eq] at e
        subst e
        have hn := hs fs rfl
        clear hs hw ht
        induction fs with
        | nil => cases h
        | cons p fs ih =>
          simp only [List.map_cons, List.nodup_cons] at hn
          simp only [List.mem_cons] at h hb
          rcases h with h | h <;> rcases hb with hb | hb
          · rw [hb, h]
          · exact absurd (List.mem_map.mpr ⟨_, hb, by rw [← h]⟩) hn.1
          · exact absurd (List.mem_map.mpr ⟨_, h, by rw [← hb]⟩) hn.1
          · exact ih hb h hn.2
    case unnamedField i =>
      simp [List.getElem?_map, Option.map_eq_some_iff]
  | union vs =>
    cases s <;> simp only [Ty.stepRef, Ty.SpecStep, reduceCtorEq]
    case variant n => exact unionTyByName_iff hw n r
    case unnamedField i => exact unionTyByTag_iff hw i r
  | _ => cases s <;> simp [Ty.stepRef, Ty.SpecStep, eq_comm]

/-- One step, in terms of the specification. -/
theorem stepTy_iff {asTy : α → Option (Ty α)} {t u : Ty α} {s : Ty.Step} (hw : t.WF)
    (ht : ∀ fs, t ≠ .tuple fs)
    (hs : ∀ fs, t = .struct fs → (fs.map Prod.fst).Nodup) :
    (t.stepRef s).bind asTy = some u ↔ Ty.Follows asTy t [s] u := by
  rw [Option.bind_eq_some_iff]
  constructor
  · rintro ⟨r, h1, h2⟩
    exact .cons ((stepRef_iff hw ht hs r).mp h1) h2 (.nil _)
  · intro h
    cases h with
    | cons h1 h2 h3 =>
      cases h3
      exact ⟨_, (stepRef_iff hw ht hs _).mpr h1, h2⟩

/-- The loop succeeds when every step is found in the root, with what the last step finds. -/
theorem atPathLoop_ok (asTy : α → Option (Ty α)) (t u : Ty α) (s : Ty.Step) :
    ∀ (l seen : List Ty.Step) (cur : Ty α),
    Ty.atPathLoop asTy t (l ++ [s]) seen cur = .ok u ↔
      (∀ s' ∈ l, ∃ v, (t.stepRef s').bind asTy = some v) ∧ (t.stepRef s).bind asTy = some u
  | [], seen, cur => by
    cases h : (t.stepRef s).bind asTy <;> simp [Ty.atPathLoop, h]
  | s' :: l, seen, cur => by
    have ih := atPathLoop_ok asTy t u s l
    cases h : (t.stepRef s').bind asTy with
    | none => simp [Ty.atPathLoop, h]
    | some v =>
      simp only [List.cons_append, Ty.atPathLoop, h, List.mem_cons, forall_eq_or_imp,
        Option.some.injEq, exists_eq', true_and]
      exact ih _ _

/-- **C42 is violated** for tuples: a field of a tuple cannot be reached at all, whatever the path. -/
theorem C42_tuple_violated (i : Byte) (fs : List TranspileRef) (t : Ty TranspileRef)
    (h : fs[i.toNat]? = some (.embedded t)) :
    Ty.Follows TranspileRef.asTy (.tuple fs) [.unnamedField i] t ∧
    (Ty.tuple fs).atPath TranspileRef.asTy [.unnamedField i] = .err [.unnamedField i] ∧
    ∀ s p u, (Ty.tuple fs).atPath TranspileRef.asTy (s :: p) ≠ .ok u := by
  refine ⟨.cons (r := .embedded t) h rfl (.nil _), rfl, fun s p u e => ?_⟩
  rw [Ty.atPath, List.reverse_cons, atPathLoop_ok] at e
  cases s <;> simp [Ty.stepRef] at e

/-- **C42, what holds**: the empty path gives the type itself, and for a well-formed type other than
a tuple with distinct field names a path of any length gives a type exactly when each of its steps
*taken alone* leads somewhere from the root; the answer is then the type the first step leads to. So
a one-step path gives exactly the type that step leads to. Missing: that a longer path leads to the
type its steps lead to one after another, and tuples (`C42_path_violated`,
`C42_tuple_violated`). -/
theorem C42_path_partial (asTy : α → Option (Ty α)) (t u : Ty α) (s : Ty.Step) (p : List Ty.Step)
    (hw : t.WF) (ht : ∀ fs, t ≠ .tuple fs)
    (hs : ∀ fs, t = .struct fs → (fs.map Prod.fst).Nodup) :
    t.atPath asTy [] = .ok t ∧
    (t.atPath asTy [s] = .ok u ↔ Ty.Follows asTy t [s] u) ∧
    (t.atPath asTy (s :: p) = .ok u ↔
      (∀ s' ∈ p, ∃ v, Ty.Follows asTy t [s'] v) ∧ Ty.Follows asTy t [s] u) := by
  have key : ∀ p : List Ty.Step, t.atPath asTy (s :: p) = .ok u ↔
      (∀ s' ∈ p, ∃ v, Ty.Follows asTy t [s'] v) ∧ Ty.Follows asTy t [s] u := by
    intro p
    simp only [Ty.atPath, List.reverse_cons, atPathLoop_ok, List.mem_reverse,
      stepTy_iff hw ht hs]
  refine ⟨rfl, ?_, key p⟩
  have h := key []
  simpa using h

example : exNested.WF := by decide

/-- A path of two steps that is answered, with the type its first step leads to. -/
example : exNested.atPath TranspileRef.asTy [.namedField n!"a", .unnamedField 0] =
    .ok (.struct [(n!"b", .embedded .U8)]) := rfl

/-! ## C54 -/

/-- **C54 is violated**: equality of dependencies is not transitive, and equal dependencies may be
ordered strictly (and hash differently, the hash being that of the id). -/
theorem C54_dependency_eq_violated :
    ∃ a b c : Dependency, a.eqv b = true ∧ b.eqv c = true ∧ a.eqv c = false ∧
      KeyOrd.lt b c = true := by
  refine ⟨⟨Id32.rep 1, n!"A"⟩, ⟨Id32.rep 1, n!"B"⟩, ⟨Id32.rep 2, n!"B"⟩, ?_⟩
  decide

/-- **C54, what holds**: equality is reflexive and symmetric, dependencies with the same id are equal
and not ordered either way, and on any collection where different ids have different names, equality
is equality of ids, hence transitive and consistent with order and hash. Missing: transitivity in
general. -/
theorem C54_dependency_eq_partial :
    (∀ a : Dependency, a.eqv a = true) ∧
    (∀ a b : Dependency, a.eqv b = b.eqv a) ∧
    (∀ a b : Dependency, a.id = b.id → a.eqv b = true ∧ KeyOrd.lt a b = false) ∧
    (∀ l : List Dependency, (∀ a ∈ l, ∀ b ∈ l, a.name = b.name → a.id = b.id) →
      ∀ a ∈ l, ∀ b ∈ l, (a.eqv b = true ↔ a.id = b.id) ∧
        (a.eqv b = true ↔ KeyOrd.lt a b = false ∧ KeyOrd.lt b a = false)) := by
  have irr : ∀ a b : Dependency, a.id = b.id → KeyOrd.lt a b = false := by
    intro a b h
    show KeyOrd.lt a.id b.id = false
    rw [h]
    exact LawfulKeyOrd.irrefl _
  refine ⟨fun a => by simp [Dependency.eqv], fun a b => by simp [Dependency.eqv, eq_comm],
    fun a b h => ⟨by simp [Dependency.eqv, h], irr a b h⟩, ?_⟩
  intro l hl a ha b hb
  have h1 : a.eqv b = true ↔ a.id = b.id := by
    simp only [Dependency.eqv, Bool.or_eq_true, decide_eq_true_eq]
    exact ⟨fun h => h.elim id (hl a ha b hb), Or.inl⟩
  refine ⟨h1, h1.trans ⟨fun h => ⟨irr a b h, irr b a h.symm⟩, ?_⟩⟩
  rintro ⟨h2, h3⟩
  have h2' : KeyOrd.lt a.id b.id = false := h2
  have h3' : KeyOrd.lt b.id a.id = false := h3
  by_cases e : a.id = b.id
  · exact e
  · have := KeyOrd.lt_of_not_lt_ne (by simp [h2']) e
    rw [h3'] at this
    cases this

/-! ## C55 -/

/-- **C55**: translating a well-formed type succeeds exactly when translating its references from
left to right succeeds, and the result is the type with exactly the references replaced: same class,
names, tags, order, lengths and sizings. -/
theorem C55_translate_structural (f : α → σ → Out ε (β × σ)) (t : Ty α) (h : t.WF) (s s' : σ)
    (u : Ty β) :
    t.translate f s = .ok (u, s') ↔
      ∃ bs, Runs f (t.items.map Prod.fst) s bs s' ∧ t.Replaced bs u := by
  rw [Ty.translate_eq h, Ty.items_map_fst, Out.bind_eq_ok]
  constructor
  · rintro ⟨⟨bs, s1⟩, h1, h2⟩
    have h1 := traverseList_runs.mp h1
    cases hw : t.withRefs bs with
    | none => simp [hw, Out.expect] at h2
    | some v =>
      simp only [hw, Out.expect, Out.bind_ok, Out.ok.injEq, Prod.mk.injEq] at h2
      obtain ⟨rfl, rfl⟩ := h2
      exact ⟨bs, h1, (Ty.withRefs_replaced h1.length v).mp hw⟩
  · rintro ⟨bs, h1, h2⟩
    refine ⟨(bs, s'), traverseList_runs.mpr h1, ?_⟩
    rw [(Ty.withRefs_replaced h1.length u).mpr h2]
    rfl

/-- **C55**: the translation fails with the error of the first reference that fails. -/
theorem C55_translate_first_error (f : α → σ → Out ε (β × σ)) (t : Ty α) (h : t.WF) (s : σ)
    (pre post : List α) (a : α) (bs : List β) (s' : σ) (e : ε)
    (hr : t.items.map Prod.fst = pre ++ a :: post) (h1 : Runs f pre s bs s')
    (h2 : f a s' = .err e) : t.translate f s = .err e := by
  rw [Ty.translate_eq h, ← Ty.items_map_fst, hr]
  clear hr
  have : traverseList f (pre ++ a :: post) s = .err e := by
    induction h1 with
    | nil s => simp [traverseList, h2]
    | cons h3 h4 ih => simp only [List.cons_append, traverseList, h3, Out.bind_ok, ih h2]; rfl
  rw [this]; rfl

/-- **C55, limits**: whatever is translated, well-formed or not, the result has between 1 and 255
variants or fields: where there would be none or more, the function panics. -/
theorem C55_limits (f : α → σ → Out ε (β × σ)) (t : Ty α) (s s' : σ) (u : Ty β)
    (h : t.translate f s = .ok (u, s')) :
    match u with
    | .union vs => 1 ≤ vs.length ∧ vs.length ≤ 255
    | .struct fs => 1 ≤ fs.length ∧ fs.length ≤ 255
    | .tuple fs => 1 ≤ fs.length ∧ fs.length ≤ 255
    | _ => True := by
  have check : ∀ {γ : Type} {l m : List γ}, (checkLen l : Out ε (List γ)) = .ok m →
      1 ≤ m.length ∧ m.length ≤ 255 := by
    intro γ l m h
    unfold checkLen at h
    split at h
    · cases h; assumption
    · cases h
  cases t with
  | union vs =>
    obtain ⟨⟨a, s1⟩, -, h⟩ := Out.bind_eq_ok.mp h
    obtain ⟨b, hb, h⟩ := Out.bind_eq_ok.mp h
    cases h
    exact check hb
  | struct fs =>
    obtain ⟨⟨a, s1⟩, -, h⟩ := Out.bind_eq_ok.mp h
    obtain ⟨b, hb, h⟩ := Out.bind_eq_ok.mp h
    cases h
    exact check hb
  | tuple fs =>
    obtain ⟨⟨a, s1⟩, -, h⟩ := Out.bind_eq_ok.mp h
    obtain ⟨b, hb, h⟩ := Out.bind_eq_ok.mp h
    cases h
    exact check hb
  | primitive | unicodeChar | enum => cases h; trivial
  | array | list | set =>
    obtain ⟨⟨a, s1⟩, -, h⟩ := Out.bind_eq_ok.mp h
    cases h
    trivial
  | map =>
    obtain ⟨⟨a, s1⟩, -, h⟩ := Out.bind_eq_ok.mp h
    obtain ⟨⟨b, s2⟩, -, h⟩ := Out.bind_eq_ok.mp h
    cases h
    trivial

/-- A tuple without fields, which no library contains, is not translated. -/
example : (Ty.tuple ([] : List Nat)).translate (fun a (s : Unit) => (.ok (a, s) : Out Unit (Nat × Unit))) () =
    .panic := rfl

/-- **C55**: translation by a total function replaces every reference by its image; by the identity
it is the identity. -/
theorem C55_translate_pure (g : α → β) (t : Ty α) (h : t.WF) (s : σ) :
    t.translate (fun a s => (.ok (g a, s) : Out ε (β × σ))) s = .ok (t.mapRefs g, s) ∧
    t.translate (fun a s => (.ok (a, s) : Out ε (α × σ))) s = .ok (t, s) := by
  have key : ∀ (β : Type) (g : α → β) (l : List α),
      Runs (fun a s => (.ok (g a, s) : Out ε (β × σ))) l s (l.map g) s := by
    intro β g l
    induction l with
    | nil => exact .nil _
    | cons a l ih => exact .cons rfl ih
  have main : ∀ (β : Type) (g : α → β),
      t.translate (fun a s => (.ok (g a, s) : Out ε (β × σ))) s = .ok (t.mapRefs g, s) := by
    intro β g
    rw [C55_translate_structural _ _ h]
    refine ⟨_, key β g _, ?_⟩
    rw [Ty.items_map_fst]
    cases t <;> simp [Ty.refs, Ty.Replaced, Ty.mapRefs]
    case union vs => induction vs <;> simp_all [List.zip, Ty.WF]
    case struct vs => induction vs <;> simp_all [List.zip, Ty.WF]
  refine ⟨main β g, ?_⟩
  have := main α id
  have hid : t.mapRefs id = t := by cases t <;> simp [Ty.mapRefs]
  rw [hid] at this
  exact this

example : (Ty.tuple [1, 2, 3]).translate (fun (a : Nat) (s : Nat) =>
    if a < 3 then (Out.ok (a + 10, s + 1) : Out String (Nat × Nat)) else .err "big") 0 =
    .err "big" := rfl

end Verif
