import Verif.Lemmas.Builders
import Verif.Spec.Example

/-! # The builders of structs, enums and unions build what is described -/

namespace Verif

/-- The variants of `enum Shape { Box { w: u16, h: u16 }, Dot, Circle(u16) }`, not in the order of tags. -/
def exForms : List (Variant × Payload) :=
  [(⟨n!"box", 2⟩, .fields false [(some n!"w", .prim 2), (some n!"h", .prim 2)]), (⟨n!"dot", 0⟩, .unit),
    (⟨n!"circle", 1⟩, .fields true [(none, .prim 2)])]

/-- **C85** (structs and tuples): writing the fields one after the other and completing does to the library what is
described by `RTy.encode`, whatever the fields are and however it ends. -/
theorem C85_record (H : Hash) (debug : Bool) (lib : Name) (name : Option Name) (isTuple : Bool)
    (fs : List (Option Name × RTy)) (b : Transpiler) :
    writeRecord H debug lib name isTuple fs b = (RTy.record lib name isTuple fs).encode H debug b := by
  have h := writer_eq lens_lib H debug lib name isTuple fs b
  simp only [id] at h
  rw [Out.bind_ok_self] at h
  exact h

/-- A struct with a field of a type of the same library, which is described before. -/
example (H : Hash) (debug : Bool) :
    (match writeRecord H debug n!"Geo" (some n!"Line") false
        [(some n!"a", .record n!"Geo" (some n!"Point") true [(none, .prim 2), (none, .prim 2)]),
         (some n!"b", .record n!"Geo" (some n!"Point") true [(none, .prim 2), (none, .prim 2)])] (.new n!"Geo" []) with
     | .ok b => b.types = [(n!"Point", .tuple [.embedded (.primitive 2), .embedded (.primitive 2)]),
         (n!"Line", .struct [(n!"a", .named n!"Point"), (n!"b", .named n!"Point")])]
     | _ => False) := by cases debug <;> with_unfolding_all rfl

/-- **C85** (enums): the loop of `write_enum` over all variants does what is described by `RTy.encode`, whichever variant
the value has, if no two variants have the same name. -/
theorem C85_enum (H : Hash) (debug : Bool) (lib : Name) (name : Option Name) (vs : List Variant) (written : Name)
    (b : Transpiler) (hn : vs.Pairwise fun v w => v.name ≠ w.name) :
    writeEnumTy H lib name vs written b = (RTy.enum lib name vs).encode H debug b := by
  obtain ⟨m, l, h⟩ := enumVariants_eq H vs (UnionBuilder.with lib name vs b) hn fun _ h => h
  simp only [writeEnumTy, RTy.encode]
  rw [h]
  simp only [Out.bind_ok, UnionBuilder.with]
  have e : ∀ p, UnionBuilder.buildEnum ⟨lib, name, m, p, vs,
      vs.foldl (fun s v => insertTag (fun v => v.tag.toNat) v s) []⟩ = buildEnum vs := fun _ => rfl
  rw [e]
  cases hb : buildEnum vs with
  | ok ty =>
    simp only [Out.bind_ok, UnionBuilder.completeDefinition, UnionBuilder.report, report_last]
    cases b.report H lib name ty with
    | ok b' =>
      simp only [Out.bind_ok, Out.pure_eq, UnionBuilder.writeVariant, UnionBuilder.report, Transpiler.report, e, hb,
        UnionBuilder.completeWrite]
    | err e => rfl
    | panic => rfl
    | diverge => rfl
  | err e => rfl
  | panic => rfl
  | diverge => rfl

/-- An enum with three variants, not in the order of tags. -/
example (H : Hash) :
    ([⟨n!"red", 7⟩, ⟨n!"green", 1⟩, ⟨n!"blue", 3⟩] : List Variant).Pairwise (fun v w => v.name ≠ w.name) ∧
    (match writeEnumTy H n!"Geo" (some n!"Colour") [⟨n!"red", 7⟩, ⟨n!"green", 1⟩, ⟨n!"blue", 3⟩] n!"green"
        (.new n!"Geo" []) with
     | .ok b => b.types = [(n!"Colour", .enum [⟨n!"green", 1⟩, ⟨n!"blue", 3⟩, ⟨n!"red", 7⟩])]
     | _ => False) := ⟨by decide, by with_unfolding_all rfl⟩

/-- **C85** (unions): defining all variants, completing, writing one of them and completing does what is described by
`RTy.encode`, if no two variants have the same name. -/
theorem C85_union (H : Hash) (debug : Bool) (lib : Name) (name : Option Name) (vs : List (Variant × Payload))
    (written : Nat) (v : Variant) (p : Payload) (hw : vs[written]? = some (v, p)) (b : Transpiler)
    (hn : (vs.map Prod.fst).Pairwise fun v w => v.name ≠ w.name) :
    writeUnionTy H debug lib name (vs.map Prod.fst) (vs.map fun q => (q.1.name, q.2)) (v.name, p) b =
      (RTy.union lib name (vs.map fun q => (q.1, q.2.rty lib)) written).encode H debug b := by
  have h := defineAll_eq H debug (u := UnionBuilder.with lib name (vs.map Prod.fst) b) hn vs
    (fun q hq => List.mem_map.mpr ⟨q, hq, rfl⟩) [] b
  have hnth : ∀ b, RTy.encodeNth H debug (vs.map fun q => (q.1, q.2.rty lib)) written b =
      ((p.rty lib).encode H debug b).bind fun b => (Out.expect b.last).bind fun _ => .ok b := by
    intro b
    clear h hn
    induction vs generalizing written with
    | nil => simp at hw
    | cons q vs ih =>
      cases written with
      | zero =>
        simp only [List.getElem?_cons_zero, Option.some.injEq] at hw
        subst hw
        simp only [List.map_cons, RTy.encodeNth, RTy.encodeVariant, Out.bind_def, Out.bind_assoc', Out.pure_eq]
        rfl
      | succ n => exact ih n hw
  have hl : ∀ b b', (p.rty lib).encode H debug b = .ok b' → ∃ r, b'.last = some r := by
    intro b b' h
    have : ∃ t fs, p.rty lib = .record lib none t fs := by cases p <;> exact ⟨_, _, rfl⟩
    obtain ⟨t, fs, e⟩ := this
    rw [e] at h
    simp only [RTy.encode, Transpiler.report] at h
    obtain ⟨x, -, h⟩ := Out.bind_eq_ok.mp h
    obtain ⟨ty, -, h⟩ := Out.bind_eq_ok.mp h
    simp only [Out.ok.injEq] at h
    subst h
    exact ⟨_, rfl⟩
  simp only [writeUnionTy, RTy.encode, hnth]
  simp only [Out.bind_def]
  have h' : (UnionBuilder.with lib name (vs.map Prod.fst) b).defineAll H debug (vs.map fun q => (q.1.name, q.2)) = _ := h
  rw [h']
  simp only [UnionBuilder.with]
  cases RTy.encodeVariants H debug (vs.map fun q => (q.1, q.2.rty lib)) b with
  | ok x =>
    obtain ⟨rs, b1⟩ := x
    simp only [Out.bind]
    have e : ∀ b', UnionBuilder.build (UnionBuilder.after ⟨lib, name, [], b, vs.map Prod.fst, []⟩
      (rs.foldl (fun s v => insertTag (fun v => v.1.tag.toNat) v s) []) b') = buildUnion rs := fun b' =>
      build_after _ rs b'
    rw [e]
    cases hb : buildUnion rs with
    | ok ty =>
      simp only [UnionBuilder.completeDefinition, UnionBuilder.report]
      show Out.bind (Out.bind (b1.report H lib name ty) _) _ = Out.bind (b1.report H lib name ty) _
      cases b1.report H lib name ty with
      | ok b2 =>
        simp only [Out.bind, Out.pure_eq]
        have hwr := write_eq H debug ⟨lib, name, [], b, vs.map Prod.fst, []⟩ v.name p
          (rs.foldl (fun s v => insertTag (fun v => v.1.tag.toNat) v s) []) b2
        simp only [UnionBuilder.after] at hwr e ⊢
        rw [hwr]
        cases hp : (p.rty lib).encode H debug b2 with
        | ok b3 =>
          obtain ⟨r, hr⟩ := hl _ _ hp
          simp only [Out.bind, e, hb, hr, Out.expect, UnionBuilder.completeWrite]
        | err e => rfl
        | panic => rfl
        | diverge => rfl
      | err e => rfl
      | panic => rfl
      | diverge => rfl
    | err e => rfl
    | panic => rfl
    | diverge => rfl
  | err e => rfl
  | panic => rfl
  | diverge => rfl

/-- A union with variants of all three kinds. -/
example (H : Hash) (debug : Bool) :
    (exForms.map Prod.fst).Pairwise (fun v w => v.name ≠ w.name) ∧
    (match writeUnionTy H debug n!"Geo" (some n!"Shape") (exForms.map Prod.fst) (exForms.map fun q => (q.1.name, q.2))
        (n!"dot", .unit) (.new n!"Geo" []) with
     | .ok b => b.types = [(n!"Shape", .union [(⟨n!"dot", 0⟩, .embedded Ty.UNIT),
         (⟨n!"circle", 1⟩, .embedded (.tuple [.embedded (.primitive 2)])),
         (⟨n!"box", 2⟩, .embedded (.struct [(n!"w", .embedded (.primitive 2)), (n!"h", .embedded (.primitive 2))]))])]
     | _ => False) := ⟨by decide, by cases debug <;> with_unfolding_all rfl⟩

/-- Without distinct names the tags are mixed up: both variants get the first tag, and one of them is lost. -/
example (H : Hash) (debug : Bool) :
    (match writeUnionTy H debug n!"Geo" (some n!"Shape") [⟨n!"dot", 0⟩, ⟨n!"dot", 1⟩]
        [(n!"dot", .unit), (n!"dot", .fields true [(none, .prim 2)])] (n!"dot", .unit) (.new n!"Geo" []) with
     | .ok b => b.types = [(n!"Shape", .union [(⟨n!"dot", 0⟩, .embedded (.tuple [.embedded (.primitive 2)]))])]
     | _ => False) := by cases debug <;> with_unfolding_all rfl

/-- **C85** (definers): a definer given the fields ends like a writer given the fields. -/
theorem C85_definer (H : Hash) (debug : Bool) (lib : Name) (name : Option Name) (isTuple : Bool)
    (fs : List (Option Name × RTy)) (b : Transpiler) :
    ((StructBuilder.with lib name isTuple b true).defineFields H debug fs >>= fun s => s.completeDefinition H) =
      writeRecord H debug lib name isTuple fs b := by
  rw [C85_record]
  have h := definer_eq lens_lib H debug lib name isTuple fs b true
  simp only [id] at h
  rw [Out.bind_ok_self] at h
  exact h

/-- **C85** fails for definers which go on to write: the check that the fields written are the fields defined cannot
succeed, because fields written are appended to the fields defined. Nothing but a type without fields is ever
completed. -/
theorem C85_definer_writes_violated (H : Hash) (debug : Bool) (lib : Name) (name : Option Name) (isTuple : Bool)
    (defined written : List (Option Name × RTy)) (b : Transpiler) (s s' : StructBuilder Transpiler)
    (h1 : (StructBuilder.with lib name isTuple b true).defineFields H debug defined = .ok s)
    (h2 : s.writeFields H debug written = .ok s') (h : defined ≠ []) : s'.completeWrite H = .panic := by
  have hs : s.cursor = some 0 ∧ s.fields.length = defined.length := by
    rw [defineFields_eq lens_lib] at h1
    obtain ⟨x, hx, h1⟩ := Out.bind_eq_ok.mp h1
    simp only [StructBuilder.with, Out.ok.injEq] at h1
    subst h1
    exact ⟨rfl, by simpa using encodeFields_length hx⟩
  obtain ⟨c1, c2, -⟩ := writeFields_cursor hs.1 h2
  have hb : ∀ t fs, buildStruct t fs = .panic ∨ ∃ ty, buildStruct t fs = .ok ty := by
    intro t fs
    have hf : ∀ fs, fieldNames fs = .panic ∨ ∃ l, fieldNames fs = .ok l := by
      intro fs
      induction fs with
      | nil => exact .inr ⟨_, rfl⟩
      | cons f fs ih =>
        obtain ⟨n, r⟩ := f
        cases n with
        | none => exact .inl rfl
        | some n =>
          rcases ih with h | ⟨l, h⟩
          · exact .inl (by simp [fieldNames, h, Out.expect])
          · exact .inr ⟨(n, r) :: l, by simp [fieldNames, h, Out.expect]⟩
    unfold buildStruct
    split
    · exact .inr ⟨_, rfl⟩
    · split
      · split
        · exact .inr ⟨_, rfl⟩
        · exact .inl rfl
      · rcases hf fs with h | ⟨l, h⟩
        · exact .inl (by simp [h])
        · rw [h]
          simp only [Out.bind_ok]
          split
          · exact .inr ⟨_, rfl⟩
          · exact .inl rfl
  unfold StructBuilder.completeWrite
  rcases hb s'.isTuple s'.fields with e | ⟨ty, e⟩
  · simp [e]
  · rw [e]
    simp only [Out.bind_ok, c1]
    rw [if_neg]
    have : 0 < defined.length := List.length_pos_iff.mpr h
    have h0 : BitVec.toNat (0 : Byte) = 0 := rfl
    simp only [BitVec.toNat_add, BitVec.toNat_ofNat, c2, hs.2, h0]
    omega

/-- A pair defined and then written: everything is accepted until the end. -/
example (H : Hash) (debug : Bool) :
    (match ((StructBuilder.with n!"Geo" (some n!"Point") true (.new n!"Geo" []) true :
        StructBuilder Transpiler).defineFields H debug [(none, .prim 2), (none, .prim 4)] >>=
        fun s => s.writeFields H debug [(none, .prim 2), (none, .prim 4)]) with
     | .ok s => (s.fields.length, s.cursor) = (4, some 2)
     | _ => False) := by cases debug <;> with_unfolding_all rfl

/-- **C85, what is checked of definers which go on to write**: the `k`-th field written has the type of
the field at position `k`, counting the fields defined first and then those written. -/
theorem C85_definer_checks (H : Hash) (debug : Bool) (lib : Name) (name : Option Name) (isTuple : Bool)
    (defined written : List (Option Name × RTy)) (b : Transpiler) (s s' : StructBuilder Transpiler)
    (h1 : (StructBuilder.with lib name isTuple b true).defineFields H debug defined = .ok s)
    (h2 : s.writeFields H debug written = .ok s') (hl : written.length ≤ 256) :
    s'.fields.length = defined.length + written.length ∧
    ∀ k, k < written.length → ∃ x y, s'.fields[k]? = some x ∧ s'.fields[defined.length + k]? = some y ∧
      x.2.eqv y.2 = true := by
  have hs : s.cursor = some 0 ∧ s.fields.length = defined.length := by
    rw [defineFields_eq lens_lib] at h1
    obtain ⟨x, hx, h1⟩ := Out.bind_eq_ok.mp h1
    simp only [StructBuilder.with, Out.ok.injEq] at h1
    subst h1
    exact ⟨rfl, by simpa using encodeFields_length hx⟩
  have key : ∀ (fs : List (Option Name × RTy)) (s s' : StructBuilder Transpiler) (pos : Byte),
      s.cursor = some pos → pos.toNat + fs.length ≤ 256 → s.writeFields H debug fs = .ok s' →
      (∃ l, s'.fields = s.fields ++ l ∧ l.length = fs.length) ∧
      ∀ k, k < fs.length → ∃ x y, s'.fields[pos.toNat + k]? = some x ∧
        s'.fields[s.fields.length + k]? = some y ∧ x.2.eqv y.2 = true := by
    intro fs
    induction fs with
    | nil =>
      intro s s' pos _ _ h
      cases h
      exact ⟨⟨[], by simp, rfl⟩, fun k hk => absurd hk (by simp)⟩
    | cons f fs ih =>
      intro s s' pos hc hle h
      obtain ⟨n, t⟩ := f
      obtain ⟨s1, h1, h2⟩ := Out.bind_eq_ok.mp h
      have hfield : ∃ r x, s1.fields = s.fields ++ [(n, r)] ∧ s1.cursor = some (pos + 1) ∧
          s.fields[pos.toNat]? = some x ∧ x.2.eqv r = true := by
        obtain ⟨⟨r, p⟩, -, h⟩ := Out.bind_eq_ok.mp h1
        simp only [hc] at h
        split at h
        · rename_i e he
          split at h
          · split at h
            · simp at h
            · simp only [Out.pure_eq, Out.ok.injEq] at h
              subst h
              exact ⟨r, _, rfl, rfl, he, by assumption⟩
          · simp at h
        · simp at h
      obtain ⟨r, x, hf, hcur, hx, he⟩ := hfield
      have hpos := (List.getElem?_eq_some_iff.mp hx).1
      simp only [List.length_cons] at hle
      by_cases hfs : fs = []
      · subst hfs
        cases h2
        refine ⟨⟨[(n, r)], hf, rfl⟩, fun k hk => ?_⟩
        simp only [List.length_cons, List.length_nil] at hk
        have : k = 0 := by omega
        subst this
        refine ⟨x, (n, r), ?_, ?_, he⟩
        · rw [hf, Nat.add_zero, List.getElem?_append_left hpos, hx]
        · rw [hf, Nat.add_zero]; simp
      · have hlen : 0 < fs.length := List.length_pos_iff.mpr hfs
        have hp1 : (pos + 1).toNat = pos.toNat + 1 := by
          have h1 : BitVec.toNat (1 : Byte) = 1 := rfl
          simp only [BitVec.toNat_add, h1]
          omega
        obtain ⟨⟨l, hl, hll⟩, hk⟩ := ih s1 s' (pos + 1) hcur (by omega) h2
        refine ⟨⟨(n, r) :: l, by simp [hl, hf], by simp [hll]⟩, fun k hkl => ?_⟩
        cases k with
        | zero =>
          refine ⟨x, (n, r), ?_, ?_, he⟩
          · rw [hl, hf, Nat.add_zero, List.append_assoc, List.getElem?_append_left hpos, hx]
          · rw [hl, hf, Nat.add_zero]; simp
        | succ k =>
          obtain ⟨x', y', a1, a2, a3⟩ := hk k (by simpa using hkl)
          refine ⟨x', y', ?_, ?_, a3⟩
          · rw [← a1]; congr 1; omega
          · rw [← a2, hf, List.length_append]
            congr 1
            simp only [List.length_cons, List.length_nil]
            omega
  obtain ⟨⟨l, hl, hll⟩, hk⟩ := key written s s' 0 hs.1 (by simpa using hl) h2
  refine ⟨by rw [hl, List.length_append, hll, hs.2], fun k hk' => ?_⟩
  obtain ⟨x, y, a1, a2, a3⟩ := hk k hk'
  refine ⟨x, y, ?_, ?_, a3⟩
  · rw [← a1]; simp
  · rw [← a2, hs.2]

/-- Another type than the one defined is refused. -/
example (H : Hash) (debug : Bool) :
    ((StructBuilder.with n!"Geo" (some n!"Point") true (.new n!"Geo" []) true :
        StructBuilder Transpiler).defineFields H debug [(none, .prim 2), (none, .prim 4)] >>=
        fun s => s.writeFields H debug [(none, .prim 4)]) = .panic := by
  cases debug <;> with_unfolding_all rfl

end Verif
