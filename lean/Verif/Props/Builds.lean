import Verif.Lemmas.Builds
import Verif.Props.Codec
import Verif.Props.Compile

/-! # C110: builds with and without debug assertions and overflow checks -/

namespace Verif

/-- **C110 is violated** for values, data, types, type systems and libraries: a tag which the enum does not have is written
without checks; a pair with a list of unbounded length is read without checks; a restricted string declared from zero
characters on gets the largest number as bound of its tail without checks; a type of 255 fields is extracted without checks;
types mentioning each other are compiled forever without checks. With checks, all of these panic. -/
theorem C110_violated (H : Hash) (fuel : Nat) :
    (∃ v id, write (exE true) (fuel + 1) v id = .panic ∧ write (exE false) (fuel + 1) v id = .ok [7]) ∧
    (∃ sys id, read (exWith true sys) (fuel + 2) id (List.replicate 9 0) = .panic ∧
      read (exWith false sys) (fuel + 2) id (List.replicate 9 0) = .ok (.tuple [.num (.uint 0), .list []], [])) ∧
    (∃ t : RTy, ∀ b : Transpiler, t.encode H true b = .panic ∧ ∃ b' r r' max, t.encode H false b = .ok b' ∧
      b'.last = some (.embedded (.tuple [r, .embedded (.list r' ⟨-1, max⟩)]))) ∧
    (∃ sys id, extract true (fuel + 3) sys [id] = .panic ∧ extract false (fuel + 3) sys [id] = .ok sys) ∧
    (∃ s : SymbolicLib, s.compile H true (fuel + 1) = .panic ∧ s.compile H false (fuel + 1) = .diverge) := by
  refine ⟨⟨.enum (.ord 7), Id32.rep 3, ?_⟩, ⟨[(Id32.rep 1, Ty.U8), (Id32.rep 2, .list (Id32.rep 1) ⟨0, -1⟩),
    (Id32.rep 4, .tuple [Id32.rep 1, Id32.rep 2])], Id32.rep 4, ?_⟩, ⟨.rstring (.prim 1) (.prim 1) ⟨0, 10⟩, fun b => ?_⟩,
    ⟨[(Id32.rep 1, .tuple (List.replicate 255 (Id32.rep 2))), (Id32.rep 2, Ty.U8)], Id32.rep 1, ?_⟩,
    ⟨⟨n!"Lib", [], [], [(n!"A", .tuple [.named n!"A"])]⟩, ?_⟩⟩
  · exact ⟨rfl, rfl⟩
  · exact ⟨rfl, rfl⟩
  · exact ⟨rfl, _, _, _, _, rfl, rfl⟩
  · have hw : (Ty.tuple (List.replicate 255 (Id32.rep 2 : SemId))).WF := by simp [Ty.WF, -List.reduceReplicate]
    have hl : (Ty.tuple (List.replicate 255 (Id32.rep 2 : SemId))).refs.length = 255 := by
      simp [Ty.refs, -List.reduceReplicate]
    have hg : OMap.get [(Id32.rep 1, Ty.tuple (List.replicate 255 (Id32.rep 2))), (Id32.rep 2, Ty.U8)] (Id32.rep 1 : SemId) =
      some (Ty.tuple (List.replicate 255 (Id32.rep 2))) := rfl
    refine ⟨?_, ?_⟩
    · unfold extract
      show extractLoop true _ (fuel + 2 + 1) (Id32.rep 1 :: []) [] [] = _
      rw [extractLoop, hg]
      simp only [Ty.iterRefs_panic hw hl, Out.bind_panic]
    · unfold extract
      show extractLoop false _ (fuel + 2 + 1) (Id32.rep 1 :: []) [] [] = _
      rw [extractLoop, hg]
      simp only [Ty.iterRefs_eq hw (debug := false) (fun h => nomatch h), Out.bind_ok]
      have he : OSet.extend [] (List.filter (fun r => !(OSet.insert [] (Id32.rep 1)).contains r)
          (Ty.tuple (List.replicate 255 (Id32.rep 2 : SemId))).refs) = [Id32.rep 2] := by
        decide +kernel
      rw [he]
      rfl
  · have hp : compilePass H [n!"A"] ⟨[(n!"A", .tuple [.named n!"A"])], [], []⟩ =
        .ok (⟨[(n!"A", .tuple [.named n!"A"])], [], []⟩, false) := rfl
    refine ⟨rfl, ?_⟩
    show (compileLoop H false [n!"A"] (fuel + 1) ⟨[(n!"A", .tuple [.named n!"A"])], [], []⟩ >>= _) = _
    rw [compileLoop_stuck rfl hp]
    rfl

/-! ## What is returned with checks is returned without -/

/-- **C110, what holds** for values and data: a build with checks panics, or does what the build without does. Here and below,
missing: that it does not panic (`C110_violated`). -/
theorem C110_values_partial (E : Env) (fuel max : Nat) (v : Val) (id : SemId) (bs : Bytes) :
    Below (write E.checked fuel v id) (write E.unchecked fuel v id) ∧
    Below (serialize E.checked fuel max v id) (serialize E.unchecked fuel max v id) ∧
    Below (read E.checked fuel id bs) (read E.unchecked fuel id bs) ∧
    Below (deserialize E.checked fuel id bs) (deserialize E.unchecked fuel id bs) :=
  ⟨below_write E fuel v id, .bind (.mapErr _ (below_write E fuel v id)) fun _ => .rfl, below_read E fuel id bs,
    .bind (below_read E fuel id bs) fun _ => .rfl⟩

/-- Of the examples, one returns and one panics. -/
example : read (exE true) 5 (Id32.rep 14) (exBytes ++ [9]) = .ok (exVal, [9]) ∧
    read (exE false) 5 (Id32.rep 14) (exBytes ++ [9]) = .ok (exVal, [9]) ∧ (exE false).checked = exE true ∧
    write (exE true) 1 (.enum (.ord 7)) (Id32.rep 3) = .panic := ⟨rfl, rfl, rfl, rfl⟩

/-- **C110, what holds** for type systems: going through the parts of a type, extracting types, finalising a system and
assembling it from libraries. -/
theorem C110_systems_partial (H : Hash) (fuel : Nat) (t : Ty SemId) (sys : TypeSystem) (ids : List SemId) (b : SystemBuilder)
    (ls : List TypeLib) :
    Below (Ty.collectIter (Ty.iterNext true) fuel t.iterStart) (Ty.collectIter (Ty.iterNext false) fuel t.iterStart) ∧
    Below (Ty.collectIter (Ty.intoIterNext true) fuel t.iterStart) (Ty.collectIter (Ty.intoIterNext false) fuel t.iterStart) ∧
    Below (extract true fuel sys ids) (extract false fuel sys ids) ∧
    Below (b.finalize true) (b.finalize false) ∧
    Below (assembleSys H true ls) (assembleSys H false ls) :=
  ⟨below_collectIter below_iterNext fuel _, below_collectIter below_intoIterNext fuel _, below_extractLoop sys fuel _ _ _,
    below_finalize b, below_assembleSys H ls⟩

example : extract true 3 [(Id32.rep 1, .tuple [Id32.rep 2]), (Id32.rep 2, Ty.U8)] [Id32.rep 1] =
    .ok [(Id32.rep 1, .tuple [Id32.rep 2]), (Id32.rep 2, Ty.U8)] := rfl

/-- **C110, what holds** for libraries: transpiling types, compiling symbolic libraries and those of a builder, building
crates which depend on each other. -/
theorem C110_libraries_partial (H : Hash) (fuel : Nat) (ts : List RTy) (b : Transpiler) (s : SymbolicLib) (l : LibBuilder)
    (cs : List Crate) (libs : List TypeLib) :
    Below (Transpiler.transpile H true ts b) (Transpiler.transpile H false ts b) ∧
    Below (s.compile H true fuel) (s.compile H false fuel) ∧
    Below (l.compile H true fuel) (l.compile H false fuel) ∧
    Below (buildAll H true fuel cs libs) (buildAll H false fuel cs libs) :=
  ⟨below_transpile H ts b, below_symCompile H fuel s, below_libCompile H fuel l, below_buildAll H fuel cs libs⟩

example : ∃ l, exSym.compile toyHash true 2 = .ok l ∧ exSym.compile toyHash false 2 = .ok l := ⟨_, rfl, rfl⟩

/-- **C110, what holds** for layouts and the programs of the repository. -/
theorem C110_programs_partial (G : Glyphs) (H : Hash) (armored : TypeLib → Bytes) (armor : Bool)
    (fuel layoutFuel maxAttrs maxContent : Nat) (S : SymbolicSys) (id : SemId) (items : List TypeInfo) (args : List Bytes) :
    Below (layout H true fuel S id) (layout H false fuel S id) ∧
    Below (toVesper H true maxAttrs maxContent items) (toVesper H false maxAttrs maxContent items) ∧
    Below (stdProgram G H armored armor true fuel args) (stdProgram G H armored armor false fuel args) ∧
    Below (strictProgram G H armored armor true fuel args) (strictProgram G H armored armor false fuel args) ∧
    Below (vesperProgram G H true maxAttrs maxContent fuel layoutFuel)
      (vesperProgram G H false maxAttrs maxContent fuel layoutFuel) := by
  have hstd : Below (stdStl H true fuel) (stdStl H false fuel) := .unwrap (below_crate H fuel _ _)
  refine ⟨below_layout H fuel S id, below_toVesperLoop H _ _ items _ _, .bind .rfl fun _ => .bind hstd fun _ => .rfl,
    .bind .rfl fun _ => .bind (.bind hstd fun _ => .unwrap (below_crate H fuel _ _)) fun _ => .rfl, ?_⟩
  exact .bind hstd fun _ => .bind (.unwrap (below_crate H fuel _ _)) fun _ => .bind (.unwrap (below_assembleSys H _)) fun S =>
    .bind .rfl fun _ => .bind .rfl fun id => .bind (below_layout H layoutFuel S id) fun items =>
      .bind (below_toVesperLoop H _ _ items _ _) fun _ => .rfl

example : toVesper toyHash true 16 16 [] = .panic ∧ toVesper toyHash false 16 16 [] = .panic := ⟨rfl, rfl⟩

/-! ## Where the builds agree -/

/-- **C110, data**: reading does the same in both builds, whatever the data, unless the system has pairs with a list of
unbounded length. Missing: such systems. -/
theorem C110_data_partial (E : Env)
    (h : ∀ id a b c sz, E.find id = some (.tuple [a, b]) → E.find b = some (.list c sz) → sz.min ≠ -1 ∧ sz.max ≠ -1)
    (fuel : Nat) (id : SemId) (bs : Bytes) :
    read E.checked fuel id bs = read E.unchecked fuel id bs ∧
    deserialize E.checked fuel id bs = deserialize E.unchecked fuel id bs := by
  unfold deserialize
  rw [read_agree E h fuel]
  exact ⟨rfl, rfl⟩

example : ∀ id a b c sz, (exE true).find id = some (.tuple [a, b]) → (exE true).find b = some (.list c sz) →
    sz.min ≠ -1 ∧ sz.max ≠ -1 := by
  intro id a b c sz _ h
  have hall : ∀ q ∈ (exE true).sys,
      (match q.2 with | .list _ sz => decide (sz.min ≠ -1 ∧ sz.max ≠ -1) | _ => true) = true := by decide +kernel
  simpa using hall _ (OMap.get_mem h)

/-- **C110, well-typed values** without the parts listed in `Unread`: both builds write the same bytes, and read the value from
them. Missing: these parts. -/
theorem C110_well_typed_partial (E : Env) (hs : E.checked.Sane) (v : Val) (id : SemId) (hv : WellTyped E.checked v id)
    (hu : ∀ w i, Sub E.checked v id w i → ¬ Unread E.checked w i) :
    ∃ n bs, ∀ fuel, n ≤ fuel → write E.checked fuel v id = .ok bs ∧ write E.unchecked fuel v id = .ok bs ∧
      ∀ rest, read E.checked fuel id (bs ++ rest) = .ok (v, rest) ∧ read E.unchecked fuel id (bs ++ rest) = .ok (v, rest) := by
  obtain ⟨n, bs, h⟩ := (C29_round_trip_partial E.checked hs v id hv).1 hu
  refine ⟨n, bs, fun fuel hf => ?_⟩
  obtain ⟨hw, hr⟩ := h fuel hf
  refine ⟨hw, ?_, fun rest => ⟨hr rest, ?_⟩⟩
  · rcases below_write E fuel v id with h | h
    · rw [hw] at h; cases h
    · rw [← h, hw]
  · rcases below_read E fuel id (bs ++ rest) with h | h
    · rw [hr rest] at h; cases h
    · rw [← h, hr rest]

example : (exE true).checked.Sane ∧ WellTyped (exE true).checked exVal (Id32.rep 14) ∧
    ∀ w i, Sub (exE true).checked exVal (Id32.rep 14) w i → ¬ Unread (exE true).checked w i := by
  refine ⟨exE_sane true, ⟨4, exVal_wellTyped true⟩, fun w i h hu => ?_⟩
  rcases (C29_round_trip_partial _ (exE_sane true) _ _ ⟨4, exVal_wellTyped true⟩).2 w i h hu with h | h
  · exact h 5 exBytes rfl
  · exact h 5 exBytes [] rfl

/-- **C110, systems** whose types have less than 255 parts: both builds extract the same types and finalise in the same way.
Missing: types of 255 parts. -/
theorem C110_parts_partial (sys : TypeSystem) (h : ∀ id t, sys.get id = some t → t.WF ∧ t.refs.length < 255)
    (b : SystemBuilder) (hb : ∀ p ∈ b.types, p.2.ty.WF ∧ p.2.ty.refs.length < 255) (fuel : Nat) (ids : List SemId) :
    extract true fuel sys ids = extract false fuel sys ids ∧ b.finalize true = b.finalize false := by
  refine ⟨extractLoop_agree sys h fuel _ _ _, ?_⟩
  unfold SystemBuilder.finalize
  rw [innerErrors_agree b.types b.types hb]

example : ∀ id t, (exE true).sys.get id = some t → t.WF ∧ t.refs.length < 255 := by
  intro id t h
  have hall : ∀ q ∈ (exE true).sys, q.2.refs.length < 255 := by decide +kernel
  exact ⟨(exE_sane true).wf id t h, hall _ (OMap.get_mem h)⟩

/-- **C110, compiling**: if compiling ends in the build without checks, the build with checks does the same; so the assertion
only replaces a program which never ends by a panic. -/
theorem C110_compiled (H : Hash) (fuel : Nat) (s : SymbolicLib) (b : LibBuilder) :
    (s.compile H false fuel ≠ .diverge → s.compile H true fuel = s.compile H false fuel) ∧
    (b.compile H false fuel ≠ .diverge → b.compile H true fuel = b.compile H false fuel) := by
  have hs : ∀ s : SymbolicLib, s.compile H false fuel ≠ .diverge → s.compile H true fuel = s.compile H false fuel := by
    intro s h
    unfold SymbolicLib.compile at h ⊢
    rw [compileLoop_agree H _ fuel _ fun hd => h (by rw [hd]; rfl)]
  refine ⟨hs s, fun h => ?_⟩
  unfold LibBuilder.compile at h ⊢
  cases hc : b.compileSymbols with
  | ok s =>
    rw [hc] at h
    exact hs s h
  | _ => rfl

example : exSym.compile toyHash false 2 ≠ .diverge := by
  intro h; exact absurd (show (exSym.compile toyHash false 2).returned = true from rfl) (by rw [h]; decide)

end Verif
