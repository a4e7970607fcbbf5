import Verif.Spec.Notation
import Verif.Lemmas.Notation
import Verif.Lemmas.Fuel
import Verif.Props.Codec

/-! # C102: values given in other forms are understood as meant -/

namespace Verif

/-- **C102 is violated**: a list given for a tuple may have more items than the tuple has fields, and a map given for a
structure may have the name of a field more than once. The items in excess and all but the last entry are lost: different
lists and different maps become the same value, without an error. -/
theorem C102_violated (debug : Bool) : ∃ sys pair one, let E := exWith debug sys; E.Sane ∧
    E.find pair = some (.tuple [exU8, exU8]) ∧ E.find one = some (.struct [(n!"a", exU8)]) ∧
    ∀ (fuel : Nat) (extra : List Val) (x : BitVec 64),
      typify E (fuel + 2) (.list ([.num (.uint 1), .num (.uint 2)] ++ extra)) pair =
        .ok (.tuple [.num (.uint 1), .num (.uint 2)]) ∧
      typify E (fuel + 2) (.map [(.str b!"a", .num (.uint x)), (.str b!"a", .num (.uint 2))]) one =
        .ok (.struct [(n!"a", .num (.uint 2))]) := by
  refine ⟨[(exU8, Ty.U8), (Id32.rep 3, .tuple [exU8, exU8]), (Id32.rep 4, .struct [(n!"a", exU8)])], Id32.rep 3,
    Id32.rep 4, ?_, rfl, rfl, fun fuel extra x => ?_⟩
  · cases debug <;> exact Env.sane_of_saneB (by decide +kernel)
  · cases debug <;> cases extra <;> exact ⟨rfl, rfl⟩

/-- **C102, what holds**, exactly: a value is understood as some well-typed value if and only if it is a way to write it:
item by item, with numbers without a sign for types with a sign, text for bytes, anything empty for the unit, variants by
name, by tag, by number or by text, options as the unit or as their content or as pairs starting with the words `none` and
`some`, tuples as lists, wrappers as their content, and structures as maps from the names of their fields in the order of
the type. Missing: items of a list in excess of the fields of a tuple are lost (`more` in `Way.items`), and so are repeated
entries, which are excluded here. -/
theorem C102_understood_partial (E : Env) (hs : E.Sane) (id : SemId) (v w : Val) (hu : v.Unrepeated) (hw : WellTyped E w id) :
    (∃ fuel, typify E fuel v id = .ok w) ↔ Means E v id w := by
  obtain ⟨m, hw⟩ := hw
  constructor
  · rintro ⟨n, h⟩
    exact ⟨n, means_of_typify hs hu h hw⟩
  · rintro ⟨n, h⟩
    exact ⟨n, typify_of_means hs h hw⟩

/-- What is meant is understood within as many nested calls as it has layers, repeated entries or not. -/
theorem C102_meant (E : Env) (hs : E.Sane) (fuel : Nat) (id : SemId) (v w : Val) (hw : WellTyped E w id)
    (h : MeansN E fuel v id w) (more : Nat) : typify E (fuel + more) v id = .ok w := by
  obtain ⟨m, hw⟩ := hw
  exact typify_mono (Nat.le_add_right _ _) (typify_of_means hs h hw)

/-- No value is a way to write two different well-typed values. -/
theorem C102_unambiguous (E : Env) (hs : E.Sane) (id : SemId) (v w w' : Val) (hw : WellTyped E w id) (hw' : WellTyped E w' id)
    (h : Means E v id w) (h' : Means E v id w') : w = w' := by
  obtain ⟨n, h⟩ := h
  obtain ⟨n', h'⟩ := h'
  have h1 := C102_meant E hs n id v w hw h n'
  have h2 := C102_meant E hs n' id v w' hw' h' n
  rw [Nat.add_comm, h1] at h2
  exact Out.ok.inj h2

/-- The value `exVal` of the example system in another form: maps for structures, lists for tuples, text for bytes and
contents for options. -/
def exLoose : Val :=
  .map [(.str b!"x", .map [(.str [65, 66], .set [.num (.uint 7), .num (.uint 9)])]),
    (.str b!"y", .list [.num (.int (BitVec.ofInt 64 (-2))), .str [67], .unit]), (.str b!"z", .str [1, 2, 3])]

example (debug : Bool) : (exE debug).Sane ∧ WellTyped (exE debug) exVal (Id32.rep 14) ∧ exLoose.Unrepeated ∧
    Means (exE debug) exLoose (Id32.rep 14) exVal := by
  have hs := exE_sane debug
  have hw : WellTyped (exE debug) exVal (Id32.rep 14) := ⟨4, exVal_wellTyped debug⟩
  have hu : exLoose.Unrepeated := by
    refine .map ?_ ?_ ?_
    · simp
    · simp only [List.mem_cons, List.not_mem_nil, or_false]
      rintro p (rfl | rfl | rfl) <;> constructor
    · simp only [List.mem_cons, List.not_mem_nil, or_false]
      rintro p (rfl | rfl | rfl)
      · refine .map (by simp) ?_ ?_
        · simp; constructor
        · simp
          refine .set ?_
          simp only [List.mem_cons, List.not_mem_nil, or_false]
          rintro p (rfl | rfl) <;> constructor
      · refine .list ?_
        simp only [List.mem_cons, List.not_mem_nil, or_false]
        rintro p (rfl | rfl | rfl) <;> constructor
      · constructor
  exact ⟨hs, hw, hu, (C102_understood_partial _ hs _ _ _ hu hw).mp ⟨5, by cases debug <;> rfl⟩⟩

end Verif
