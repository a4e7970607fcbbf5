import Verif.Lemmas.SerdeTyped
import Verif.Spec.Example
import Verif.Props.Typify

/-!
# Properties C74 and C75: values through `serde`
-/

namespace Verif

/-- An implementation of big numbers that reads nothing, for examples. -/
def exNoBig : BigNums := ⟨fun _ => .float, fun _ => .float, fun _ => none, fun _ => none⟩

/-- A value with every kind of part that is told by its document. -/
def exTold : Val :=
  .struct [(n!"a", .list [.str b!"x", .unit, .num (.uint 7)]),
    (n!"b", .union (.name n!"some") (.num (.int (BitVec.ofInt 64 (-2))))),
    (n!"c", .list [.list [.num (.uint 300), .unit], .unit])]

/-! ## C74 -/

/-- **C74 is violated**: byte strings and enum names turn into strings, ordinals and non-negative
signed numbers into unsigned numbers; sets, tuples and maps turn into lists, and a list of the numbers
1 and 2 is read as a union value. -/
theorem C74_values_violated :
    Json.readVal exNoBig ((Val.bytes [0xAB]).toJson exNoBig) = some (.str b!"ab") ∧
    Json.readVal exNoBig ((Val.enum (.name n!"red")).toJson exNoBig) = some (.str b!"red") ∧
    Json.readVal exNoBig ((Val.enum (.ord 3)).toJson exNoBig) = some (.num (.uint 3)) ∧
    Json.readVal exNoBig ((Val.num (.int 5)).toJson exNoBig) = some (.num (.uint 5)) ∧
    Json.readVal exNoBig ((Val.set [.unit]).toJson exNoBig) = some (.list [.unit]) ∧
    Json.readVal exNoBig ((Val.tuple [.unit]).toJson exNoBig) = some (.list [.unit]) ∧
    Json.readVal exNoBig ((Val.map [(.unit, .unit)]).toJson exNoBig) =
      some (.list [.list [.unit, .unit]]) ∧
    Json.readVal exNoBig ((Val.list [.num (.uint 1), .num (.uint 2)]).toJson exNoBig) =
      some (.union (.ord 1) (.num (.uint 2))) :=
  ⟨rfl, rfl, rfl, rfl, rfl, rfl, rfl, rfl⟩

/-- Every written value is read; what is read is what remains of it (`Val.back`). -/
theorem C74_readable (B : BigNums) (v : Val) (h : v.Apart B) :
    Json.readVal B (v.toJson B) = some v.back := readVal_toJson v h

/-- **C74, what holds**: exactly the values built of unit, unsigned and negative numbers, big numbers,
strings, structs, unions and lists that are not a pair led by something like a tag are read back from
their documents. Missing: all other values (`C74_values_violated`). -/
theorem C74_values_partial (B : BigNums) (v : Val) (h : v.Apart B) :
    Json.readVal B (v.toJson B) = some v ↔ v.Told := by
  rw [readVal_toJson v h, Option.some.injEq]
  exact ⟨Val.told_of_back v, Val.Told.back⟩

/-- Nothing more is lost by a second trip: what is read has the same document as the value that was
written, so it is read back. -/
theorem C74_stable (B : BigNums) (v : Val) (h : v.Apart B) :
    ∃ w, Json.readVal B (v.toJson B) = some w ∧ w.toJson B = v.toJson B ∧
      Json.readVal B (w.toJson B) = some w :=
  ⟨v.back, readVal_toJson v h, toJson_back v, by rw [toJson_back, readVal_toJson v h]⟩

/-- Two values have the same document exactly if the same remains of them. -/
theorem C74_documents (B : BigNums) (v w : Val) (hv : v.Apart B) (hw : w.Apart B) :
    v.toJson B = w.toJson B ↔ v.back = w.back := by
  refine ⟨fun h => ?_, fun h => ?_⟩
  · have := readVal_toJson v hv
    rw [h, readVal_toJson w hw] at this
    exact (Option.some.inj this).symm
  · rw [← toJson_back v, ← toJson_back w, h]

example : exTold.Apart exNoBig ∧ exTold.Told ∧
    Json.readVal exNoBig (exTold.toJson exNoBig) = some exTold := by
  have h : exTold.Apart exNoBig := by
    simp [exTold, Val.Apart, Val.ApartAll, Val.ApartFields, Val.ApartField, BigNums.Silent,
      BigNums.Clear, exNoBig]
  refine ⟨h, ?_, rfl⟩
  exact (C74_values_partial exNoBig exTold h).mp rfl

/-- The value of the example system, which does not survive. -/
example : exVal.Apart exNoBig ∧ ¬ exVal.Told := by
  have h : exVal.Apart exNoBig := by
    simp [exVal, Val.Apart, Val.ApartAll, Val.ApartFields, Val.ApartField, Val.ApartPairs,
      Val.ApartPair, BigNums.Silent, BigNums.Clear, exNoBig, Val.some]
  exact ⟨h, fun ht => by cases ht with | struct hf => cases hf (n!"z", .bytes [1, 2, 3]) (by simp)⟩

/-! ## C75 -/

/-- **C75 is violated**: a byte string of the right type comes back as a different byte string, the
bytes of its hexadecimal notation, and the type accepts it. -/
theorem C75_bytes_violated (debug : Bool) (fuel : Nat) :
    WellTyped (exE debug) (.bytes [1, 2]) (Id32.rep 6) ∧
    ∃ w, Json.readVal exNoBig ((Val.bytes [1, 2]).toJson exNoBig) = some w ∧
      typify (exE debug) (fuel + 1) w (Id32.rep 6) = .ok (.bytes b!"0102") :=
  ⟨⟨1, _, by cases debug <;> rfl, .byteList (by cases debug <;> decide +kernel) ⟨by decide, by decide⟩⟩, _, rfl,
    by cases debug <;> rfl⟩

/-- **C75 is violated**: no document at all is read as a value of a set or of a map. -/
theorem C75_sets_violated (B : BigNums) (E : Env) (fuel : Nat) (j : Json) (w : Val) (id : SemId)
    (h : Json.readVal B j = some w)
    (ht : (∃ i sz, E.typeOf id = some (.set i sz)) ∨ ∃ k i sz, E.typeOf id = some (.map k i sz)) :
    typify E (fuel + 1) w id = .err .typeMismatch := by
  have hk := readVal_kind h
  rcases ht with ⟨i, sz, ht⟩ | ⟨k, i, sz, ht⟩ <;> simp only [typify, ht, typifyTy] <;>
    cases w <;> simp_all [typifySet, typifyMap, Val.Unread]

/-- **C75 is violated**: a pair whose first item can be taken for a tag (a small number, a variant, a
short string) is read as a union value and rejected by its own type, be it a tuple or a list. -/
theorem C75_pairs_violated (B : BigNums) (E : Env) (fuel : Nat) (a b : Val) (t : Tag) (id : SemId)
    (ht : a.asTag = some t) :
    ((∃ i j, E.typeOf id = some (.tuple [i, j])) → (Val.tuple [a, b]).Apart B →
      ∃ w, Json.readVal B ((Val.tuple [a, b]).toJson B) = some w ∧
        typify E (fuel + 1) w id = .err .typeMismatch) ∧
    ((∃ i sz, E.typeOf id = some (.list i sz)) → (Val.list [a, b]).Apart B →
      ∃ w, Json.readVal B ((Val.list [a, b]).toJson B) = some w ∧
        typify E (fuel + 1) w id = .err .typeMismatch) := by
  refine ⟨fun ⟨i, j, hf⟩ h => ⟨_, readVal_toJson _ h, ?_⟩, fun ⟨i, sz, hf⟩ h =>
    ⟨_, readVal_toJson _ h, ?_⟩⟩ <;>
    simp [typify, hf, typifyTy, typifyTuple, typifyTuple.newtype, typifyList, Val.back, Val.backs,
      Val.backSeq, ht]

/-- **C75 is violated**: a variant whose name is a letter that is also the code of some variant comes
back as a string. -/
theorem C75_letters_violated (B : BigNums) (E : Env) (fuel : Nat) (vs : List Variant) (n : Name)
    (c : Byte) (id : SemId) (ht : E.typeOf id = some (.enum vs)) (hn : n.bytes = [c])
    (hc : ∃ v ∈ vs, v.tag = c) (h : (Val.enum (.name n)).Apart B) :
    ∃ w, Json.readVal B ((Val.enum (.name n)).toJson B) = some w ∧
      typify E (fuel + 1) w id = .ok (.str [c]) := by
  refine ⟨_, readVal_toJson _ h, ?_⟩
  have : Ty.enumHasTag vs c = true := by
    simp only [Ty.enumHasTag, List.any_eq_true]
    obtain ⟨v, hv, rfl⟩ := hc
    exact ⟨v, hv, by simp⟩
  simp [typify, ht, typifyTy, typifyEnum, Val.back, hn, this]

/-- **C75, what holds** (sane systems): a well-typed value is restored from its document by its type, exactly if it has no
part of the forms listed in `Unrestored`: byte strings, sets, maps, arrays whose document does not tell everything,
variants named by a letter which is a code, pairs led by something like a tag, and what `typify` changes anyway. If it has
one, it is never restored. Missing: these values (`C75_bytes_violated`, `C75_sets_violated`, `C75_pairs_violated`,
`C75_letters_violated`). -/
theorem C75_typed_partial (B : BigNums) (E : Env) (hs : E.Sane) (v : Val) (id : SemId) (h : WellTyped E v id)
    (ha : v.Apart B) :
    ((∀ w i, Sub E v id w i → ¬ Unrestored E w i) →
      ∃ w, Json.readVal B (v.toJson B) = some w ∧ ∃ n, ∀ fuel, n ≤ fuel → typify E fuel w id = .ok v) ∧
    ∀ u i, Sub E v id u i → Unrestored E u i →
      ∃ w, Json.readVal B (v.toJson B) = some w ∧ ∀ fuel, typify E fuel w id ≠ .ok v := by
  obtain ⟨n, h⟩ := h
  exact ⟨fun hc => ⟨v.back, readVal_toJson v ha, n, fun fuel hf => typify_mono hf (typify_back hs h hc)⟩,
    fun u i hsub hu => ⟨v.back, readVal_toJson v ha, fun fuel ht => restored_only hs hsub n h ht hu⟩⟩

/-- A tuple with a signed number and an optional string of the example system; the number is not taken
for a tag as it is negative. -/
example (debug : Bool) : (exE debug).Sane ∧
    WellTyped (exE debug) (.tuple [.num (.int (BitVec.ofInt 64 (-2))), .some (.str [67])])
      (Id32.rep 13) ∧
    (∀ w i, Sub (exE debug) (.tuple [.num (.int (BitVec.ofInt 64 (-2))), .some (.str [67])]) (Id32.rep 13) w i →
      ¬ Unrestored (exE debug) w i) ∧
    (Val.tuple [.num (.int (BitVec.ofInt 64 (-2))), .some (.str [67])]).Apart exNoBig := by
  have hw : WellTyped (exE debug) (.tuple [.num (.int (BitVec.ofInt 64 (-2))), .some (.str [67])]) (Id32.rep 13) := by
    obtain ⟨t, hf, hi⟩ := exVal_wellTyped debug
    have : some t = some (Ty.struct [(n!"x", Id32.rep 12), (n!"y", Id32.rep 13),
      (n!"z", Id32.rep 6)]) := by rw [← hf]; cases debug <;> rfl
    cases this
    cases hi with
    | struct ha => exact ⟨_, ha.2.1.2⟩
  have ha : (Val.tuple [.num (.int (BitVec.ofInt 64 (-2))), .some (.str [67])]).Apart exNoBig := by
    simp [Val.Apart, Val.ApartAll, BigNums.Silent, BigNums.Clear, exNoBig, Val.some]
  refine ⟨exE_sane debug, hw, fun w i hsub hu => ?_, ha⟩
  obtain ⟨u, h1, h2⟩ := (C75_typed_partial exNoBig _ (exE_sane debug) _ _ hw ha).2 w i hsub hu
  rw [readVal_toJson _ ha] at h1
  cases h1
  exact h2 3 (by cases debug <;> rfl)

/-- The value of the example, which has a byte string among its fields. -/
example (debug : Bool) : ∃ w i, Sub (exE debug) exVal (Id32.rep 14) w i ∧ Unrestored (exE debug) w i :=
  ⟨.bytes [1, 2, 3], Id32.rep 6, .step (.structField (n := n!"z") rfl (by simp) (by simp)) (.refl _ _),
    .bytes rfl (by simp)⟩

/-- A tuple of the same type with a small number. -/
example : Val.asTag (.num (.int 5)) = some (.ord 5) ∧
    (Val.tuple [.num (.int 5), .none]).Apart exNoBig ∧
    (exE true).typeOf (Id32.rep 13) = some (.tuple [Id32.rep 10, Id32.rep 9]) :=
  ⟨rfl, by simp [Val.Apart, Val.ApartAll, BigNums.Silent, BigNums.Clear, exNoBig, Val.none], rfl⟩
/-- An enum with a variant `a` of code 97, the letter `a`. -/
example : Name.bytes n!"a" = [97] ∧ (∃ v ∈ [(⟨n!"a", 97⟩ : Variant)], v.tag = 97) ∧
    (Val.enum (.name n!"a")).Apart exNoBig ∧
    ({ exE true with sys := [(Id32.rep 3, .enum [⟨n!"a", 97⟩])] } : Env).typeOf (Id32.rep 3) =
      some (.enum [⟨n!"a", 97⟩]) :=
  ⟨rfl, ⟨⟨n!"a", 97⟩, by simp, rfl⟩, ⟨rfl, rfl⟩, rfl⟩
example : (exE true).typeOf (Id32.rep 11) = some (.set exU8 ⟨1, 5⟩) := rfl

end Verif
