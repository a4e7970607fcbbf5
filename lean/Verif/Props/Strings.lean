import Verif.Props.Typify

/-!
# Property C97: byte strings and wrappers
-/

namespace Verif

/-- The id of the unnamed type `byte` or `u8`. -/
def OctetId (H : Hash) (i : SemId) : Prop :=
  i = Ty.semIdUnnamed H SemId.commit (.primitive 0x40) ∨ i = Ty.semIdUnnamed H SemId.commit (.primitive 1)

theorem OctetId.isByte {H : Hash} {i : SemId} (h : OctetId H i) : i.isByte H = true := by
  rcases h with rfl | rfl
  · simp [SemId.isByte, SemId.byte, Ty.BYTE, Ty.BYTE_CODE]
  · simp [SemId.isByte, Ty.U8, Ty.U8_CODE]

/-- **C97, lists of bytes**: for a list of `byte` or of `u8` (of less than 4 GiB), a string of bytes within
the bounds is accepted, given as bytes or as text; it is written as its length and the bytes, and
reading gives the bytes, whatever follows. -/
theorem C97_list (E : Env) (hs : E.Sane) (fuel : Nat) (id i : SemId) (sz : Sizing)
    (hf : E.find id = some (.list i sz)) (hi : OctetId E.H i) (hm : sz.max.toNat < 2 ^ 32) (b rest : Bytes)
    (h1 : sz.min.toNat ≤ b.length) (h2 : b.length ≤ sz.max.toNat) :
    typify E (fuel + 1) (.bytes b) id = .ok (.bytes b) ∧
    typify E (fuel + 1) (.str b) id = .ok (.bytes b) ∧
    ∃ w, 2 ^ (8 * w) > sz.max.toNat ∧ write E (fuel + 1) (.bytes b) id = .ok (le w b.length ++ b) ∧
      read E (fuel + 1) id (le w b.length ++ b ++ rest) = .ok (.bytes b, rest) := by
  have ht := hs.typeOf hf
  have hb := hi.isByte
  obtain ⟨t, hit⟩ := hs.closed id _ hf i (by simp [Ty.refs])
  have hty := hs.byte i t hb hit
  have hu : i.isUnicodeChar E.H = false := by
    cases hu : i.isUnicodeChar E.H with
    | false => rfl
    | true =>
      have := hs.unicode i t hu hit
      rcases hty with rfl | rfl <;> cases this
  have hc : t.isCharEnum = false := by rcases hty with rfl | rfl <;> rfl
  have hck : sz.check b.length = true := by simp [Sizing.check, h1, h2]
  refine ⟨?_, ?_, sz.byteSize, ?_, ?_, ?_⟩
  · simp only [typify, ht, typifyTy, typifyList, hck, hb]
    rfl
  · simp only [typify, ht, typifyTy, typifyList, hck, hb, hu]
    rfl
  · unfold Sizing.byteSize
    repeat' split
    all_goals omega
  · simp only [write, ht, writeTy, writeList]
    rfl
  · simp only [read, hf, readTy, readList, hit, hc, Bool.false_eq_true, if_false, hb, true_and]
    rw [if_pos (by omega)]
    refine readBlob_append ?_ rest
    unfold Sizing.byteSize
    repeat' split
    all_goals omega

/-- A list of `u8` of the example system with up to 255 items. -/
example (debug : Bool) : OctetId toyHash (SemId.byte toyHash) ∧ OctetId toyHash exU8 ∧
    (exE debug).find (Id32.rep 6) = some (.list (SemId.byte toyHash) ⟨0, 255⟩) :=
  ⟨Or.inl rfl, Or.inr rfl, by cases debug <;> rfl⟩

/-- **C97, arrays of bytes**: for an array of `byte` or of `u8`, as many bytes as the array has are
accepted and kept, written as they are, and read back, whatever follows. -/
theorem C97_array (E : Env) (hs : E.Sane) (fuel : Nat) (id i : SemId) (len : BitVec 16)
    (hf : E.find id = some (.array i len)) (hi : OctetId E.H i) (b rest : Bytes) (hl : b.length = len.toNat) :
    typify E (fuel + 1) (.bytes b) id = .ok (.bytes b) ∧
    write E (fuel + 1) (.bytes b) id = .ok b ∧
    read E (fuel + 1) id (b ++ rest) = .ok (.bytes b, rest) := by
  have ht := hs.typeOf hf
  have hb := hi.isByte
  refine ⟨?_, ?_, ?_⟩
  · simp only [typify, ht, typifyTy, typifyArray, hb, if_true]
    rw [if_neg (by omega)]
  · simp only [write, ht, writeTy, writeArray, hl, beq_self_eq_true, Out.debugAssert]
    simp
  · simp only [read, hf, readTy, hb, if_true, ← hl, readRaw_append]
    rfl

example (debug : Bool) : (exE debug).find (Id32.rep 8) = some (.array (SemId.byte toyHash) 4) ∧
    read (exE debug) 1 (Id32.rep 8) [1, 2, 3, 4, 5] = .ok (.bytes [1, 2, 3, 4], [5]) := by
  cases debug <;> exact ⟨rfl, rfl⟩

/-- **C97, wrappers**: for a tuple of one field, `newtype v` is accepted exactly if `v` is accepted for
the field, and the result is the wrapped result; it is written as `v` is; and reading gives the value
that is read for the field, wrapped. -/
theorem C97_newtype (E : Env) (hs : E.Sane) (fuel : Nat) (id i : SemId)
    (hf : E.find id = some (.tuple [i])) (v : Val) :
    (∀ w, typify E (fuel + 1) (.newtype v) id = .ok w ↔ ∃ x, typify E fuel v i = .ok x ∧ w = .newtype x) ∧
    write E (fuel + 1) (.newtype v) id = write E fuel v i ∧
    (∀ w bs rest, read E (fuel + 1) id bs = .ok (w, rest) ↔
      ∃ x, read E fuel i bs = .ok (x, rest) ∧ w = .newtype x) := by
  have ht := hs.typeOf hf
  refine ⟨fun w => ?_, ?_, fun w bs rest => ?_⟩
  · simp only [typify, ht, typifyTy, Val.newtype, typifyTuple, List.length_cons, List.length_nil, ne_eq,
      not_true, if_false, typifyZip]
    cases typify E fuel v i with
    | ok x =>
      simp only [Out.bind_ok, Out.pure_eq, Out.ok.injEq]
      exact ⟨fun h => ⟨x, rfl, h.symm⟩, fun ⟨y, h1, h2⟩ => by rw [h2, h1]⟩
    | err e => simp
    | panic => simp
    | diverge => simp
  · simp only [write, ht, writeTy, Val.newtype, writeTuple, List.length_cons, List.length_nil,
      beq_self_eq_true, Out.debugAssert, Bool.not_true, Bool.and_false, Bool.false_eq_true, if_false,
      Out.bind_ok, writeZip]
    cases write E fuel v i <;> simp
  · simp only [read, hf, readTy, readTupleTy, Env.isRString, List.length_cons, List.length_nil, ofUnknown]
    rw [if_pos (by decide)]
    simp only [Out.pure_eq, Out.mapErr, Out.bind_ok, Bool.false_eq_true, if_false, readTuple, Val.newtype]
    cases read E fuel i bs with
    | ok r =>
      obtain ⟨x, rest'⟩ := r
      simp only [Out.bind_ok, Out.ok.injEq, Prod.mk.injEq]
      constructor
      · rintro ⟨rfl, rfl⟩; exact ⟨x, ⟨rfl, rfl⟩, rfl⟩
      · rintro ⟨y, ⟨rfl, rfl⟩, rfl⟩; exact ⟨rfl, rfl⟩
    | err e => simp
    | panic => simp
    | diverge => simp

/-- The example system with a wrapped number. -/
def exWrapped : Env := exWith true [(exU8, Ty.U8), (Id32.rep 40, .tuple [exU8])]

example : exWrapped.Sane ∧ exWrapped.find (Id32.rep 40) = some (.tuple [exU8]) ∧
    typify exWrapped 2 (.newtype (.num (.uint 5))) (Id32.rep 40) = .ok (.newtype (.num (.uint 5))) ∧
    typify exWrapped 2 (.num (.uint 5)) (Id32.rep 40) = .ok (.newtype (.num (.uint 5))) ∧
    write exWrapped 2 (.newtype (.num (.uint 5))) (Id32.rep 40) = .ok [5] :=
  ⟨Env.sane_of_saneB (by decide +kernel), rfl, rfl, rfl, rfl⟩

end Verif
