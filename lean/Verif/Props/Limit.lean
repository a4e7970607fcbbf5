import Verif.Model.Limit
import Verif.Lemmas.Read
import Verif.Props.Confined

/-! # C112: limits on data and the sizes of types -/

namespace Verif

theorem limited_beyond (E : Env) (fuel limit : Nat) (id : SemId) (bs : Bytes) (h : limit < bs.length) (v : Val) :
    deserializeLimited E fuel limit id bs ≠ .ok v := by
  unfold deserializeLimited
  intro hr
  obtain ⟨⟨w, rest⟩, -, hr⟩ := Out.bind_eq_ok.mp hr
  simp only [List.length_take] at hr
  rw [if_pos (by omega)] at hr
  cases hr

/-- Byte strings of up to `2 ^ 32 - 1` bytes. -/
def exLong : TypeSystem := [(SemId.byte toyHash, Ty.BYTE), (Id32.rep 6, .list (SemId.byte toyHash) ⟨0, 0xffffffff⟩)]

/-- **C112 is violated** by a byte string of `2 ^ 32 - 1` bytes, as many as its type admits: it is well typed, it is
written, and its data would be read without the limit of the reader; with it, deserialising fails. -/
theorem C112_violated (debug : Bool) : ∃ sys id v bs, (exWith debug sys).Sane ∧ (exWith debug sys).SmallStrings ∧
    WellTyped (exWith debug sys) v id ∧ write (exWith debug sys) 1 v id = .ok bs ∧
    deserialize (exWith debug sys) 1 id bs = .ok v ∧ ∀ fuel w, deserializeLimited (exWith debug sys) fuel (2 ^ 32 - 1) id bs ≠ .ok w := by
  obtain ⟨b, hb⟩ : ∃ b : Bytes, b.length = 2 ^ 32 - 1 := ⟨List.replicate (2 ^ 32 - 1) 0, List.length_replicate⟩
  have hs : (exWith debug exLong).Sane := Env.sane_of_saneB (by cases debug <;> decide +kernel)
  have hf : (exWith debug exLong).find (Id32.rep 6) = some (.list (SemId.byte toyHash) ⟨0, 0xffffffff⟩) := by
    cases debug <;> decide +kernel
  have hv : HasTyN (exWith debug exLong) true 1 (.bytes b) (Id32.rep 6) :=
    ⟨_, hf, .byteList (by cases debug <;> rfl) (show _ ∧ _ from ⟨Nat.zero_le _, by rw [hb]; decide⟩)⟩
  obtain ⟨bs, hw, hr⟩ := round_trip hs (Or.inl rfl) hv (by
    intro w i hsub hu
    cases hsub with
    | step hp _ => cases hp
    | refl =>
      cases hu with
      | longBytes h hl =>
        rw [hf] at h
        cases h
        exact absurd hl (by decide))
  have hlen : bs.length = 2 ^ 32 + 3 := by
    rw [write, hs.typeOf hf] at hw
    have hw' : Out.ok (le 4 b.length ++ b) = Out.ok bs := hw
    rw [← Out.ok.inj hw', List.length_append, le_length, hb]
  have hr0 := hr []
  rw [List.append_nil] at hr0
  refine ⟨exLong, Id32.rep 6, .bytes b, bs, hs, ?_, ⟨_, hv⟩, hw, by rw [deserialize, hr0]; rfl, fun fuel w => ?_⟩
  · intro id i sz h _
    have hm := OMap.get_mem h
    simp only [exWith, exLong, List.mem_cons, Prod.mk.injEq, List.not_mem_nil, or_false] at hm
    rcases hm with ⟨-, h⟩ | ⟨-, h⟩
    · cases h
    · cases h; decide
  · exact limited_beyond _ fuel _ _ bs (by omega) w

/-- Data within the limit is deserialised as if there were none. -/
theorem C112_within (E : Env) (fuel limit : Nat) (id : SemId) (bs : Bytes) (h : bs.length ≤ limit) :
    deserializeLimited E fuel limit id bs = deserialize E fuel id bs := by
  unfold deserializeLimited deserialize
  rw [List.take_of_length_le h]
  cases hr : read E fuel id bs with
  | err e => rfl
  | panic => rfl
  | diverge => rfl
  | ok p =>
    obtain ⟨v, rest⟩ := p
    obtain ⟨c, rfl, -⟩ := read_local E fuel id bs v rest hr
    simp only [Out.bind_ok, List.length_append, Nat.add_sub_cancel]
    by_cases h0 : rest.length = 0
    · rw [if_neg (by omega), if_neg (by omega)]
    · rw [if_pos (by omega), if_pos (by omega)]

/-- Longer data is never deserialised. -/
theorem C112_beyond (E : Env) (fuel limit : Nat) (id : SemId) (bs : Bytes) (h : limit < bs.length) (v : Val) :
    deserializeLimited E fuel limit id bs ≠ .ok v :=
  limited_beyond E fuel limit id bs h v

/-- **C112, partial** (sane systems; restricted strings of less than `2 ^ 64 - 1` characters after the first): types whose
largest number of bytes is within the limit are not affected by it. Their well-typed values without the parts listed in
`Unread` are serialised, and given back when deserialising. If the least number of bytes of a type is beyond the limit, none
of its well-typed values is serialised. Missing: types which admit data on both sides of the limit (`C112_violated`). -/
theorem C112_types_partial (E : Env) (hs : E.Sane) (hb : E.BoundedTails) (id : SemId) (lo hi limit : Nat)
    (h : Span E true id lo hi) (v : Val) (hv : WellTyped E v id) :
    (hi ≤ limit → (∀ w i, Sub E v id w i → ¬ Unread E w i) → ∃ n bs, ∀ fuel, n ≤ fuel →
      serialize E fuel limit v id = .ok bs ∧ deserializeLimited E fuel limit id bs = .ok v) ∧
    (hi ≤ limit → ∀ fuel, serialize E fuel limit v id ≠ .err .tooLarge) ∧
    (limit < lo → ∀ fuel bs, serialize E fuel limit v id ≠ .ok bs) := by
  refine ⟨fun hl hu => ?_, fun hl fuel hr => ?_, fun hl fuel bs hr => ?_⟩
  · obtain ⟨n, bs, hn⟩ := (C29_round_trip_partial E hs v id hv).1 hu
    refine ⟨n, bs, fun fuel hf => ?_⟩
    obtain ⟨hw, hr⟩ := hn fuel hf
    have hlen := C111_written_partial E hs hb id lo hi h v hv fuel bs hw
    have hr0 := hr []
    rw [List.append_nil] at hr0
    refine ⟨?_, ?_⟩
    · simp only [serialize, hw, Out.mapErr, Out.bind_ok, if_pos (show bs.length ≤ limit by omega)]; rfl
    · rw [C112_within E fuel limit id bs (by omega)]
      simp [deserialize, hr0]
  · cases hw : write E fuel v id with
    | ok bs =>
      have hlen := C111_written_partial E hs hb id lo hi h v hv fuel bs hw
      simp only [serialize, hw, Out.mapErr, Out.bind_ok, if_pos (show bs.length ≤ limit by omega)] at hr
      cases hr
    | err e => simp [serialize, hw, Out.mapErr] at hr
    | panic => simp [serialize, hw, Out.mapErr] at hr
    | diverge => simp [serialize, hw, Out.mapErr] at hr
  · cases hw : write E fuel v id with
    | ok bs =>
      have hlen := C111_written_partial E hs hb id lo hi h v hv fuel bs hw
      simp only [serialize, hw, Out.mapErr, Out.bind_ok, if_neg (show ¬ bs.length ≤ limit by omega)] at hr
      cases hr
    | err e => simp [serialize, hw, Out.mapErr] at hr
    | panic => simp [serialize, hw, Out.mapErr] at hr
    | diverge => simp [serialize, hw, Out.mapErr] at hr

/-- The example: its maps have up to 5402 bytes. -/
example (debug : Bool) : Span (exE debug) true (Id32.rep 12) 2 5402 ∧ 5402 ≤ 2 ^ 32 - 1 ∧
    deserializeLimited (exE debug) 5 (2 ^ 32 - 1) (Id32.rep 14) exBytes = .ok exVal := by
  refine ⟨exE_span debug, by decide, ?_⟩
  rw [C112_within _ _ _ _ _ (by decide)]
  cases debug <;> rfl

end Verif
