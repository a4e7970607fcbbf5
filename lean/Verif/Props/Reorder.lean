import Verif.Lemmas.Reorder
import Verif.Props.Wire
import Verif.Props.Typify

/-!
# C108: the order of set items and map entries

Sets and maps of the code are vectors in the order given. Nothing sorts them and nothing asks for an order.
-/

namespace Verif

/-- The set of the numbers, in this order. -/
def exNumbers (l : List (BitVec 64)) : Val := .set (l.map fun n => .num (.uint n))

/-- A set of sets of numbers. -/
def exSetOfSets : TypeSystem := [(exU8, Ty.U8), (Id32.rep 2, .set exU8 ⟨0, 5⟩), (Id32.rep 3, .set (Id32.rep 2) ⟨0, 5⟩)]

/-- **C108 is violated**: one set of numbers listed in two orders is accepted, written and read in both, as different bytes
and unequal values; and a set of sets is accepted which has the same set of numbers twice. -/
theorem C108_violated (debug : Bool) :
    (∃ id v w a b, v.Reordered false w ∧ v.eqv w = false ∧ a ≠ b ∧ WellTyped (exE debug) v id ∧ WellTyped (exE debug) w id ∧
      ∀ fuel, typify (exE debug) (fuel + 2) v id = .ok v ∧ typify (exE debug) (fuel + 2) w id = .ok w ∧
        write (exE debug) (fuel + 2) v id = .ok a ∧ write (exE debug) (fuel + 2) w id = .ok b ∧
        read (exE debug) (fuel + 2) id a = .ok (v, []) ∧ read (exE debug) (fuel + 2) id b = .ok (w, [])) ∧
    ∃ sys id v x y, (exWith debug sys).Sane ∧ v = .set [x, y] ∧ x.Reordered false y ∧ WellTyped (exWith debug sys) v id ∧
      ∀ fuel, typify (exWith debug sys) (fuel + 3) v id = .ok v := by
  have hnum : ∀ (E : Env) (l : List (BitVec 64)), E.find exU8 = some Ty.U8 → (∀ n ∈ l, n.toNat < 256) →
      ∀ v ∈ l.map (fun n => Val.num (.uint n)), HasTyN E true 1 v exU8 := by
    intro E l hf hl v hv
    obtain ⟨n, hn, rfl⟩ := List.mem_map.mp hv
    exact ⟨_, hf, .uint (n := 1) (by decide) (by decide) (hl n hn)⟩
  refine ⟨⟨Id32.rep 11, exNumbers [7, 9], exNumbers [9, 7], [2, 7, 9], [2, 9, 7], .step (.set [] _ _ []) (.refl _), rfl,
    by decide, ⟨2, _, rfl, .set (by unfold InMemory; cases debug <;> decide) ⟨by decide, by decide⟩ (hnum _ _ rfl (by simp)) fun _ => ?_⟩,
    ⟨2, _, rfl, .set (by unfold InMemory; cases debug <;> decide) ⟨by decide, by decide⟩ (hnum _ _ rfl (by simp)) fun _ => ?_⟩, fun fuel => ?_⟩,
    exSetOfSets, Id32.rep 3, .set [exNumbers [7, 9], exNumbers [9, 7]], exNumbers [7, 9], exNumbers [9, 7], ?_, rfl,
    .step (.set [] _ _ []) (.refl _), ⟨3, _, rfl, .set (by unfold InMemory; cases debug <;> decide) ⟨by decide, by decide⟩ ?_ fun _ => ?_⟩, fun fuel => ?_⟩
  · simp [Val.eqv]
  · simp [Val.eqv]
  · cases debug <;> exact ⟨rfl, rfl, rfl, rfl, rfl, rfl⟩
  · cases debug <;> exact Env.sane_of_saneB (by decide +kernel)
  · intro v hv
    have : v = exNumbers [7, 9] ∨ v = exNumbers [9, 7] := by simpa using hv
    rcases this with rfl | rfl
    · exact ⟨_, rfl, .set (by unfold InMemory; cases debug <;> decide) ⟨by decide, by decide⟩ (hnum _ _ rfl (by simp)) fun _ => by simp [Val.eqv]⟩
    · exact ⟨_, rfl, .set (by unfold InMemory; cases debug <;> decide) ⟨by decide, by decide⟩ (hnum _ _ rfl (by simp)) fun _ => by simp [Val.eqv]⟩
  · simp [exNumbers, Val.eqv, Val.eqvList]
  · cases debug <;> rfl

/-- **C108 is violated for every value**: whatever is reordered in a well-typed value, if it is not the same value in memory
then it is not equal to the first one, has other bytes, and none of the two is the beginning of the other (with
`Env.SignedSizes`, which `Primitive` meets). -/
theorem C108_bytes_violated (E : Env) (hs : E.Sane) (hz : E.SignedSizes) (v w : Val) (id : SemId) (hv : WellTyped E v id)
    (h : v.Reordered false w) (hne : v ≠ w) :
    v.eqv w = false ∧ ∀ a b, Wire E v id a → Wire E w id b → ¬ a <+: b ∧ ¬ b <+: a := by
  have hw : WellTyped E w id := by
    clear hne
    induction h with
    | refl v => exact hv
    | step h _ ih => obtain ⟨n, hv⟩ := hv; exact ih ⟨n, swap_typed hs h (fun _ => rfl) hv⟩
  refine ⟨?_, fun a b ha hb => ⟨fun ⟨r, hr⟩ => hne ?_, fun ⟨r, hr⟩ => hne ?_⟩⟩
  · rw [← Bool.not_eq_true]
    exact fun he => hne ((C95_typed E hs true v w id hv hw).mp he)
  · exact (C103_prefix_free E hs hz v w id hv hw a b r [] ha hb (by simpa using hr)).1
  · exact (C103_prefix_free E hs hz w v id hw hv b a r [] hb ha (by simpa using hr)).1.symm

/-- **C108, what holds, on types**: with the items of sets and the entries of maps in any other order the value is of the same
type. With another order inside of set items and map keys, it is so but for repeated items and keys. -/
theorem C108_typed_partial (E : Env) (hs : E.Sane) (v w : Val) (id : SemId) :
    (v.Reordered false w → WellTyped E v id → WellTyped E w id) ∧
    (v.Reordered true w → Has E false v id → Has E false w id) := by
  refine ⟨fun h => ?_, fun h => ?_⟩ <;> induction h with
  | refl v => exact fun h => h
  | step h _ ih => exact fun ⟨n, hv⟩ => ih ⟨n, swap_typed hs h (by simp) hv⟩

/-- **C108, what holds, on checking**: a value accepted as it is, is accepted as it is in any other order. -/
theorem C108_accepted_partial (E : Env) (n : Nat) (v w : Val) (id : SemId) (hk : v.Keyed) (h : v.Reordered false w)
    (hv : typify E n v id = .ok v) : typify E n w id = .ok w := by
  induction h with
  | refl v => exact hv
  | step h _ ih => exact ih (keyed_swap h hk) (swap_kept h hk hv)

/-- **C108, what holds, on bytes**: a value which is written, of whatever type and form, is written in any other order, to
as many bytes and the same ones: they change nothing but their places. The limit on the size has the same effect. -/
theorem C108_written_partial (E : Env) (n : Nat) (v w : Val) (id : SemId) (h : v.Reordered true w) :
    (∀ bs, write E n v id = .ok bs → ∃ cs, write E n w id = .ok cs ∧ bs.Perm cs ∧ bs.length = cs.length) ∧
    ∀ max bs, serialize E n max v id = .ok bs → ∃ cs, serialize E n max w id = .ok cs ∧ bs.Perm cs := by
  have key : ∀ bs, write E n v id = .ok bs → ∃ cs, write E n w id = .ok cs ∧ bs.Perm cs := by
    induction h with
    | refl v => exact fun bs h => ⟨bs, h, .refl _⟩
    | step h _ ih =>
      intro bs hb
      obtain ⟨cs, h1, h2⟩ := swap_write h hb
      obtain ⟨ds, h3, h4⟩ := ih cs h1
      exact ⟨ds, h3, h2.trans h4⟩
  refine ⟨fun bs hb => ?_, fun max bs hb => ?_⟩
  · obtain ⟨cs, h1, h2⟩ := key bs hb
    exact ⟨cs, h1, h2, h2.length_eq⟩
  · obtain ⟨c, h1, h2⟩ := Out.bind_eq_ok.mp hb
    split at h2
    · next hle =>
      cases h2
      cases hw : write E n v id with
      | ok b =>
        rw [hw] at h1
        cases h1
        obtain ⟨cs, h3, h4⟩ := key _ hw
        refine ⟨cs, ?_, h4⟩
        rw [h4.length_eq] at hle
        simp only [serialize, h3, Out.mapErr, Out.bind_ok, if_pos hle]
        rfl
      | _ => rw [hw] at h1; cases h1
    · cases h2

/-! ## Examples -/

/-- The value of the example system with the two numbers of its set exchanged. -/
def exVal' : Val :=
  .struct [(n!"x", .map [(.str [65, 66], .set [.num (.uint 9), .num (.uint 7)])]),
    (n!"y", .tuple [.num (.int (BitVec.ofInt 64 (-2))), .some (.str [67])]),
    (n!"z", .bytes [1, 2, 3])]

theorem exVal_reordered : exVal.Reordered false exVal' :=
  .step (.inStruct [] _ _ (.inValue [] _ [] (.set [] _ _ []))) (.refl _)

example (debug : Bool) : typify (exE debug) 5 exVal (Id32.rep 14) = .ok exVal ∧
    typify (exE debug) 5 exVal' (Id32.rep 14) = .ok exVal' := by cases debug <;> exact ⟨rfl, rfl⟩

example (debug : Bool) : write (exE debug) 5 exVal' (Id32.rep 14) =
    .ok [1, 0, 2, 65, 66, 2, 9, 7, 0xfe, 0xff, 1, 1, 67, 3, 1, 2, 3] := by cases debug <;> rfl

example (debug : Bool) : (exE debug).Sane ∧ WellTyped (exE debug) exVal (Id32.rep 14) ∧ exVal ≠ exVal' :=
  ⟨exE_sane debug, ⟨4, exVal_wellTyped debug⟩, by simp [exVal, exVal']⟩

/-- Inside of an item: the second set of the nested example becomes the first one. -/
example : (Val.set [exNumbers [7, 9], exNumbers [9, 7]]).Reordered true (.set [exNumbers [7, 9], exNumbers [7, 9]]) :=
  .step (.inItem [_] [] rfl (.set [] _ _ [])) (.refl _)

end Verif
