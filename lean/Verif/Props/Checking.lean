import Verif.Lemmas.Checking
import Verif.Props.Codec

/-!
# C101: checking and writing values come to an end
-/

namespace Verif

/-- **C101 is violated**: a tuple of one field, the tuple itself: checking a number against it never ends, and so the
call overflows the stack. -/
theorem C101_check_violated (debug : Bool) : ∃ sys id, let E := exWith debug sys
    E.Sane ∧ Endless E id ∧ ∀ x fuel, typify E fuel (.num x) id = .diverge := by
  have hs : (exWith debug [(Id32.rep 1, .tuple [Id32.rep 1])]).Sane :=
    Env.sane_of_saneB (by cases debug <;> decide +kernel)
  have he : Endless (exWith debug [(Id32.rep 1, .tuple [Id32.rep 1])]) (Id32.rep 1) :=
    ⟨fun _ => Id32.rep 1, rfl, fun _ => .tuple rfl⟩
  exact ⟨_, _, hs, he, fun x => (typify_num_diverge hs).mpr he⟩

/-- **C101, partial** (for types from which no endless wrappers are reached, see `C101_check_violated`): checking any
value against a type returns, the checked value or an error; how many calls are nested depends on the size of the value
only. Checking never panics, whatever the type system is, and endless wrappers are exactly what keeps numbers from being
checked. -/
theorem C101_check_partial (E : Env) (id : SemId) :
    (∀ fuel v, typify E fuel v id ≠ .panic) ∧
    (E.Sane → (∀ j, Reach E.sys (· = id) j → ¬ Endless E j) → ∀ s, ∃ n, ∀ v : Val, sizeOf v ≤ s →
      (typify E n v id).returned = true ∧ ∀ fuel, n ≤ fuel → typify E fuel v id = typify E n v id) ∧
    (E.Sane → ∀ x, (∀ fuel, typify E fuel (.num x) id = .diverge) ↔ Endless E id) := by
  refine ⟨fun fuel v => typify_no_panic fuel v id, fun hs h s => ?_, fun hs x => typify_num_diverge hs⟩
  obtain ⟨n, hn⟩ := typify_ends hs h s id (.root rfl)
  exact ⟨n, fun v hv => ⟨(hn v hv).returned, fun fuel hf => typify_mono_ne hf ((hn v hv).2 rfl)⟩⟩

/-- **C101**: writing a value always comes to an end, whatever the type and the type system are: it goes into parts of
the value only. -/
theorem C101_write (E : Env) (v : Val) (id : SemId) (fuel : Nat) (h : sizeOf v ≤ fuel) :
    write E fuel v id ≠ .diverge ∧ (∀ more, fuel ≤ more → write E more v id = write E fuel v id) ∧
    ∀ max, serialize E fuel max v id ≠ .diverge := by
  have hw := write_ends (E := E) h id
  refine ⟨hw, fun more hm => write_mono_ne hm hw, fun max => ?_⟩
  unfold serialize
  refine Out.bind_ne ?_ fun bs => ?_
  · cases hx : write E fuel v id with
    | diverge => exact absurd hx hw
    | _ => exact nofun
  · split <;> exact nofun

/-- A tree: a list of trees. Values are checked in spite of the circle, since it is not made of wrappers. -/
def exTree : TypeSystem := [(Id32.rep 1, .list (Id32.rep 1) ⟨0, 255⟩)]

example : (exWith true exTree).Sane ∧ (∀ j, Reach (exWith true exTree).sys (· = Id32.rep 1) j → ¬ Endless (exWith true exTree) j) ∧
    (typify (exWith true exTree) 3 (.list [.list [], .list [.list []]]) (Id32.rep 1)).returned = true ∧
    typify (exWith true exTree) 3 (.list [.list [], .unit]) (Id32.rep 1) = .err .typeMismatch := by
  refine ⟨Env.sane_of_saneB (by decide +kernel), fun j hj => ?_, by decide +kernel, rfl⟩
  have : j = Id32.rep 1 := by
    induction hj with
    | root h => exact h
    | step _ h1 h2 ih =>
      subst ih
      cases h1
      simpa [Ty.refs] using h2
  subst this
  rintro ⟨f, h0, h⟩
  have := h 0
  rw [h0] at this
  cases this with
  | tuple h => cases h
  | option h => cases h

example : sizeOf (Val.tuple [.unit]) ≤ 10 ∧
    write (exWith true [(Id32.rep 1, .tuple [Id32.rep 1])]) 10 (.tuple [.tuple []]) (Id32.rep 1) = .panic ∧
    write (exWith false [(Id32.rep 1, .tuple [Id32.rep 1])]) 10 (.tuple [.tuple []]) (Id32.rep 1) = .ok [] :=
  ⟨by decide, by decide +kernel, by decide +kernel⟩

end Verif
