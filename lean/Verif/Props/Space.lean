import Verif.Lemmas.Space
import Verif.Lemmas.Check
import Verif.Props.Codec

/-! # C105: values which are read take space in proportion to the data -/

namespace Verif

/-- **C105 is violated** by collections of items which take no bytes: a list of units is as long as its length says, without any
further data, so two bytes are read as 65536 values. Every value of the item type is one value. -/
theorem C105_violated (debug : Bool) : ∃ sys id, (exWith debug sys).Sane ∧ (exWith debug sys).Extent (fun _ => 1) 1 ∧
    ∀ fuel, ∃ v, read (exWith debug sys) (fuel + 2) id [255, 255] = .ok (v, []) ∧ ∀ node byte, v.space node byte = 65536 * node := by
  refine ⟨[(Id32.rep 1, .list (Id32.rep 2) ⟨0, 65535⟩), (Id32.rep 2, Ty.UNIT)], Id32.rep 1,
    Env.sane_of_saneB (by cases debug <;> decide +kernel), ?_, fun fuel => ⟨.list (List.replicate 65535 .unit), ?_, fun n b => ?_⟩⟩
  · have hm : ∀ id t, (exWith debug [(Id32.rep 1, .list (Id32.rep 2) ⟨0, 65535⟩), (Id32.rep 2, Ty.UNIT)]).find id = some t →
        t = .list (Id32.rep 2) ⟨0, 65535⟩ ∨ t = Ty.UNIT := fun id t h => by
      have := OMap.get_mem h
      simp only [exWith, List.mem_cons, Prod.mk.injEq, List.not_mem_nil, or_false] at this
      exact this.imp And.right And.right
    exact ⟨fun _ _ _ => Nat.le_refl 1, fun id ids h => (by rcases hm _ _ h with h | h <;> cases h),
      fun id ids h => (by rcases hm _ _ h with h | h <;> cases h), fun id ids h => (by rcases hm _ _ h with h | h <;> cases h),
      fun id i len h => (by rcases hm _ _ h with h | h <;> cases h), fun _ _ _ _ => Nat.le_refl 1, fun _ _ _ _ => Nat.le_refl 1,
      fun id k i sz h => (by rcases hm _ _ h with h | h <;> cases h)⟩
  · rw [show ([255, 255] : Bytes) = le (Sizing.byteSize ⟨0, 65535⟩) 65535 by decide]
    exact read_units (t := Ty.UNIT) rfl rfl rfl (by cases debug <;> decide +kernel) (by cases debug <;> decide +kernel)
      (by cases debug <;> rfl) (by decide) (show _ < _ by cases debug <;> decide)
  · rw [Val.space, spaceList_replicate]
    simp only [Val.space]
    omega

/-- In general: items of which one can be read from nothing are read in every number that the length can tell. -/
theorem C105_items (E : Env) (fuel : Nat) (id i : SemId) (sz : Sizing) (v : Val) (t : Ty SemId)
    (hf : E.find id = some (.list i sz)) (hi : E.find i = some t) (hc : t.isCharEnum = false) (hb : i.isByte E.H = false)
    (hu : i.isUnicodeChar E.H = false) (hv : read E fuel i [] = .ok (v, [])) (n : Nat) (hn : n < 256 ^ prefixWidth sz.max.toNat)
    (hm : InMemory E.valSize n) :
    ∃ bs, bs.length ≤ 8 ∧ read E (fuel + 1) id bs = .ok (.list (List.replicate n v), []) ∧
      ∀ node byte, (Val.list (List.replicate n v)).space node byte = node + n * v.space node byte := by
  refine ⟨le sz.byteSize n, ?_, ?_, fun node byte => by rw [Val.space, spaceList_replicate]⟩
  · rw [le_length]
    unfold Sizing.byteSize
    repeat' split
    all_goals omega
  · rw [← byteSize_eq] at hn
    exact read_units hf hi hc hb hu hv hn hm

/-- The types whose values take no bytes are exactly the weightless ones. -/
theorem C105_weightless (E : Env) (hs : E.Sane) (fuel : Nat) (id : SemId) (bs rest : Bytes) (v : Val)
    (h : read E fuel id bs = .ok (v, rest)) : rest = bs ↔ Weightless E id := by
  refine ⟨fun he => ?_, fun hw => weightless_read hs fuel id hw bs v rest h⟩
  obtain ⟨c, hc, h0⟩ := read_takes E fuel _ _ _ _ h
  subst he
  exact h0 (by omega)

/-- **C105, what holds**: without such collections the space is what the type itself amounts to and, for every byte but the
first, what the largest item of a collection amounts to; and the bytes of strings. Missing: collections of items without
bytes. -/
theorem C105_space_partial (E : Env) (hs : E.Sane) (hw : E.Weighed) (S : SemId → Nat) (M : Nat) (hx : E.Extent S M) (fuel : Nat)
    (id : SemId) (bs rest : Bytes) (v : Val) (h : read E fuel id bs = .ok (v, rest)) (node byte : Nat) :
    ∃ taken, bs.length = taken + rest.length ∧
      v.space node byte ≤ node * (S id + M * (taken - 1)) + byte * taken := by
  obtain ⟨c, hc, -, h1⟩ := read_space hs byte (extent_budget hx hw node) fuel _ _ _ _ h
  refine ⟨c, hc, ?_⟩
  rw [Nat.mul_add, ← Nat.mul_assoc]
  exact h1

/-- Strings and byte strings take no more space than the data, for all systems. -/
theorem C105_strings (E : Env) (hs : E.Sane) (fuel : Nat) (id : SemId) (bs rest : Bytes) (v : Val)
    (h : read E fuel id bs = .ok (v, rest)) : v.space 0 1 + rest.length ≤ bs.length := by
  obtain ⟨c, hc, -, h1⟩ := read_space hs 1 (n := 0) (N := 0) (D := fun _ => 0) (fun i t _ => no_budget E i t) fuel _ _ _ _ h
  simp only [Nat.zero_mul, Nat.zero_add, Nat.one_mul] at h1
  omega

/-- A list of pairs of numbers: no item takes nothing, a pair is three values, and five bytes are read as seven values. -/
example (debug : Bool) : ∃ sys S v, (exWith debug sys).Sane ∧ (exWith debug sys).Weighed ∧ (exWith debug sys).Extent S 3 ∧
    S (Id32.rep 1) = 1 ∧ read (exWith debug sys) 3 (Id32.rep 1) [2, 1, 2, 3, 4, 9] = .ok (v, [9]) ∧ v.space 1 0 = 7 := by
  have hm : ∀ id t, (exWith debug [(Id32.rep 1, .list (Id32.rep 2) ⟨0, 255⟩), (Id32.rep 2, .tuple [exU8, exU8]), (exU8, Ty.U8)]).find id
      = some t → (id = Id32.rep 1 ∧ t = .list (Id32.rep 2) ⟨0, 255⟩) ∨ (id = Id32.rep 2 ∧ t = .tuple [exU8, exU8]) ∨
        (id = exU8 ∧ t = Ty.U8) := fun id t h => by
    have := OMap.get_mem h
    simpa only [exWith, List.mem_cons, Prod.mk.injEq, List.not_mem_nil, or_false] using this
  have hw : ¬Weightless (exWith debug [(Id32.rep 1, .list (Id32.rep 2) ⟨0, 255⟩), (Id32.rep 2, .tuple [exU8, exU8]), (exU8, Ty.U8)])
      (Id32.rep 2) := fun h =>
    absurd ((C105_weightless _ (Env.sane_of_saneB (by cases debug <;> decide +kernel)) 3 (Id32.rep 2) [1, 2] []
      (.tuple [.num (.uint 1), .num (.uint 2)]) (by cases debug <;> rfl)).mpr h) (by decide)
  refine ⟨[(Id32.rep 1, .list (Id32.rep 2) ⟨0, 255⟩), (Id32.rep 2, .tuple [exU8, exU8]), (exU8, Ty.U8)],
    fun i => if i = Id32.rep 2 then 3 else 1,
    .list [.tuple [.num (.uint 1), .num (.uint 2)], .tuple [.num (.uint 3), .num (.uint 4)]],
    Env.sane_of_saneB (by cases debug <;> decide +kernel), ⟨fun id i sz h => ?_, fun id i sz h => ?_, fun id k i sz h => ?_⟩,
    ⟨fun id t h => ?_, fun id ids h => ?_, fun id fs h => ?_, fun id vs h => ?_, fun id i len h => ?_, fun id i sz h => ?_,
      fun id i sz h => ?_, fun id k i sz h => ?_⟩, by decide, by cases debug <;> rfl, by decide⟩
  · rcases hm _ _ h with ⟨-, h⟩ | ⟨-, h⟩ | ⟨-, h⟩ <;> cases h
    exact hw
  · rcases hm _ _ h with ⟨-, h⟩ | ⟨-, h⟩ | ⟨-, h⟩ <;> cases h
  · rcases hm _ _ h with ⟨-, h⟩ | ⟨-, h⟩ | ⟨-, h⟩ <;> cases h
  · split <;> omega
  · rcases hm _ _ h with ⟨-, h⟩ | ⟨rfl, h⟩ | ⟨-, h⟩ <;> cases h
    decide +kernel
  · rcases hm _ _ h with ⟨-, h⟩ | ⟨-, h⟩ | ⟨-, h⟩ <;> cases h
  · rcases hm _ _ h with ⟨-, h⟩ | ⟨-, h⟩ | ⟨-, h⟩ <;> cases h
  · rcases hm _ _ h with ⟨-, h⟩ | ⟨-, h⟩ | ⟨-, h⟩ <;> cases h
  · split <;> omega
  · split <;> omega
  · rcases hm _ _ h with ⟨-, h⟩ | ⟨-, h⟩ | ⟨-, h⟩ <;> cases h

end Verif
