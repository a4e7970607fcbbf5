import Verif.Spec.Growth
import Verif.Lemmas.Growth
import Verif.Lemmas.GrowthText
import Verif.Props.Codec
import Verif.Model.Typify

/-! # C104: data stays readable when types are extended -/

namespace Verif

/-- **C104 is violated** for values given as text: `a` names the variant with tag 0 of an enum. Once the enum has a further
variant with the code of the letter `a` as its tag, the same text is taken for a character of this code, which is accepted, and
writing it panics. -/
theorem C104_text_violated (debug : Bool) : ∃ sys sys' id, (exWith debug sys).Sane ∧ (exWith debug sys').Sane ∧
    (exWith debug sys).Grows (exWith debug sys') (fun i j => i = id ∧ j = id) ∧
    ∀ fuel, typify (exWith debug sys) (fuel + 1) (.str [97]) id = .ok (.enum (.name n!"a")) ∧
      write (exWith debug sys) (fuel + 1) (.enum (.name n!"a")) id = .ok [0] ∧
      typify (exWith debug sys') (fuel + 1) (.str [97]) id = .ok (.str [97]) ∧
      write (exWith debug sys') (fuel + 1) (.str [97]) id = .panic := by
  refine ⟨[(Id32.rep 1, .enum [⟨n!"a", 0⟩, ⟨n!"x", 200⟩])], [(Id32.rep 1, .enum [⟨n!"a", 0⟩, ⟨n!"b", 97⟩, ⟨n!"x", 200⟩])], Id32.rep 1,
    Env.sane_of_saneB (by cases debug <;> decide +kernel), Env.sane_of_saneB (by cases debug <;> decide +kernel),
    ⟨?_, rfl, rfl, rfl⟩, fun fuel => ⟨by cases debug <;> rfl, by cases debug <;> rfl, by cases debug <;> rfl, by cases debug <;> rfl⟩⟩
  rintro i j ⟨rfl, rfl⟩
  exact ⟨_, _, rfl, rfl, .enum (by simp) (by simp [CharVariants])⟩

/-- It is violated as well for values of optional types which get a further variant: they are no longer given without naming the
variant. -/
theorem C104_option_violated (debug : Bool) : ∃ sys sys' id, (exWith debug sys).Sane ∧ (exWith debug sys').Sane ∧
    (exWith debug sys).Grows (exWith debug sys') (fun i j => i = id ∧ j = id ∨ i = exU8 ∧ j = exU8) ∧
    ∀ fuel, typify (exWith debug sys) (fuel + 2) (.num (.uint 7)) id = .ok (.some (.num (.uint 7))) ∧
      typify (exWith debug sys') (fuel + 2) (.num (.uint 7)) id = .err .typeMismatch := by
  refine ⟨[(Id32.rep 1, .union [(⟨n!"none", 0⟩, exU8), (⟨n!"some", 1⟩, exU8)]), (exU8, Ty.U8)],
    [(Id32.rep 1, .union [(⟨n!"none", 0⟩, exU8), (⟨n!"some", 1⟩, exU8), (⟨n!"two", 2⟩, exU8)]), (exU8, Ty.U8)], Id32.rep 1,
    Env.sane_of_saneB (by cases debug <;> decide +kernel), Env.sane_of_saneB (by cases debug <;> decide +kernel),
    ⟨?_, rfl, rfl, rfl⟩, fun fuel => ⟨by cases debug <;> rfl, by cases debug <;> rfl⟩⟩
  rintro i j (⟨rfl, rfl⟩ | ⟨rfl, rfl⟩)
  · exact ⟨_, _, rfl, rfl, .union (by simp)⟩
  · exact ⟨_, _, rfl, rfl, .primitive⟩

/-- The number of bytes of a length is part of the data: limits which are extended beyond it make it unreadable. -/
theorem C104_width_needed (debug : Bool) : ∃ sys sys' id, (exWith debug sys).Sane ∧ (exWith debug sys').Sane ∧
    (exWith debug sys).find id = some (.list exU8 ⟨0, 255⟩) ∧ (exWith debug sys').find id = some (.list exU8 ⟨0, 256⟩) ∧
    ∀ fuel, write (exWith debug sys) (fuel + 1) (.bytes [7]) id = .ok [1, 7] ∧
      read (exWith debug sys) (fuel + 1) id [1, 7] = .ok (.bytes [7], []) ∧
      read (exWith debug sys') (fuel + 1) id [1, 7] = .err .io :=
  ⟨[(Id32.rep 1, .list exU8 ⟨0, 255⟩), (exU8, Ty.U8)], [(Id32.rep 1, .list exU8 ⟨0, 256⟩), (exU8, Ty.U8)], Id32.rep 1,
    Env.sane_of_saneB (by cases debug <;> decide +kernel), Env.sane_of_saneB (by cases debug <;> decide +kernel), rfl, rfl,
    fun fuel => ⟨by cases debug <;> rfl, by cases debug <;> rfl, by cases debug <;> rfl⟩⟩

/-- **C104, what holds for reading.** Data which is read with the types as they were is read in the same way, to the same value
and with the same rest, with the extended types. Data which is read with the extended types is either read in the same way with
the types as they were or refused for the tag of a variant, and never taken for something else. -/
theorem C104_read_partial (E F : Env) (Q : SemId → SemId → Prop) (hg : E.Grows F Q) (hs : E.Sane) (hs' : F.Sane) (i j : SemId)
    (h : Q i j) (fuel : Nat) (bs : Bytes) :
    (∀ v rest, read E fuel i bs = .ok (v, rest) → read F fuel j bs = .ok (v, rest)) ∧
    (∀ v rest, read F fuel j bs = .ok (v, rest) → read E fuel i bs = .ok (v, rest) ∨ read E fuel i bs = .err .enumTag) ∧
    (read E fuel i bs = read F fuel j bs ∨ read E fuel i bs = .err .enumTag) := by
  have hr := grows_read hg hs hs' fuel i j bs h
  refine ⟨fun v rest h => ?_, fun v rest h => ?_, hr⟩ <;> rcases hr with hr | hr
  · rw [← hr, h]
  · rw [h] at hr
    cases hr
  · exact .inl (hr.trans h)
  · exact .inr hr

/-- **C104, what holds for writing.** What is written with the types as they were is written with the extended types as well,
byte for byte. -/
theorem C104_write_partial (E F : Env) (Q : SemId → SemId → Prop) (hg : E.Grows F Q) (hs : E.Sane) (hs' : F.Sane) (i j : SemId)
    (h : Q i j) (fuel : Nat) (v : Val) :
    (∀ bs, write E fuel v i = .ok bs → write F fuel v j = .ok bs) ∧
    (write E fuel v i = write F fuel v j ∨ write E fuel v i = .panic) := by
  have hr := grows_write hg hs hs' fuel v i j h
  refine ⟨fun bs h => ?_, hr⟩
  rcases hr with hr | hr
  · rw [← hr, h]
  · rw [h] at hr
    cases hr

/-- **C104, what holds for values.** Values of the types as they were are values of the extended types. -/
theorem C104_values_partial (E F : Env) (Q : SemId → SemId → Prop) (hg : E.Grows F Q) (i j : SemId) (h : Q i j) (v : Val)
    (hv : WellTyped E v i) : WellTyped F v j := by
  obtain ⟨n, hv⟩ := hv
  exact ⟨n, grows_typed hg n v i j h hv⟩

/-- **C104, what holds for values given by hand** (no further variant has a letter as its tag which is the name of a variant, and
optional types stay optional): what was accepted is accepted and understood as before. Missing: the cases of
`C104_text_violated` and `C104_option_violated`. -/
theorem C104_text_partial (E F : Env) (Q : SemId → SemId → Prop) (hg : E.Grows F Q) (ht : E.KeepsText F Q) (hs : E.Sane)
    (hs' : F.Sane) (i j : SemId) (h : Q i j) (fuel : Nat) (v w : Val) (hv : typify E fuel v i = .ok w) :
    typify F fuel v j = .ok w :=
  grows_typify hg ht hs hs' fuel v i j h w hv

/-- A message with a kind and a list of items. -/
def exOld : TypeSystem :=
  [(Id32.rep 1, .struct [(n!"kind", Id32.rep 2), (n!"items", Id32.rep 3)]), (Id32.rep 2, .enum [⟨n!"x", 1⟩, ⟨n!"y", 2⟩]),
   (Id32.rep 3, .list (Id32.rep 4) ⟨0, 10⟩), (Id32.rep 4, .union [(⟨n!"u", 0⟩, exU8)]), (exU8, Ty.U8)]

/-- The message has a third kind, more items, and a further sort of items. -/
def exNew : TypeSystem :=
  [(Id32.rep 5, .struct [(n!"kind", Id32.rep 6), (n!"items", Id32.rep 7)]), (Id32.rep 6, .enum [⟨n!"x", 1⟩, ⟨n!"y", 2⟩, ⟨n!"z", 7⟩]),
   (Id32.rep 7, .list (Id32.rep 8) ⟨0, 200⟩), (Id32.rep 8, .union [(⟨n!"u", 0⟩, exU8), (⟨n!"v", 1⟩, Id32.rep 6)]), (exU8, Ty.U8)]

/-- Which ids of `exOld` and `exNew` correspond to each other. -/
def exGrowth (i j : SemId) : Prop :=
  (i = Id32.rep 1 ∧ j = Id32.rep 5) ∨ (i = Id32.rep 2 ∧ j = Id32.rep 6) ∨ (i = Id32.rep 3 ∧ j = Id32.rep 7) ∨
    (i = Id32.rep 4 ∧ j = Id32.rep 8) ∨ (i = exU8 ∧ j = exU8)

theorem exGrowth_grows (debug : Bool) : (exWith debug exOld).Grows (exWith debug exNew) exGrowth := by
  refine ⟨?_, rfl, rfl, rfl⟩
  rintro i j (⟨rfl, rfl⟩ | ⟨rfl, rfl⟩ | ⟨rfl, rfl⟩ | ⟨rfl, rfl⟩ | ⟨rfl, rfl⟩)
  · exact ⟨_, _, rfl, rfl, .struct ⟨⟨rfl, .inr (.inl ⟨rfl, rfl⟩)⟩, ⟨rfl, .inr (.inr (.inl ⟨rfl, rfl⟩))⟩, trivial⟩⟩
  · exact ⟨_, _, rfl, rfl, .enum (by simp) (by simp [CharVariants])⟩
  · exact ⟨_, _, rfl, rfl, .list (.inr (.inr (.inr (.inl ⟨rfl, rfl⟩)))) (by cases debug <;> decide +kernel) (by cases debug <;> decide +kernel)
      (by unfold Sizing.Grows; decide)⟩
  · refine ⟨_, _, rfl, rfl, .union ?_⟩
    intro v hv
    have : v = (⟨n!"u", 0⟩, exU8) := by simpa using hv
    subst this
    exact ⟨exU8, by simp, .inr (.inr (.inr (.inr ⟨rfl, rfl⟩)))⟩
  · exact ⟨_, _, rfl, rfl, .primitive⟩

theorem exGrowth_keepsText (debug : Bool) : (exWith debug exOld).KeepsText (exWith debug exNew) exGrowth := by
  constructor
  · rintro i j vs us (⟨rfl, rfl⟩ | ⟨rfl, rfl⟩ | ⟨rfl, rfl⟩ | ⟨rfl, rfl⟩ | ⟨rfl, rfl⟩) h1 h2
    case inr.inl =>
      cases h1
      cases h2
      decide
    all_goals cases h1
  · rintro i j a b us (⟨rfl, rfl⟩ | ⟨rfl, rfl⟩ | ⟨rfl, rfl⟩ | ⟨rfl, rfl⟩ | ⟨rfl, rfl⟩) h1 h2 <;> cases h1

/-- A kind given as text, an item given by the tag of its variant. -/
example (debug : Bool) : (exWith debug exOld).KeepsText (exWith debug exNew) exGrowth ∧
    typify (exWith debug exOld) 5 (.struct [(n!"kind", .str n!"y".bytes), (n!"items", .list [.union (.ord 0) (.num (.uint 9))])])
      (Id32.rep 1) = .ok (.struct [(n!"kind", .enum (.name n!"y")), (n!"items", .list [.union (.ord 0) (.num (.uint 9))])]) :=
  ⟨exGrowth_keepsText debug, by cases debug <;> rfl⟩

/-- The hypotheses of the theorems on reading, writing and values hold of these systems; a message is read with both, and one with the new kind is
refused with the former types. -/
example (debug : Bool) : (exWith debug exOld).Sane ∧ (exWith debug exNew).Sane ∧ (exWith debug exOld).Grows (exWith debug exNew) exGrowth ∧
    exGrowth (Id32.rep 1) (Id32.rep 5) ∧
    read (exWith debug exOld) 5 (Id32.rep 1) [2, 1, 0, 9] =
      .ok (.struct [(n!"kind", .enum (.name n!"y")), (n!"items", .list [.union (.name n!"u") (.num (.uint 9))])], []) ∧
    (∃ v, read (exWith debug exNew) 5 (Id32.rep 5) [7, 1, 0, 9] = .ok (v, [])) ∧
    read (exWith debug exOld) 5 (Id32.rep 1) [7, 1, 0, 9] = .err .enumTag :=
  ⟨Env.sane_of_saneB (by cases debug <;> decide +kernel), Env.sane_of_saneB (by cases debug <;> decide +kernel), exGrowth_grows debug,
    .inl ⟨rfl, rfl⟩, by cases debug <;> rfl, ⟨_, by cases debug <;> rfl⟩, by cases debug <;> rfl⟩

end Verif
