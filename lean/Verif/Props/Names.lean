import Verif.Lemmas.Names
import Verif.Props.Wire

/-! # C113: names do not matter for data -/

namespace Verif

/-- **C113 is violated** for fields with and without names: a character followed by a list of characters is a restricted string
if the fields have no names, with the length before the first character; with names, the length is after it. The same bytes are
read in different ways, and the encodings of the same characters differ. -/
theorem C113_violated (debug : Bool) : ∃ sys a b ids req, (exWith debug sys).Sane ∧
    (exWith debug sys).find a = some (.tuple ids) ∧ (exWith debug sys).find b = some (.struct req) ∧ req.map Prod.snd = ids ∧
    (∃ v, read (exWith debug sys) 5 a [2, 65, 66] = .ok (v, [])) ∧ (∃ e, read (exWith debug sys) 5 b [2, 65, 66] = .err e) ∧
    ∃ w, read (exWith debug sys) 5 b [65, 1, 66] = .ok (w, []) := by
  refine ⟨[(Id32.rep 1, .enum exAlphabet), (Id32.rep 2, .list (Id32.rep 1) ⟨0, 10⟩), (Id32.rep 3, .tuple [Id32.rep 1, Id32.rep 2]),
    (Id32.rep 4, .struct [(n!"a", Id32.rep 1), (n!"b", Id32.rep 2)])], Id32.rep 3, Id32.rep 4, _, _,
    Env.sane_of_saneB (by cases debug <;> decide +kernel), rfl, rfl, rfl, ?_⟩
  cases debug <;> exact ⟨⟨_, rfl⟩, ⟨_, rfl⟩, _, rfl⟩

/-- **C113 for reading, partial** (sane systems): if types differ in names only, of types, fields and variants, then whatever the
bytes are, the same bytes are taken, or there is the same error. Missing: fields which have names in one of the types only, if
they are a restricted string (`C113_violated`) or a pair with a list of unbounded length. -/
theorem C113_read_partial (E F : Env) (hb : E.SameBuild F) (hE : E.Sane) (hF : F.Sane) (a b : SemId) (h : Renaming E F a b)
    (fuel : Nat) (bs : Bytes) : SameRest (read E fuel a bs) (read F fuel b bs) := by
  obtain ⟨R, hr, hR⟩ := h
  exact same_read hb hE hF hR fuel a b bs hr

/-- **C113 for data in memory, partial** (as `C113_read_partial`; restricted strings of less than `2 ^ 64 - 1` characters after
the first): data of one type is data of the other, and the two values have the same encoding. -/
theorem C113_data_partial (E F : Env) (hb : E.SameBuild F) (hE : E.Sane) (hF : F.Sane) (hbE : E.BoundedTails) (hbF : F.BoundedTails)
    (a b : SemId) (h : Renaming E F a b) (fuel : Nat) (bs : Bytes) :
    (∀ v, deserialize E fuel a bs = .ok v → ∃ w, deserialize F fuel b bs = .ok w ∧ Wire E v a bs ∧ Wire F w b bs) ∧
    ∀ e, deserialize E fuel a bs = .err e → deserialize F fuel b bs = .err e := by
  have hs := C113_read_partial E F hb hE hF a b h fuel bs
  unfold deserialize
  cases hx : read E fuel a bs with
  | ok p =>
    cases hy : read F fuel b bs with
    | ok q =>
      obtain ⟨v, rest⟩ := p
      obtain ⟨w, rest'⟩ := q
      rw [hx, hy] at hs
      cases (show rest = rest' from hs)
      simp only [Out.bind_ok]
      by_cases h0 : rest.length = 0
      · rw [if_neg (by omega), if_neg (by omega)]
        cases List.eq_nil_of_length_eq_zero h0
        obtain ⟨c, hc, h1⟩ := C103_read_partial E hE hbE fuel a bs [] v hx
        obtain ⟨d, hd, h2⟩ := C103_read_partial F hF hbF fuel b bs [] w hy
        rw [List.append_nil] at hc hd
        subst hc
        cases hd
        refine ⟨fun v' h => ?_, fun e h => by cases h⟩
        cases h
        exact ⟨w, rfl, h1, h2⟩
      · rw [if_pos (by omega), if_pos (by omega)]
        exact ⟨fun v h => (by cases h), fun e h => h⟩
    | _ => rw [hx, hy] at hs; exact hs.elim
  | err e =>
    cases hy : read F fuel b bs with
    | err e' =>
      rw [hx, hy] at hs
      cases (show e = e' from hs)
      exact ⟨fun v h => (by cases h), fun e h => h⟩
    | _ => rw [hx, hy] at hs; exact hs.elim
  | panic => exact ⟨fun v h => (by cases h), fun e h => (by cases h)⟩
  | diverge => exact ⟨fun v h => (by cases h), fun e h => (by cases h)⟩

/-- **C113 for values, partial** (as `C113_data_partial`, and without the parts which are not read back, see
`C29_round_trip_partial`): every value of one type is serialised to data of the other. -/
theorem C113_values_partial (E F : Env) (hb : E.SameBuild F) (hE : E.Sane) (hF : F.Sane) (hbE : E.BoundedTails)
    (hbF : F.BoundedTails) (a b : SemId) (h : Renaming E F a b) (v : Val) (hv : WellTyped E v a)
    (hu : ∀ w i, Sub E v a w i → ¬ Unread E w i) :
    ∃ n bs, ∀ fuel, n ≤ fuel → (∀ max, bs.length ≤ max → serialize E fuel max v a = .ok bs) ∧
      ∃ w, deserialize F fuel b bs = .ok w ∧ Wire F w b bs := by
  obtain ⟨n, bs, hn⟩ := C29_serialised_partial E hE v a hv hu
  refine ⟨n, bs, fun fuel hf => ⟨(hn fuel hf).1, ?_⟩⟩
  obtain ⟨w, h1, -, h2⟩ := (C113_data_partial E F hb hE hF hbE hbF a b h fuel bs).1 v (hn fuel hf).2.2.1
  exact ⟨w, h1, h2⟩

/-- Differing in names only is an equivalence of types: every type of a sane system differs in no more than names from itself,
the order of the two types does not matter, and two renamings make one. -/
theorem C113_equivalence (E F G : Env) (a b c : SemId) :
    (∀ t, E.Sane → E.find a = some t → Renaming E E a a) ∧ (Renaming E F a b → Renaming F E b a) ∧
    (Renaming E F a b → Renaming F G b c → Renaming E G a c) := by
  refine ⟨fun t hs hf => ?_, fun ⟨R, hr, hR⟩ => ⟨_, hr, renames_flip hR⟩, fun ⟨R, hr, hR⟩ ⟨S, hs, hS⟩ => ⟨_, ⟨b, hr, hs⟩, renames_comp hR hS⟩⟩
  exact ⟨fun x y => x = y ∧ ∃ t, E.find x = some t, ⟨rfl, t, hf⟩, renames_refl hs⟩

/-- A record and an option; the same with other names, and the fields of the record without names. -/
def exRedGreen : TypeSystem :=
  [(SemId.unit toyHash, Ty.UNIT), (Id32.rep 1, Ty.U8), (Id32.rep 2, .enum [⟨n!"red", 1⟩, ⟨n!"green", 5⟩]),
   (Id32.rep 3, .struct [(n!"color", Id32.rep 2), (n!"size", Id32.rep 1)]),
   (Id32.rep 4, .union [(⟨n!"none", 0⟩, SemId.unit toyHash), (⟨n!"some", 1⟩, Id32.rep 3)])]

def exStopGo : TypeSystem :=
  [(SemId.unit toyHash, Ty.UNIT), (Id32.rep 1, Ty.U8), (Id32.rep 6, .enum [⟨n!"stop", 1⟩, ⟨n!"go", 5⟩]),
   (Id32.rep 7, .tuple [Id32.rep 6, Id32.rep 1]),
   (Id32.rep 8, .union [(⟨n!"off", 0⟩, SemId.unit toyHash), (⟨n!"on", 1⟩, Id32.rep 7)])]

example (debug : Bool) : (exWith debug exRedGreen).SameBuild (exWith debug exStopGo) ∧ (exWith debug exRedGreen).Sane ∧ (exWith debug exStopGo).Sane ∧
    Renaming (exWith debug exRedGreen) (exWith debug exStopGo) (Id32.rep 4) (Id32.rep 8) ∧
    read (exWith debug exRedGreen) 4 (Id32.rep 4) [1, 5, 9] =
      .ok (.union (.name n!"some") (.struct [(n!"color", .enum (.name n!"green")), (n!"size", .num (.uint 9))]), []) ∧
    read (exWith debug exStopGo) 4 (Id32.rep 8) [1, 5, 9] =
      .ok (.union (.name n!"on") (.tuple [.enum (.name n!"go"), .num (.uint 9)]), []) := by
  refine ⟨⟨rfl, rfl⟩, Env.sane_of_saneB (by cases debug <;> decide +kernel), Env.sane_of_saneB (by cases debug <;> decide +kernel),
    ⟨fun x y => (x, y) ∈ [(SemId.unit toyHash, SemId.unit toyHash), (Id32.rep 1, Id32.rep 1), (Id32.rep 2, Id32.rep 6),
      (Id32.rep 3, Id32.rep 7), (Id32.rep 4, Id32.rep 8)], by simp, fun x y h => ?_⟩, by cases debug <;> rfl, by cases debug <;> rfl⟩
  simp only [List.mem_cons, Prod.mk.injEq, List.not_mem_nil, or_false] at h
  rcases h with ⟨rfl, rfl⟩ | ⟨rfl, rfl⟩ | ⟨rfl, rfl⟩ | ⟨rfl, rfl⟩ | ⟨rfl, rfl⟩
  · exact ⟨Ty.UNIT, Ty.UNIT, by cases debug <;> decide +kernel, by cases debug <;> decide +kernel, .primitive _⟩
  · exact ⟨_, _, rfl, rfl, .primitive _⟩
  · exact ⟨_, _, rfl, rfl, .enum rfl⟩
  · refine ⟨_, _, rfl, rfl, .unnamed ⟨?_, ?_⟩ ⟨by simp, by simp, trivial⟩⟩
    · rintro A C sz ⟨a, b, c, h, -, -, hf, -⟩
      cases h
      cases hf
    · rintro a b c sz h hf
      cases h
      cases hf
  · exact ⟨_, _, rfl, rfl, .union ⟨⟨rfl, by simp⟩, ⟨rfl, by simp⟩, trivial⟩⟩

end Verif
