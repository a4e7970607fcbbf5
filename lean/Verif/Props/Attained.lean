import Verif.Lemmas.Attained
import Verif.Props.Confined

/-! # C111: the numbers of bytes are attained -/

namespace Verif

/-- **C111, the numbers are exact, partial** (sane systems without sets and maps, see `Env.Fillable`; restricted strings of less
than `2 ^ 64 - 1` characters after the first): there are well-typed values whose encodings have the least and the largest number
of bytes, so that no better numbers can be given. Missing: sets and maps, which need enough different items or keys
(`C111_attained_violated`). -/
theorem C111_attained_partial (E : Env) (hs : E.Sane) (hb : E.BoundedTails) (hE : E.Fillable) (id : SemId) (lo hi : Nat)
    (h : Span E true id lo hi) :
    (∃ v c, WellTyped E v id ∧ Wire E v id c ∧ c.length = lo) ∧ ∃ v c, WellTyped E v id ∧ Wire E v id c ∧ c.length = hi := by
  obtain ⟨n, h⟩ := h
  obtain ⟨v, c, h1, h2, h3⟩ := attained hs hb hE false h
  obtain ⟨w, d, h4, h5, h6⟩ := attained hs hb hE true h
  exact ⟨⟨v, c, ⟨n, h1⟩, ⟨n, h2⟩, h3⟩, w, d, ⟨n, h4⟩, ⟨n, h5⟩, h6⟩

/-- Pairs of an optional number and a list of two to five numbers of two bytes. -/
def exFill : TypeSystem :=
  [(SemId.unit toyHash, Ty.UNIT), (Id32.rep 1, .primitive 2),
   (Id32.rep 2, .union [(⟨n!"none", 0⟩, SemId.unit toyHash), (⟨n!"some", 1⟩, Id32.rep 1)]),
   (Id32.rep 3, .list (Id32.rep 1) ⟨2, 5⟩), (Id32.rep 4, .struct [(n!"a", Id32.rep 2), (n!"b", Id32.rep 3)])]

example (debug : Bool) : (exWith debug exFill).Sane ∧ (exWith debug exFill).BoundedTails ∧ (exWith debug exFill).Fillable ∧
    Span (exWith debug exFill) true (Id32.rep 4) 6 14 := by
  refine ⟨Env.sane_of_saneB (by cases debug <;> decide +kernel), ?_, ?_, ?_⟩
  · rintro id ids A C sz hf -
    exact absurd (OMap.get_mem hf) (by simp [exWith, exFill, Ty.UNIT])
  · intro id t hf
    have hm := OMap.get_mem hf
    simp only [exWith, exFill, List.mem_cons, Prod.mk.injEq, List.not_mem_nil, or_false] at hm
    rcases hm with ⟨-, rfl⟩ | ⟨-, rfl⟩ | ⟨-, rfl⟩ | ⟨-, rfl⟩ | ⟨-, rfl⟩
    · show (0 : Nat) < 0x80; decide
    · show (2 : Nat) < 0x80; decide
    · trivial
    · exact ⟨by decide, show 5 * 24 < 2 ^ 63 by decide⟩
    · trivial
  · have h2 : SpanN (exWith debug exFill) true 2 (Id32.rep 1) 2 2 := ⟨_, rfl, .primitive (by decide)⟩
    have h1 : SpanN (exWith debug exFill) true 1 (Id32.rep 1) 2 2 := ⟨_, rfl, .primitive (by decide)⟩
    have h0 : SpanN (exWith debug exFill) true 1 (SemId.unit toyHash) 0 0 := ⟨_, by cases debug <;> decide +kernel, .unit⟩
    refine ⟨3, _, rfl, .struct (los := [1, 5]) (his := [3, 11]) ⟨⟨_, rfl, .union (lo := 0) (hi := 2) ?_ ?_ ?_⟩,
      ⟨_, rfl, .list (lo := 2) (hi := 2) (.inr (by cases debug <;> rfl)) h1⟩, trivial⟩⟩
    · intro p hp
      simp only [List.mem_cons, List.not_mem_nil, or_false] at hp
      rcases hp with rfl | rfl
      · exact ⟨0, 0, h0, by decide, by decide⟩
      · exact ⟨2, 2, h1, by decide, by decide⟩
    · exact ⟨_, List.mem_cons_self, 0, h0⟩
    · exact ⟨_, List.mem_cons_of_mem _ (List.mem_singleton.mpr rfl), 2, h1⟩

/-- **C111, the numbers are not exact** for sets: there are not as many different items as declared, so that there is a
largest number of bytes, but no data of the type is so long. -/
theorem C111_attained_violated (debug : Bool) : ∃ sys id lo hi, (exWith debug sys).Sane ∧ (exWith debug sys).BoundedTails ∧
    Span (exWith debug sys) true id lo hi ∧ ∀ v c, WellTyped (exWith debug sys) v id → Wire (exWith debug sys) v id c → c.length < hi := by
  refine ⟨[(SemId.unit toyHash, Ty.UNIT), (Id32.rep 1, .enum [⟨n!"a", 0⟩]), (Id32.rep 2, .set (Id32.rep 1) ⟨0, 2⟩)], Id32.rep 2, 1, 3,
    Env.sane_of_saneB (by cases debug <;> decide +kernel), ?_, ⟨2, _, rfl, .set (lo := 1) (hi := 1) ⟨_, rfl, .enum⟩⟩, ?_⟩
  · rintro id ids A C sz hf -
    exact absurd (OMap.get_mem hf) (by simp [exWith, Ty.UNIT])
  · rintro v c ⟨n, hv⟩ ⟨m, hw⟩
    cases n with
    | zero => exact hv.elim
    | succ n =>
    cases m with
    | zero => exact hw.elim
    | succ m =>
    obtain ⟨t, hf, hv⟩ := hv
    obtain ⟨t', hf', hw⟩ := hw
    cases hf
    cases hf'
    cases hv with
    | set hmem hsz hr hd =>
    rename_i l
    cases hw with
    | set hp ha =>
    rename_i bss pre
    have hone : ∀ v ∈ l, v = .enum (.name n!"a") := fun v hv => by
      have h := hr v hv
      cases n with
      | zero => exact h.elim
      | succ n =>
      obtain ⟨t, hf, h⟩ := h
      cases hf
      cases h with
      | enum h =>
        rw [List.mem_singleton] at h
        cases h
        rfl
    have hlen : l.length ≤ 1 := by
      have hd := hd rfl
      match l, hd, hone with
      | [], _, _ => simp
      | [_], _, _ => simp
      | a :: b :: l, hd, hone =>
        have h := (List.pairwise_cons.mp hd).1 b (by simp)
        rw [hone a (by simp), hone b (by simp)] at h
        exact absurd h (by decide)
    have hb : ∀ b ∈ bss, b.length ≤ 1 := All2.right ha fun v hv b hb => by
      have h := hone v hv
      subst h
      cases m with
      | zero => exact hb.elim
      | succ m =>
      obtain ⟨t, hf, h⟩ := hb
      cases hf
      cases h with
      | enum => simp
    have h1 := (flatten_between (lo := 0) (hi := 1) (fun b h => ⟨Nat.zero_le _, hb b h⟩)).2
    have h2 := All2.len ha
    have h3 : pre.length = 1 := hp.1
    rw [List.length_append]
    omega

end Verif
