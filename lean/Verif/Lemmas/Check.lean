import Verif.Spec.Example
import Verif.Lemmas.Basic

/-!
# Deciding the assumptions for concrete systems (used by examples and witnesses only)
-/

namespace Verif

instance (t : Ty SemId) : Decidable t.FieldsDistinct := by
  cases t <;> unfold Ty.FieldsDistinct <;> infer_instance

instance (p : Byte) : Decidable (ReadablePrim p) := by
  unfold ReadablePrim; infer_instance

instance (E : Env) (t : Ty SemId) : Decidable (t.Supported E) := by
  cases t <;> unfold Ty.Supported <;> infer_instance

/-- Checks `Env.Sane` by running over the types. -/
def Env.saneB (E : Env) : Bool :=
  (E.sys.all fun p => decide p.2.WF && decide p.2.FieldsDistinct &&
    (p.2.refs.all fun r => (E.find r).isSome) &&
    (p.1 != SemId.unit E.H || p.2 == Ty.UNIT) &&
    (!p.1.isByte E.H || p.2 == Ty.BYTE || p.2 == Ty.U8) &&
    (!p.1.isUnicodeChar E.H || p.2 == .unicodeChar)) &&
  ((List.range 9).all fun n => n == 0 || E.primSize (BitVec.ofNat 8 n) == n) &&
  ([1, 2, 4, 8].all fun n => E.primSize (BitVec.ofNat 8 (0x40 + n)) == n) &&
  E.primSize Ty.BYTE_CODE == 1

theorem Env.sane_of_saneB {E : Env} (h : E.saneB = true) : E.Sane := by
  unfold Env.saneB at h
  simp only [Bool.and_eq_true, List.all_eq_true, decide_eq_true_eq, Bool.or_eq_true, bne_iff_ne,
    beq_iff_eq, Bool.not_eq_true', List.mem_range] at h
  obtain ⟨⟨⟨h1, h2⟩, h3⟩, h4⟩ := h
  have hm : ∀ {id t}, E.find id = some t → (id, t) ∈ E.sys := fun h => OMap.get_mem h
  refine ⟨?_, ?_, ?_, ?_, ?_, ?_, ?_, ?_, ?_⟩
  · intro id t h
    exact (h1 _ (hm h)).1.1.1.1.1
  · intro id t h
    exact (h1 _ (hm h)).1.1.1.1.2
  · intro id t h r hr
    exact Option.isSome_iff_exists.mp ((h1 _ (hm h)).1.1.1.2 r hr)
  · intro t h
    rcases (h1 _ (hm h)).1.1.2 with h' | h'
    · exact absurd rfl h'
    · exact h'
  · intro id t hb h
    rcases (h1 _ (hm h)).1.2 with (h' | h') | h'
    · rw [hb] at h'; cases h'
    · exact Or.inl h'
    · exact Or.inr h'
  · intro id t hb h
    rcases (h1 _ (hm h)).2 with h' | h'
    · rw [hb] at h'; cases h'
    · exact h'
  · intro n hn1 hn8
    rcases h2 n (by omega) with h' | h'
    · omega
    · exact h'
  · intro n hn
    exact h3 n (by simp; omega)
  · exact h4

/-- Checks `Env.Supported` by running over the types. -/
def Env.supportedB (E : Env) : Bool :=
  E.sys.all fun p => p.1.isUnicodeChar E.H || decide (p.2.Supported E)

theorem Env.supported_of_supportedB {E : Env} (h : E.supportedB = true) : E.Supported := by
  unfold Env.supportedB at h
  simp only [List.all_eq_true, Bool.or_eq_true, decide_eq_true_eq] at h
  intro id t ht hu
  rcases h _ (OMap.get_mem ht) with h' | h'
  · rw [hu] at h'; cases h'
  · exact h'

theorem exE_sane (debug : Bool) : (exE debug).Sane := by
  cases debug <;> exact Env.sane_of_saneB (by decide +kernel)

theorem exE_supported (debug : Bool) : (exE debug).Supported := by
  cases debug <;> exact Env.supported_of_supportedB (by decide +kernel)

theorem Supported.small {E : Env} (hs : E.Sane) (h : E.Supported) :
    E.SmallStrings ∧ E.ByteArrays := by
  have hu : ∀ {id t}, E.find id = some t → t ≠ .unicodeChar → id.isUnicodeChar E.H = false := by
    intro id t hf hne
    cases hx : id.isUnicodeChar E.H with
    | false => rfl
    | true => exact absurd (hs.unicode id t hx hf) hne
  refine ⟨fun id i sz hf => ?_, fun id i len hf => ?_⟩
  · exact (h id _ hf (hu hf (by simp))).2.2
  · exact h id _ hf (hu hf (by simp))

end Verif
