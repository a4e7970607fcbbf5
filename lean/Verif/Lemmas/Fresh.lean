import Verif.Spec.World
import Verif.Spec.Example
import Verif.Lemmas.CrateBuild

/-! # Hashes without collisions among given texts -/

namespace Verif

/-- A hash for examples: a polynomial of the bytes modulo `2 ^ 256`. -/
def polyHash : Hash := fun bs => ⟨le 32 (bs.foldl (fun a b =>
  (a * 0x9E3779B97F4A7C15F39CC0605CEDC8341082276BF3A27251F86C6A11D0C18E95 + b.toNat + 1) % 2 ^ 256) 0), le_length _ _⟩

/-- The numbers are different from each other and from the bits of the mask. -/
def fresh (mask : Nat) : List Nat → Bool
  | [] => true
  | n :: ns => mask >>> n % 2 == 0 && fresh (mask ||| 1 <<< n) ns

/-- The mask with these bits. -/
def maskOf : List Nat → Nat
  | [] => 0
  | n :: ns => maskOf ns ||| 1 <<< n

theorem shiftRight_testBit {m n : Nat} : (m >>> n % 2 == 0) = !m.testBit n := by
  rw [Nat.testBit, ← Nat.and_one_is_mod, Nat.and_comm]
  have : 1 &&& m >>> n = 0 ∨ 1 &&& m >>> n = 1 := by
    rw [Nat.and_comm, Nat.and_one_is_mod]; omega
  rcases this with h | h <;> rw [h] <;> rfl

theorem testBit_or_one {m n k : Nat} : (m ||| 1 <<< n).testBit k = (m.testBit k || decide (n = k)) := by
  rw [Nat.testBit_or, Nat.shiftLeft_eq, Nat.one_mul, Nat.testBit_two_pow]

theorem fresh_sound : ∀ {ns : List Nat} {mask : Nat}, fresh mask ns = true →
    ns.Nodup ∧ ∀ n ∈ ns, mask.testBit n = false
  | [], _, _ => ⟨.nil, by simp⟩
  | n :: ns, mask, h => by
    simp only [fresh, Bool.and_eq_true, shiftRight_testBit, Bool.not_eq_true'] at h
    obtain ⟨h1, h2⟩ := fresh_sound h.2
    refine ⟨List.nodup_cons.mpr ⟨fun hn => ?_, h1⟩, fun k hk => ?_⟩
    · have := h2 n hn
      simp at this
    · rcases List.mem_cons.mp hk with rfl | hk
      · exact h.1
      · have := h2 k hk
        rw [testBit_or_one, Bool.or_eq_false_iff] at this
        exact this.1

theorem maskOf_mem {n : Nat} : ∀ {ns : List Nat}, n ∈ ns → (maskOf ns).testBit n = true
  | m :: ns, h => by
    rw [maskOf, testBit_or_one]
    rcases List.mem_cons.mp h with rfl | h
    · simp
    · simp [maskOf_mem h]

/-- Twenty bits of an id. -/
def Id32.bits (i : Id32) : Nat := fromLe (i.bytes.take 3) % 2 ^ 20

/-- Texts with different twenty bits of ids do not collide. -/
theorem noCollision {H : Hash} {D : Bytes → Prop} (L : List Bytes) (hD : ∀ x, D x → x ∈ L)
    (h : fresh 0 (L.map fun x => (taggedHash H SEM_ID_TAG x).bits) = true) : ¬ Collision H D := by
  rintro ⟨x, y, hx, hy, hne, e⟩
  exact hne (nodup_map_inj (fresh_sound h).1 (hD x hx) (hD y hy) (congrArg Id32.bits e))

end Verif
