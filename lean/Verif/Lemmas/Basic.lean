import Verif.Model.Basic

/-! Helper lemmas about bytes, little-endian numbers and ordered maps. -/

set_option linter.unusedSectionVars false

namespace Verif

/-! ## Little-endian numbers -/

@[simp] theorem le_length (k n : Nat) : (le k n).length = k := by
  induction k generalizing n with
  | zero => rfl
  | succ k ih => simp [le, ih]

theorem fromLe_le (k n : Nat) : fromLe (le k n) = n % 256 ^ k := by
  induction k generalizing n with
  | zero => simp [le, fromLe, Nat.mod_one]
  | succ k ih =>
    simp only [le, fromLe, ih, BitVec.toNat_ofNat]
    have h : 256 ^ (k + 1) = 256 * 256 ^ k := by rw [Nat.pow_succ, Nat.mul_comm]
    rw [h, Nat.mod_mul]

theorem fromLe_le_of_lt {k n : Nat} (h : n < 256 ^ k) : fromLe (le k n) = n := by
  rw [fromLe_le, Nat.mod_eq_of_lt h]

theorem fromLe_lt (bs : Bytes) : fromLe bs < 256 ^ bs.length := by
  induction bs with
  | nil => simp [fromLe]
  | cons b bs ih =>
    have hb := b.isLt
    simp only [fromLe, List.length_cons, Nat.pow_succ]
    omega

theorem le_fromLe (bs : Bytes) : le bs.length (fromLe bs) = bs := by
  induction bs with
  | nil => rfl
  | cons b bs ih =>
    have hb := b.isLt
    simp only [List.length_cons, le, fromLe]
    have h1 : (b.toNat + 256 * fromLe bs) / 256 = fromLe bs := by omega
    rw [h1, ih]
    congr 1
    apply BitVec.eq_of_toNat_eq
    simp only [BitVec.toNat_ofNat]
    omega

theorem le_inj {k m n : Nat} (hm : m < 256 ^ k) (hn : n < 256 ^ k) (h : le k m = le k n) :
    m = n := by
  rw [← fromLe_le_of_lt hm, h, fromLe_le_of_lt hn]

theorem le_mod (k n : Nat) : le k (n % 256 ^ k) = le k n := by
  induction k generalizing n with
  | zero => rfl
  | succ k ih =>
    have hd : 256 ∣ 256 ^ (k + 1) := ⟨256 ^ k, by rw [Nat.pow_succ, Nat.mul_comm]⟩
    simp only [le]
    congr 1
    · apply BitVec.eq_of_toNat_eq
      simp only [BitVec.toNat_ofNat]
      exact Nat.mod_mod_of_dvd n hd
    · rw [← ih (n / 256)]
      congr 1
      rw [Nat.pow_succ, Nat.mul_comm, Nat.mod_mul_right_div_self]

theorem fromLe_inj {a b : Bytes} (hl : a.length = b.length) (h : fromLe a = fromLe b) : a = b := by
  rw [← le_fromLe a, ← le_fromLe b, hl, h]

theorem fromLe_append (a b : Bytes) : fromLe (a ++ b) = fromLe a + 256 ^ a.length * fromLe b := by
  induction a with
  | nil => simp [fromLe]
  | cons x a ih =>
    simp only [List.cons_append, fromLe, ih, List.length_cons, Nat.pow_succ]
    rw [Nat.mul_add, Nat.mul_comm (256 ^ a.length) 256, Nat.mul_assoc]
    omega

theorem fromLe_replicate_zero (n : Nat) : fromLe (List.replicate n 0) = 0 := by
  induction n with
  | zero => rfl
  | succ n ih =>
    simp only [List.replicate_succ, fromLe]
    rw [ih]; rfl

theorem le_add (j k n : Nat) : le (j + k) n = le j n ++ le k (n / 256 ^ j) := by
  induction j generalizing n with
  | zero => simp [le]
  | succ j ih =>
    rw [Nat.succ_add]
    simp only [le, List.cons_append]
    rw [ih, Nat.div_div_eq_div_mul, Nat.pow_succ, Nat.mul_comm 256]

theorem le_take {j k n : Nat} (h : j ≤ k) : (le k n).take j = le j n := by
  obtain ⟨d, rfl⟩ := Nat.exists_eq_add_of_le h
  rw [le_add, List.take_append_of_le_length (by simp), List.take_of_length_le (by simp)]

/-! ## Append cancellation -/

theorem append_inj_of_length {α : Type} {a b c d : List α} (h : a ++ c = b ++ d)
    (hl : a.length = b.length) : a = b ∧ c = d := List.append_inj h hl

/-! ## Names and ids -/

theorem Name.ext {a b : Name} (h : a.bytes = b.bytes) : a = b := by
  cases a; cases b; simp_all

theorem Id32.ext {a b : Id32} (h : a.bytes = b.bytes) : a = b := by
  cases a; cases b; simp_all

theorem Name.length_pos (n : Name) : 1 ≤ n.bytes.length := by
  have h := n.ok
  cases hb : n.bytes with
  | nil => rw [hb] at h; simp [nameOk] at h
  | cons => simp

theorem Name.length_le (n : Name) : n.bytes.length ≤ 100 := by
  have h := n.ok
  cases hb : n.bytes with
  | nil => simp
  | cons x xs => rw [hb] at h; simp [nameOk] at h; simp; omega

theorem isAlphaNumLodash_of_alpha {b : Byte} (h : isAlphaLodash b = true) :
    isAlphaNumLodash b = true := by simp [isAlphaNumLodash, h]

theorem Name.chars (n : Name) : ∀ b ∈ n.bytes, isAlphaNumLodash b = true := by
  have h := n.ok
  intro b hb
  cases hn : n.bytes with
  | nil => rw [hn] at hb; cases hb
  | cons x xs =>
    rw [hn] at h hb
    simp [nameOk] at h
    rcases List.mem_cons.mp hb with rfl | hb
    · exact isAlphaNumLodash_of_alpha h.1.1
    · exact h.1.2 b hb

theorem char_ge {b : Byte} (h : isAlphaNumLodash b = true) : 48 ≤ b.toNat := by
  simp [isAlphaNumLodash, isAlphaLodash] at h
  omega

theorem char_le {b : Byte} (h : isAlphaNumLodash b = true) : b.toNat ≤ 122 := by
  simp [isAlphaNumLodash, isAlphaLodash] at h
  omega

@[simp] theorem Name.ofBytes?_bytes (n : Name) : Name.ofBytes? n.bytes = some n := by
  simp [Name.ofBytes?, n.ok]

theorem Name.ofBytes?_eq_some {bs : Bytes} {n : Name} :
    Name.ofBytes? bs = some n ↔ bs = n.bytes := by
  unfold Name.ofBytes?
  constructor
  · intro h
    split at h
    · cases h; rfl
    · cases h
  · rintro rfl
    simp [n.ok]

/-! ## Lawful key orders -/

/-- A strict total order. -/
class LawfulKeyOrd (K : Type) [KeyOrd K] : Prop where
  irrefl : ∀ a : K, KeyOrd.lt a a = false
  trans : ∀ a b c : K, KeyOrd.lt a b = true → KeyOrd.lt b c = true → KeyOrd.lt a c = true
  connex : ∀ a b : K, KeyOrd.lt a b = false → KeyOrd.lt b a = false → a = b

theorem bytesLt_irrefl (a : Bytes) : bytesLt a a = false := by
  induction a with
  | nil => rfl
  | cons x a ih => simp [bytesLt, ih]

theorem bytesLt_trans {a b c : Bytes} (h1 : bytesLt a b = true) (h2 : bytesLt b c = true) :
    bytesLt a c = true := by
  induction a generalizing b c with
  | nil =>
    cases b <;> cases c <;> simp_all [bytesLt]
  | cons x a ih =>
    cases b with
    | nil => simp [bytesLt] at h1
    | cons y b =>
      cases c with
      | nil => simp [bytesLt] at h2
      | cons z c =>
        simp only [bytesLt, Bool.or_eq_true, decide_eq_true_eq, Bool.and_eq_true, beq_iff_eq] at *
        rcases h1 with h1 | ⟨rfl, h1⟩
        · rcases h2 with h2 | ⟨rfl, h2⟩
          · left; omega
          · left; exact h1
        · rcases h2 with h2 | ⟨rfl, h2⟩
          · left; exact h2
          · right; exact ⟨rfl, ih h1 h2⟩

theorem bytesLt_connex {a b : Bytes} (h1 : bytesLt a b = false) (h2 : bytesLt b a = false) :
    a = b := by
  induction a generalizing b with
  | nil => cases b <;> simp_all [bytesLt]
  | cons x a ih =>
    cases b with
    | nil => simp [bytesLt] at h2
    | cons y b =>
      simp only [bytesLt, Bool.or_eq_false_iff, decide_eq_false_iff_not, Bool.and_eq_false_iff,
        beq_eq_false_iff_ne] at *
      have hxy : x = y := by
        apply BitVec.eq_of_toNat_eq; omega
      subst hxy
      have h1' := h1.2.resolve_left (by simp)
      have h2' := h2.2.resolve_left (by simp)
      rw [ih h1' h2']

instance : LawfulKeyOrd Id32 where
  irrefl a := bytesLt_irrefl a.bytes
  trans _ _ _ := bytesLt_trans
  connex _ _ h1 h2 := Id32.ext (bytesLt_connex h1 h2)

instance : LawfulKeyOrd Name where
  irrefl a := bytesLt_irrefl a.bytes
  trans _ _ _ := bytesLt_trans
  connex _ _ h1 h2 := Name.ext (bytesLt_connex h1 h2)

instance : LawfulKeyOrd Byte where
  irrefl a := by simp [KeyOrd.lt]
  trans a b c := by simp only [KeyOrd.lt, decide_eq_true_eq]; omega
  connex a b := by
    simp only [KeyOrd.lt, decide_eq_false_iff_not]
    intro h1 h2
    apply BitVec.eq_of_toNat_eq; omega

section
variable {K V : Type} [KeyOrd K] [LawfulKeyOrd K] [DecidableEq K]

theorem KeyOrd.ne_of_lt {a b : K} (h : KeyOrd.lt a b = true) : a ≠ b := by
  rintro rfl
  rw [LawfulKeyOrd.irrefl] at h
  cases h

theorem KeyOrd.asymm {a b : K} (h : KeyOrd.lt a b = true) : KeyOrd.lt b a = false := by
  cases h' : KeyOrd.lt b a with
  | false => rfl
  | true =>
    have := LawfulKeyOrd.trans _ _ _ h h'
    rw [LawfulKeyOrd.irrefl] at this
    cases this

theorem KeyOrd.lt_of_not_lt_ne {a b : K} (h : ¬ KeyOrd.lt a b = true) (hne : a ≠ b) :
    KeyOrd.lt b a = true := by
  cases h' : KeyOrd.lt b a with
  | true => rfl
  | false =>
    exfalso
    apply hne
    apply LawfulKeyOrd.connex
    · cases hab : KeyOrd.lt a b with
      | true => exact absurd hab h
      | false => rfl
    · exact h'

namespace OMap

omit [LawfulKeyOrd K] in
@[simp] theorem get_nil (k : K) : OMap.get ([] : OMap K V) k = none := rfl

omit [KeyOrd K] [LawfulKeyOrd K] in
theorem get_cons (k' : K) (v : V) (m : OMap K V) (k : K) :
    OMap.get ((k', v) :: m) k = if k' = k then some v else OMap.get m k := rfl

theorem get_insert (m : OMap K V) (k : K) (v : V) (j : K) :
    (OMap.insert m k v).get j = if k = j then some v else m.get j := by
  induction m with
  | nil => simp [OMap.insert, OMap.get]
  | cons p m ih =>
    obtain ⟨k', v'⟩ := p
    simp only [OMap.insert]
    split
    · simp [OMap.get]
    · split
      · rename_i h; subst h; simp only [OMap.get]; split <;> rfl
      · rename_i h
        simp only [OMap.get, ih]
        split
        · rename_i h'; subst h'; simp [h]
        · rfl

omit [KeyOrd K] [LawfulKeyOrd K] in
theorem get_eq_none_iff {m : OMap K V} {k : K} : m.get k = none ↔ ∀ p ∈ m, p.1 ≠ k := by
  induction m with
  | nil => simp
  | cons p m ih =>
    obtain ⟨k', v'⟩ := p
    simp only [OMap.get, List.mem_cons, forall_eq_or_imp]
    split
    · simp_all
    · simp_all

omit [KeyOrd K] [LawfulKeyOrd K] in
theorem get_mem {m : OMap K V} {k : K} {v : V} (h : m.get k = some v) : (k, v) ∈ m := by
  induction m with
  | nil => simp at h
  | cons p m ih =>
    obtain ⟨k', v'⟩ := p
    simp only [OMap.get] at h
    split at h
    · cases h; subst_vars; simp
    · exact List.mem_cons_of_mem _ (ih h)

omit [KeyOrd K] [LawfulKeyOrd K] in
theorem get_isSome_iff {m : OMap K V} {k : K} : (m.get k).isSome ↔ k ∈ m.keys := by
  induction m with
  | nil => simp [OMap.keys]
  | cons p m ih =>
    obtain ⟨k', v'⟩ := p
    simp only [OMap.get, OMap.keys, List.map_cons, List.mem_cons]
    split
    · simp_all
    · rename_i h
      rw [ih]
      simp only [OMap.keys]
      constructor
      · exact Or.inr
      · rintro (h' | h')
        · exact absurd h'.symm h
        · exact h'

theorem mem_insert_key {m : OMap K V} {k : K} {v : V} {p : K × V} (h : p ∈ OMap.insert m k v) :
    p = (k, v) ∨ p ∈ m := by
  induction m with
  | nil => simpa [OMap.insert] using h
  | cons q m ih =>
    obtain ⟨k', v'⟩ := q
    simp only [OMap.insert] at h
    split at h
    · simpa using h
    · split at h
      · rename_i hk; subst hk
        rcases List.mem_cons.mp h with h | h
        · left; exact h
        · right; exact List.mem_cons_of_mem _ h
      · rcases List.mem_cons.mp h with h | h
        · right; simp [h]
        · rcases ih h with h | h
          · left; exact h
          · right; exact List.mem_cons_of_mem _ h

theorem sorted_insert {m : OMap K V} (hs : m.Sorted) (k : K) (v : V) :
    (OMap.insert m k v).Sorted := by
  induction m with
  | nil => simp [OMap.insert, OMap.Sorted]
  | cons p m ih =>
    obtain ⟨k', v'⟩ := p
    simp only [OMap.Sorted, List.pairwise_cons] at hs ⊢
    simp only [OMap.insert]
    split
    · rename_i h
      simp only [List.pairwise_cons, List.mem_cons, forall_eq_or_imp]
      exact ⟨⟨h, fun q hq => LawfulKeyOrd.trans _ _ _ h (hs.1 q hq)⟩, hs⟩
    · split
      · simp only [List.pairwise_cons]; exact hs
      · rename_i h1 h2
        simp only [List.pairwise_cons]
        refine ⟨fun q hq => ?_, ih hs.2⟩
        rcases mem_insert_key hq with rfl | hq
        · exact KeyOrd.lt_of_not_lt_ne h1 h2
        · exact hs.1 q hq

theorem get_of_mem {m : OMap K V} (hs : m.Sorted) {k : K} {v : V} (h : (k, v) ∈ m) :
    m.get k = some v := by
  induction m with
  | nil => cases h
  | cons p m ih =>
    obtain ⟨k', v'⟩ := p
    simp only [OMap.Sorted, List.pairwise_cons] at hs
    simp only [OMap.get]
    rcases List.mem_cons.mp h with h | h
    · cases h; simp
    · have := KeyOrd.ne_of_lt (hs.1 _ h)
      simp [this, ih hs.2 h]

theorem get_eq_some_iff {m : OMap K V} (hs : m.Sorted) {k : K} {v : V} :
    m.get k = some v ↔ (k, v) ∈ m := ⟨get_mem, get_of_mem hs⟩

theorem ext {m n : OMap K V} (hm : m.Sorted) (hn : n.Sorted) (h : ∀ k, m.get k = n.get k) :
    m = n := by
  induction m generalizing n with
  | nil =>
    cases n with
    | nil => rfl
    | cons q n => obtain ⟨k, v⟩ := q; have := h k; simp [OMap.get] at this
  | cons p m ih =>
    obtain ⟨k, v⟩ := p
    cases n with
    | nil => have := h k; simp [OMap.get] at this
    | cons q n =>
      obtain ⟨k', v'⟩ := q
      have hm' := hm
      have hn' := hn
      simp only [OMap.Sorted, List.pairwise_cons] at hm hn
      have hkk : k = k' := by
        apply Classical.byContradiction
        intro hne
        have h1 : (k, v) ∈ (k', v') :: n := by
          apply get_mem; rw [← h]; simp [OMap.get]
        have h2 : (k', v') ∈ (k, v) :: m := by
          apply get_mem; rw [h]; simp [OMap.get]
        have h1' : KeyOrd.lt k' k = true := by
          rcases List.mem_cons.mp h1 with e | e
          · cases e; exact absurd rfl hne
          · exact hn.1 _ e
        have h2' : KeyOrd.lt k k' = true := by
          rcases List.mem_cons.mp h2 with e | e
          · cases e; exact absurd rfl hne
          · exact hm.1 _ e
        rw [KeyOrd.asymm h1'] at h2'
        cases h2'
      subst hkk
      have hv : v = v' := by have := h k; simpa [OMap.get] using this
      subst hv
      have : m = n := by
        apply ih hm.2 hn.2
        intro j
        by_cases hj : k = j
        · subst hj
          rw [get_eq_none_iff.mpr, get_eq_none_iff.mpr]
          · intro p hp; exact (KeyOrd.ne_of_lt (hn.1 p hp)).symm
          · intro p hp; exact (KeyOrd.ne_of_lt (hm.1 p hp)).symm
        · have := h j; simpa [OMap.get, hj] using this
      rw [this]

omit [KeyOrd K] [LawfulKeyOrd K] in
theorem get_erase (m : OMap K V) (k j : K) :
    (m.erase k).get j = if k = j then none else m.get j := by
  induction m with
  | nil => simp [OMap.erase]
  | cons p m ih =>
    obtain ⟨k', v'⟩ := p
    simp only [OMap.erase, List.filter_cons] at ih ⊢
    by_cases hk : k' = k
    · subst hk
      simp only [ne_eq, not_true_eq_false, decide_false, Bool.false_eq_true, if_false, ih, OMap.get]
      split <;> rfl
    · simp only [ne_eq, hk, not_false_eq_true, decide_true, if_true, OMap.get, ih]
      split
      · rename_i h; subst h; rw [if_neg (fun h => hk h.symm)]
      · rfl

omit [LawfulKeyOrd K] in
theorem sorted_erase {m : OMap K V} (hs : m.Sorted) (k : K) : (m.erase k).Sorted :=
  List.Pairwise.filter _ hs

end OMap

namespace OSet

theorem mem_insert {s : OSet K} {k j : K} : j ∈ OSet.insert s k ↔ j = k ∨ j ∈ s := by
  induction s with
  | nil => simp [OSet.insert]
  | cons k' s ih =>
    simp only [OSet.insert]
    split
    · simp
    · split
      · rename_i h; subst h; simp
      · simp only [List.mem_cons, ih]
        constructor
        · rintro (h | h | h) <;> simp [h]
        · rintro (h | h | h) <;> simp [h]

theorem sorted_insert {s : OSet K} (hs : s.Sorted) (k : K) : (OSet.insert s k).Sorted := by
  induction s with
  | nil => simp [OSet.insert, OSet.Sorted]
  | cons k' s ih =>
    simp only [OSet.Sorted, List.pairwise_cons] at hs ⊢
    simp only [OSet.insert]
    split
    · rename_i h
      simp only [List.pairwise_cons, List.mem_cons, forall_eq_or_imp]
      exact ⟨⟨h, fun q hq => LawfulKeyOrd.trans _ _ _ h (hs.1 q hq)⟩, hs⟩
    · split
      · simp only [List.pairwise_cons]; exact hs
      · rename_i h1 h2
        simp only [List.pairwise_cons]
        refine ⟨fun q hq => ?_, ih hs.2⟩
        rcases mem_insert.mp hq with rfl | hq
        · exact KeyOrd.lt_of_not_lt_ne h1 h2
        · exact hs.1 q hq

theorem mem_extend {s : OSet K} {ks : List K} {j : K} :
    j ∈ OSet.extend s ks ↔ j ∈ s ∨ j ∈ ks := by
  induction ks generalizing s with
  | nil => simp [OSet.extend]
  | cons k ks ih =>
    have : OSet.extend s (k :: ks) = OSet.extend (OSet.insert s k) ks := rfl
    rw [this, ih, mem_insert]
    simp only [List.mem_cons]
    constructor
    · rintro ((h | h) | h) <;> simp [h]
    · rintro (h | h | h) <;> simp [h]

theorem sorted_extend {s : OSet K} (hs : s.Sorted) (ks : List K) : (OSet.extend s ks).Sorted := by
  induction ks generalizing s with
  | nil => exact hs
  | cons k ks ih => exact ih (sorted_insert hs k)

theorem nodup_of_sorted {s : OSet K} (hs : s.Sorted) : s.Nodup :=
  List.Pairwise.imp (fun h => KeyOrd.ne_of_lt h) hs

end OSet
end

theorem nodup_length_le {α : Type} [DecidableEq α] {l m : List α} (hn : l.Nodup)
    (h : ∀ a ∈ l, a ∈ m) : l.length ≤ m.length := by
  induction l generalizing m with
  | nil => simp
  | cons a l ih =>
    have ha : a ∈ m := h a (by simp)
    simp only [List.nodup_cons] at hn
    have := ih (m := m.erase a) hn.2 fun b hb => by
      have hne : b ≠ a := fun e => hn.1 (e ▸ hb)
      exact (List.mem_erase_of_ne hne).mpr (h b (by simp [hb]))
    rw [List.length_erase_of_mem ha] at this
    have := List.length_pos_of_mem ha
    simp
    omega

end Verif
