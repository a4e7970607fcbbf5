import Verif.Model.System
import Verif.Props.Extract
import Verif.Props.Ids

/-!
# Merging type systems
-/

namespace Verif

/-! ## Lengths -/

theorem OMap.length_insert_new {K V : Type} [KeyOrd K] [DecidableEq K] {m : OMap K V} {k : K} {v : V}
    (h : m.get k = none) : (OMap.insert m k v).length = m.length + 1 := by
  induction m with
  | nil => rfl
  | cons p m ih =>
    obtain ⟨j, w⟩ := p
    rw [OMap.get] at h
    split at h
    · cases h
    · rename_i hj
      unfold OMap.insert
      split
      · rfl
      · rw [if_neg fun e => hj e.symm, List.length_cons, List.length_cons, ih h]

theorem OMap.length_insert_le {K V : Type} [KeyOrd K] [DecidableEq K] {m : OMap K V} {k : K} {v : V} :
    (OMap.insert m k v).length ≤ m.length + 1 := by
  induction m with
  | nil => simp [OMap.insert]
  | cons p m ih =>
    obtain ⟨j, w⟩ := p
    unfold OMap.insert
    split
    · simp
    · split
      · simp
      · simp only [List.length_cons]; omega

/-! ## C70 -/

/-- **C70 is violated** without further conditions: a definition of the other system replaces the own one
under the same id, and no error is reported. -/
theorem C70_override_violated (i : SemId) :
    TypeSystem.extend [(i, .primitive 1)] [(i, .primitive 2)] = (true, [(i, .primitive 2)]) := by
  simp [TypeSystem.extend, OMap.insert, KeyOrd.lt, bytesLt_irrefl]

/-- Systems of any size below 2^24: numbered ids, in the order of numbers. -/
def exNumbered (n : Nat) : TypeSystem := (List.range n).map fun i =>
  (⟨BitVec.ofNat 8 (i / 65536) :: BitVec.ofNat 8 (i / 256) :: BitVec.ofNat 8 i :: List.replicate 29 0, by simp⟩,
    .primitive 1)

theorem exNumbered_sorted {n : Nat} (h : n ≤ 2 ^ 24) : OMap.Sorted (exNumbered n) := by
  unfold OMap.Sorted exNumbered
  rw [List.pairwise_map]
  refine List.Pairwise.imp_of_mem (R := (· < ·)) ?_ List.pairwise_lt_range
  intro a b ha hb hab
  simp only [List.mem_range] at ha hb
  simp only [KeyOrd.lt, bytesLt, Bool.or_eq_true, Bool.and_eq_true,
    decide_eq_true_eq, beq_iff_eq, BitVec.toNat_ofNat]
  by_cases h1 : a / 65536 = b / 65536
  · right
    refine ⟨by rw [h1], ?_⟩
    by_cases h2 : a / 256 = b / 256
    · exact .inr ⟨by rw [h2], .inl (by omega)⟩
    · exact .inl (by omega)
  · left
    omega

theorem exNumbered_length {n : Nat} : (exNumbered n).length = n := by
  rw [exNumbered, List.length_map, List.length_range]

/-- **C70 is violated** for full systems: nothing can be merged, not even the types which are present. -/
theorem C70_full_violated : ∃ a : TypeSystem, OMap.Sorted a ∧ a.length = 2 ^ 24 - 1 ∧
    TypeSystem.extend a a = (false, a) := by
  refine ⟨exNumbered (2 ^ 24 - 1), exNumbered_sorted (by omega), exNumbered_length, ?_⟩
  have h := exNumbered_length (n := 2 ^ 24 - 1)
  generalize exNumbered (2 ^ 24 - 1) = a at h
  cases a with
  | nil => simp at h
  | cons p a =>
    obtain ⟨i, t⟩ := p
    unfold TypeSystem.extend
    rw [if_pos (by omega)]

/-- Merging two types with place for one. -/
theorem extend_two (a : TypeSystem) (h : a.length = 2 ^ 24 - 2) (i j : SemId) (t u : Ty SemId)
    (hi : a.get i = none) :
    TypeSystem.extend a [(i, t), (j, u)] = (false, OMap.insert a i t) := by
  have hl : (OMap.insert a i t).length = a.length + 1 := OMap.length_insert_new hi
  unfold TypeSystem.extend
  rw [if_neg (by omega)]
  unfold TypeSystem.extend
  rw [if_pos (by omega)]

/-- **C70 is violated** on failure: the types inserted before stay. With place for one more type, merging
two new ones fails but adds the first. -/
theorem C70_failure_violated : ∃ (a : TypeSystem) (i j : SemId) (t u : Ty SemId) (r : TypeSystem),
    OMap.Sorted a ∧ OMap.Sorted [(i, t), (j, u)] ∧ a.get i = none ∧
      TypeSystem.extend a [(i, t), (j, u)] = (false, r) ∧ r.get i = some t := by
  have h : OMap.get (exNumbered (2 ^ 24 - 2)) (Id32.rep 254) = none := by
    rw [OMap.get_eq_none_iff]
    intro p hp he
    simp only [exNumbered, List.mem_map] at hp
    obtain ⟨n, -, rfl⟩ := hp
    have := congrArg (fun i : Id32 => i.bytes.drop 3) he
    revert this
    simp only [List.drop_succ_cons, List.drop_zero, Id32.rep]
    decide
  exact ⟨exNumbered (2 ^ 24 - 2), Id32.rep 254, Id32.rep 255, .primitive 1, .primitive 1, _,
    exNumbered_sorted (by omega), (by unfold OMap.Sorted; decide), h,
    extend_two _ exNumbered_length _ _ _ _ h, by rw [OMap.get_insert, if_pos rfl]⟩

/-- **C70, the contents**: the merged system has the types of the other system and those of the own one, in
the order of ids; for ids in both, the definition in the other. -/
theorem C70_contents (a b r : TypeSystem) (ha : OMap.Sorted a) (hb : OMap.Sorted b)
    (h : TypeSystem.extend a b = (true, r)) :
    OMap.Sorted r ∧ ∀ i, r.get i = (b.get i).or (a.get i) := by
  induction b generalizing a with
  | nil =>
    cases h
    exact ⟨ha, fun i => rfl⟩
  | cons p b ih =>
    obtain ⟨k, t⟩ := p
    unfold TypeSystem.extend at h
    split at h
    · cases h
    · have hb' : OMap.Sorted b ∧ ∀ q ∈ b, KeyOrd.lt k q.1 = true := by
        simp only [OMap.Sorted, List.pairwise_cons] at hb
        exact ⟨hb.2, hb.1⟩
      obtain ⟨h1, h2⟩ := ih _ (OMap.sorted_insert ha k t) hb'.1 h
      refine ⟨h1, fun i => ?_⟩
      show r.get i = (OMap.get ((k, t) :: b) i).or (a.get i)
      rw [h2 i, OMap.get_insert, OMap.get_cons]
      split
      · rename_i hk
        have : OMap.get b i = none := by
          rw [OMap.get_eq_none_iff]
          intro q hq he
          have := hb'.2 q hq
          rw [he, hk, LawfulKeyOrd.irrefl] at this; cases this
        rw [this]; rfl
      · rfl

/-- **C70, success**: merging succeeds if there is place for all types of both systems. -/
theorem C70_succeeds (a b : TypeSystem) (h : a.length + b.length ≤ 2 ^ 24 - 1) :
    ∃ r, TypeSystem.extend a b = (true, r) := by
  induction b generalizing a with
  | nil => exact ⟨a, rfl⟩
  | cons p b ih =>
    obtain ⟨k, t⟩ := p
    simp only [List.length_cons] at h
    unfold TypeSystem.extend
    rw [if_neg (by omega)]
    have := OMap.length_insert_le (m := a) (k := k) (v := t)
    exact ih _ (by omega)

/-- The systems have the same definitions for ids in both. -/
def TypeSystem.Consistent (a b : TypeSystem) : Prop := ∀ i t u, a.get i = some t → b.get i = some u → t = u

/-- **C70, references**: merging complete systems gives a complete system. -/
theorem C70_complete (a b r : TypeSystem) (ha : OMap.Sorted a) (hb : OMap.Sorted b)
    (h : TypeSystem.extend a b = (true, r))
    (ca : ∀ i t, a.get i = some t → ∀ j ∈ t.refs, ∃ u, a.get j = some u)
    (cb : ∀ i t, b.get i = some t → ∀ j ∈ t.refs, ∃ u, b.get j = some u) :
    ∀ i t, r.get i = some t → ∀ j ∈ t.refs, ∃ u, r.get j = some u := by
  obtain ⟨-, hr⟩ := C70_contents a b r ha hb h
  intro i t ht j hj
  rw [hr] at ht
  rw [hr]
  cases hbi : b.get i with
  | some u =>
    rw [hbi] at ht
    cases ht
    obtain ⟨u, hu⟩ := cb i t hbi j hj
    exact ⟨u, by rw [hu]; rfl⟩
  | none =>
    rw [hbi] at ht
    obtain ⟨u, hu⟩ := ca i t ht j hj
    cases hbj : b.get j with
    | some w => exact ⟨w, rfl⟩
    | none => exact ⟨u, hu⟩

/-- **C70, what holds for values**: if the systems have the same definitions for common ids, then values are
checked, written and read in the merged system as in each of them, for types with all their references there.
Missing: systems with different definitions under an id, see above. -/
theorem C70_values_partial (E : Env) (a b r : TypeSystem) (ha : OMap.Sorted a) (hb : OMap.Sorted b)
    (hab : a.Consistent b) (h : TypeSystem.extend a b = (true, r)) (s : TypeSystem) (hs : s = a ∨ s = b) (id : SemId)
    (hall : ∀ j, Reach s (· = id) j → ∃ t, s.get j = some t) (n : Nat) :
    (∀ v, typify { E with sys := r } n v id = typify { E with sys := s } n v id) ∧
    (∀ max v, serialize { E with sys := r } n max v id = serialize { E with sys := s } n max v id) ∧
    (∀ bs, deserialize { E with sys := r } n id bs = deserialize { E with sys := s } n id bs) := by
  obtain ⟨-, hr⟩ := C70_contents a b r ha hb h
  have hext : ∀ i t, s.get i = some t → r.get i = some t := by
    intro i t ht
    rw [hr]
    rcases hs with rfl | rfl
    · cases hbi : b.get i with
      | none => exact ht
      | some u => rw [hab i t u ht hbi]; rfl
    · rw [ht]; rfl
  obtain ⟨h1, -, h3, -, h5⟩ := C20_extend_preserves { E with sys := s } r hext id hall n
  exact ⟨h1, h3, h5⟩

/-- **C70, order**: systems with the same definitions for common ids can be merged in either order. -/
theorem C70_commutes_partial (a b r s : TypeSystem) (ha : OMap.Sorted a) (hb : OMap.Sorted b) (hab : a.Consistent b)
    (h : TypeSystem.extend a b = (true, r)) (h' : TypeSystem.extend b a = (true, s)) : r = s := by
  obtain ⟨hr, h1⟩ := C70_contents a b r ha hb h
  obtain ⟨hs, h2⟩ := C70_contents b a s hb ha h'
  refine OMap.ext hr hs fun i => ?_
  rw [h1, h2]
  cases hai : a.get i with
  | none => cases hbi : b.get i <;> rfl
  | some t =>
    cases hbi : b.get i with
    | none => rfl
    | some u => rw [hab i t u hai hbi]

/-- **C70, ids**: systems whose definitions sit under their own ids have the same definitions for common ids,
or the hash collided on the texts of two definitions; and merging them gives such a system. -/
theorem C70_own_ids (H : Hash) (a b r : TypeSystem) (ha : OMap.Sorted a) (hb : OMap.Sorted b)
    (ia : a.SelfIdentified H) (ib : b.SelfIdentified H) (h : TypeSystem.extend a b = (true, r)) :
    (a.Consistent b ∨
      ∃ p ∈ a, ∃ q ∈ b, ∃ x y, p.2.Hashed H p.1 x ∧ q.2.Hashed H q.1 y ∧ Clash H SEM_ID_TAG x y) ∧ r.SelfIdentified H := by
  obtain ⟨hs, hr⟩ := C70_contents a b r ha hb h
  refine ⟨?_, ?_⟩
  · by_cases hc : ∃ p ∈ a, ∃ q ∈ b, ∃ x y, p.2.Hashed H p.1 x ∧ q.2.Hashed H q.1 y ∧ Clash H SEM_ID_TAG x y
    · exact .inr hc
    · refine .inl fun i t u ht hu => ?_
      have h1 : TypeSystem.SelfIdentified H [(i, t)] := by
        intro p hp; rw [List.mem_singleton.1 hp]; exact ia _ (OMap.get_mem ht)
      have h2 : TypeSystem.SelfIdentified H [(i, u)] := by
        intro p hp; rw [List.mem_singleton.1 hp]; exact ib _ (OMap.get_mem hu)
      rcases C07_self_identified_partial H [(i, t)] [(i, u)] h1 h2 rfl with h | h | ⟨p, hp, q, hq, h⟩
      · simpa using h
      · exact absurd rfl h.1
      · rw [List.mem_singleton] at hp hq
        subst hp hq
        exact absurd ⟨_, OMap.get_mem ht, _, OMap.get_mem hu, h⟩ hc
  · rintro ⟨i, t⟩ hp
    have ht := OMap.get_of_mem hs hp
    have ht : r.get i = some t := ht
    rw [hr] at ht
    cases hbi : b.get i with
    | some u =>
      rw [hbi] at ht
      cases ht
      exact ib _ (OMap.get_mem hbi)
    | none =>
      rw [hbi] at ht
      exact ia _ (OMap.get_mem ht)

/-- Two consistent systems with a common type. -/
def exLeft : TypeSystem := [(Id32.rep 1, .primitive 1), (Id32.rep 2, .tuple [Id32.rep 1])]
def exRight : TypeSystem := [(Id32.rep 1, .primitive 1), (Id32.rep 3, .list (Id32.rep 1) ⟨0, 255⟩)]

example : OMap.Sorted exLeft ∧ OMap.Sorted exRight ∧ exLeft.Consistent exRight ∧
    TypeSystem.extend exLeft exRight = (true, [(Id32.rep 1, .primitive 1), (Id32.rep 2, .tuple [Id32.rep 1]),
      (Id32.rep 3, .list (Id32.rep 1) ⟨0, 255⟩)]) := by
  refine ⟨by unfold OMap.Sorted; decide, by unfold OMap.Sorted; decide, ?_, by decide +kernel⟩
  intro i t u ht hu
  have h1 := OMap.get_mem ht
  have h2 := OMap.get_mem hu
  simp only [exLeft, exRight, List.mem_cons, Prod.mk.injEq, List.not_mem_nil, or_false] at h1 h2
  rcases h1 with ⟨rfl, rfl⟩ | ⟨rfl, rfl⟩ <;> rcases h2 with ⟨h, rfl⟩ | ⟨h, rfl⟩
  · rfl
  · exact absurd h (by decide +kernel)
  · exact absurd h (by decide +kernel)
  · exact absurd h (by decide +kernel)

/-- Two systems with their own ids. -/
example (H : Hash) : ∃ a b r : TypeSystem, OMap.Sorted a ∧ OMap.Sorted b ∧ a.SelfIdentified H ∧ b.SelfIdentified H ∧
    TypeSystem.extend a b = (true, r) := by
  obtain ⟨r, hr⟩ := C70_succeeds [(Ty.semIdUnnamed H SemId.commit .U8, .U8)]
    [(Ty.semIdNamed H SemId.commit (.tuple [Id32.rep 3]) n!"Wrap", .tuple [Id32.rep 3])] (by simp)
  refine ⟨_, _, r, by simp [OMap.Sorted], by simp [OMap.Sorted], ?_, ?_, hr⟩
  · intro p hp; rw [List.mem_singleton.1 hp]; right; exact ⟨trivial, trivial, rfl⟩
  · intro p hp; rw [List.mem_singleton.1 hp]; left; exact ⟨_, rfl⟩

end Verif
