import Verif.Lemmas.Growth
import Verif.Lemmas.Typify

/-! # Values given for extended types (C104) -/

namespace Verif

variable {E F : Env} {Q : SemId → SemId → Prop}

/-- What the first gives the second gives as well. -/
def Out.Keeps {ε α : Type} (a b : Out ε α) : Prop := ∀ x, a = .ok x → b = .ok x

theorem Out.Keeps.refl {ε α : Type} (a : Out ε α) : a.Keeps a := fun _ h => h

theorem Out.Keeps.err {ε α : Type} {e : ε} {b : Out ε α} : Out.Keeps (.err e) b := fun _ h => by cases h

theorem Out.Keeps.panic {ε α : Type} {b : Out ε α} : Out.Keeps (.panic : Out ε α) b := fun _ h => by cases h

theorem Out.Keeps.bind {ε α β : Type} {a b : Out ε α} {f g : α → Out ε β} (h : a.Keeps b) (hf : ∀ x, (f x).Keeps (g x)) :
    (a >>= f).Keeps (b >>= g) := by
  intro y hy
  cases a with
  | ok x =>
    rw [h x rfl]
    exact hf x y hy
  | _ => cases hy

theorem grows_fieldTy {fs gs : List (Name × SemId)} (h : All2 (fun f g => f.1 = g.1 ∧ Q f.2 g.2) fs gs) (n : Name) :
    (Ty.fieldTy fs n = none ∧ Ty.fieldTy gs n = none) ∨ ∃ i j, Ty.fieldTy fs n = some i ∧ Ty.fieldTy gs n = some j ∧ Q i j := by
  induction fs generalizing gs with
  | nil => cases gs with
    | nil => exact .inl ⟨rfl, rfl⟩
    | cons => exact h.elim
  | cons f fs ih => cases gs with
    | nil => exact h.elim
    | cons g gs =>
      obtain ⟨⟨h1, h2⟩, h3⟩ := h
      unfold Ty.fieldTy at ih ⊢
      by_cases hn : f.1 = n
      · have hn' : g.1 = n := h1.symm.trans hn
        exact .inr ⟨f.2, g.2, by simp [hn], by simp [hn'], h2⟩
      · have hn' : g.1 ≠ n := fun h => hn (h1.trans h)
        have e1 : (f.1 == n) = false := by simpa using hn
        have e2 : (g.1 == n) = false := by simpa using hn'
        simp only [List.find?_cons, e1, e2]
        exact ih h3

section
variable {rec rec' : Val → SemId → Out TErr Val}

theorem grows_outMap {i j : SemId} (h : ∀ v, (rec v i).Keeps (rec' v j)) : ∀ (l : List Val),
    (outMap (fun v => rec v i) l).Keeps (outMap (fun v => rec' v j) l)
  | [] => .refl _
  | v :: l => by
    unfold outMap
    exact (h v).bind fun x => (grows_outMap h l).bind fun y => .refl _

theorem grows_typifyZip (hq : ∀ v i j, Q i j → (rec v i).Keeps (rec' v j)) :
    ∀ (l : List Val) {ids jds : List SemId} (_ : All2 Q ids jds), (typifyZip rec l ids).Keeps (typifyZip rec' l jds)
  | [], _, _, _ => by simp only [typifyZip]; exact .refl _
  | _ :: _, [], [], _ => .refl _
  | v :: l, i :: ids, j :: jds, h => by
    unfold typifyZip
    exact (hq v i j h.1).bind fun x => (grows_typifyZip hq l h.2).bind fun y => .refl _
  | _ :: _, [], _ :: _, h => h.elim
  | _ :: _, _ :: _, [], h => h.elim

theorem grows_typifyFields (hq : ∀ v i j, Q i j → (rec v i).Keeps (rec' v j)) {fs gs : List (Name × SemId)}
    (ha : All2 (fun f g => f.1 = g.1 ∧ Q f.2 g.2) fs gs) : ∀ (l acc : List (Name × Val)),
      (typifyFields rec fs l acc).Keeps (typifyFields rec' gs l acc)
  | [], _ => .refl _
  | (n, v) :: l, acc => by
    unfold typifyFields
    rcases grows_fieldTy ha n with ⟨h1, h2⟩ | ⟨i, j, h1, h2, h3⟩
    · simp only [h1, h2]
      exact .refl _
    · simp only [h1, h2]
      exact (hq v i j h3).bind fun x => grows_typifyFields hq ha l _

theorem grows_typifyMapFields (hq : ∀ v i j, Q i j → (rec v i).Keeps (rec' v j)) {fs gs : List (Name × SemId)}
    (ha : All2 (fun f g => f.1 = g.1 ∧ Q f.2 g.2) fs gs) : ∀ (l : List (Val × Val)) (acc : List (Name × Val)),
      (typifyMapFields rec fs l acc).Keeps (typifyMapFields rec' gs l acc)
  | [], _ => .refl _
  | (k, v) :: l, acc => by
    cases k with
    | str s =>
      unfold typifyMapFields
      cases Name.ofBytes? s with
      | none => exact .refl _
      | some n =>
        rcases grows_fieldTy ha n with ⟨h1, h2⟩ | ⟨i, j, h1, h2, h3⟩
        · simp only [h1, h2]
          exact .refl _
        · simp only [h1, h2]
          exact (hq v i j h3).bind fun x => grows_typifyMapFields hq ha l _
    | _ => exact .refl _

theorem grows_typifySetItems {i j : SemId} (h : ∀ v, (rec v i).Keeps (rec' v j)) : ∀ (l acc : List Val),
    (typifySetItems rec i l acc).Keeps (typifySetItems rec' j l acc)
  | [], _ => .refl _
  | v :: l, acc => by
    unfold typifySetItems
    refine (h v).bind fun x => ?_
    split
    · exact .refl _
    · exact grows_typifySetItems h l _

theorem grows_typifyMapItems {k i l j : SemId} (h : ∀ v, (rec v k).Keeps (rec' v l)) (h' : ∀ v, (rec v i).Keeps (rec' v j)) :
    ∀ (m acc : List (Val × Val)), (typifyMapItems rec k i m acc).Keeps (typifyMapItems rec' l j m acc)
  | [], _ => .refl _
  | (a, b) :: m, acc => by
    unfold typifyMapItems
    refine (h a).bind fun x => (h' b).bind fun y => ?_
    split
    · exact .refl _
    · exact grows_typifyMapItems h h' m _

theorem grows_typifyEnum {vs us : List Variant} (hwf : VariantsWF vs) (hwf' : VariantsWF us) (hm : ∀ v ∈ vs, v ∈ us)
    (hl : ∀ v ∈ vs, ∀ u ∈ us, u ∉ vs → v.name.bytes ≠ [u.tag]) (v : Val) : (typifyEnum vs v).Keeps (typifyEnum us v) := by
  have hname : ∀ t n, Ty.enumNameByTag vs t = some n → Ty.enumNameByTag us t = some n := fun t n h =>
    (enumNameByTag_iff hwf' _ _).mpr (hm _ ((enumNameByTag_iff hwf _ _).mp h))
  have htag : ∀ t, Ty.enumHasTag vs t = true → Ty.enumHasTag us t = true := by
    intro t h
    simp only [Ty.enumHasTag, List.any_eq_true] at h ⊢
    obtain ⟨x, hx, hxt⟩ := h
    exact ⟨x, hm x hx, hxt⟩
  cases v with
  | str s =>
    simp only [typifyEnum]
    by_cases h1 : s.length = 1 ∧ Ty.enumHasTag vs (s.headD 0) = true
    · rw [if_pos h1, if_pos ⟨h1.1, htag _ h1.2⟩]
      exact .refl _
    · rw [if_neg h1]
      cases hn : Name.ofBytes? s with
      | none => exact .err
      | some n =>
        by_cases h2 : Ty.enumHasName vs n = true
        · have h2' : Ty.enumHasName us n = true := by
            simp only [Ty.enumHasName, List.any_eq_true] at h2 ⊢
            obtain ⟨x, hx, hxt⟩ := h2
            exact ⟨x, hm x hx, hxt⟩
          have h3 : ¬ (s.length = 1 ∧ Ty.enumHasTag us (s.headD 0) = true) := by
            rintro ⟨h3, h4⟩
            obtain rfl := Name.ofBytes?_eq_some.mp hn
            simp only [Ty.enumHasName, List.any_eq_true, beq_iff_eq] at h2
            obtain ⟨x, hx, rfl⟩ := h2
            simp only [Ty.enumHasTag, List.any_eq_true, beq_iff_eq] at h4
            obtain ⟨u, hu, hut⟩ := h4
            have hx' : x.name.bytes = [u.tag] := by
              rw [hut]
              match hb : x.name.bytes, h3 with
              | [b], _ => rfl
            by_cases hu' : u ∈ vs
            · exact h1 ⟨h3, by simp only [Ty.enumHasTag, List.any_eq_true, beq_iff_eq]; exact ⟨u, hu', hut⟩⟩
            · exact hl x hx u hu hu' hx'
          simp only [if_neg h3, h2, h2', if_true]
          exact .refl _
        · simp only [h2]
          exact .err
  | enum tag =>
    cases tag with
    | name n =>
      simp only [typifyEnum]
      cases h : Ty.enumTagByName vs n with
      | none => exact .err
      | some t =>
        rw [(enumTagByName_iff hwf' _ _).mpr (hm _ ((enumTagByName_iff hwf _ _).mp h))]
        exact .refl _
    | ord t =>
      simp only [typifyEnum]
      cases h : Ty.enumNameByTag vs t with
      | none => exact .err
      | some t =>
        rw [hname _ _ h]
        exact .refl _
  | num n =>
    cases n with
    | uint n =>
      simp only [typifyEnum]
      split
      · cases h : Ty.enumNameByTag vs (BitVec.ofNat 8 n.toNat) with
        | none => exact .err
        | some t =>
          rw [hname _ _ h]
          exact .refl _
      · exact .refl _
    | _ => exact .refl _
  | _ => exact .refl _

theorem grows_typifyUnion (hq : ∀ v i j, Q i j → (rec v i).Keeps (rec' v j)) {vs us : List (Variant × SemId)}
    (hwf : VariantsWF (vs.map Prod.fst)) (hwf' : VariantsWF (us.map Prod.fst)) (hm : ∀ v ∈ vs, ∃ j, (v.1, j) ∈ us ∧ Q v.2 j)
    (ho : ∀ a b, vs = [(⟨n!"none", 0⟩, a), (⟨n!"some", 1⟩, b)] → ∃ a' b', us = [(⟨n!"none", 0⟩, a'), (⟨n!"some", 1⟩, b')])
    (v : Val) : (typifyUnion rec vs v).Keeps (typifyUnion rec' us v) := by
  have htag : ∀ t i, Ty.unionTyByTag vs t = some i → ∃ j, Ty.unionTyByTag us t = some j ∧ Q i j := by
    intro t i h
    obtain ⟨n, h⟩ := (unionTyByTag_iff hwf _ _).mp h
    obtain ⟨j, h1, h2⟩ := hm _ h
    exact ⟨j, (unionTyByTag_iff hwf' _ _).mpr ⟨n, h1⟩, h2⟩
  have hname : ∀ n i, Ty.unionTyByName vs n = some i → ∃ j, Ty.unionTyByName us n = some j ∧ Q i j := by
    intro n i h
    obtain ⟨t, h⟩ := (unionTyByName_iff hwf _ _).mp h
    obtain ⟨j, h1, h2⟩ := hm _ h
    exact ⟨j, (unionTyByName_iff hwf' _ _).mpr ⟨t, h1⟩, h2⟩
  have hopt : (Ty.union vs).isOption = true → (Ty.union us).isOption = true := by
    intro h
    obtain ⟨a, b, rfl⟩ := isOption_iff.mp h
    obtain ⟨a', b', rfl⟩ := ho _ _ rfl
    rfl
  have hexp : ∀ {f g : SemId → Out TErr Val}, (∀ i j, Q i j → (f i).Keeps (g j)) →
      (Out.expect (Ty.unionTyByTag vs 1) >>= f).Keeps (Out.expect (Ty.unionTyByTag us 1) >>= g) := by
    intro f g h
    cases h1 : Ty.unionTyByTag vs 1 with
    | none => exact .panic
    | some i =>
      obtain ⟨j, h2, h3⟩ := htag _ _ h1
      rw [h2]
      exact h i j h3
  unfold typifyUnion
  split
  · rename_i tag content
    cases tag with
    | name n =>
      dsimp only
      cases h : Ty.unionTyByName vs n with
      | none => exact .err
      | some i =>
        obtain ⟨j, h1, h2⟩ := hname _ _ h
        simp only [h1]
        exact (hq _ _ _ h2).bind fun x => .refl _
    | ord t =>
      dsimp only
      cases h : Ty.unionTyByTag vs t with
      | none => exact .err
      | some i =>
        obtain ⟨j, h1, h2⟩ := htag _ _ h
        simp only [h1]
        exact (hq _ _ _ h2).bind fun x => .refl _
  all_goals
    by_cases h : (Ty.union vs).isOption = true
    case neg => rw [if_neg h]; exact .err
    rw [if_pos h, if_pos (hopt h)]
  · exact .refl _
  · refine hexp fun i j hij => ?_
    split
    · exact .refl _
    split
    · exact (hq _ _ _ hij).bind fun x => .refl _
    · exact .refl _
  · exact hexp fun i j hij => (hq _ _ _ hij).bind fun x => .refl _

theorem grows_newtype (hq : ∀ v i j, Q i j → (rec v i).Keeps (rec' v j)) {ids jds : List SemId} (ha : All2 Q ids jds) (v : Val) :
    (typifyTuple.newtype rec ids v).Keeps (typifyTuple.newtype rec' jds v) := by
  match ids, jds, ha with
  | [], [], _ => exact .refl _
  | [i], [j], h => exact (hq v i j h.1).bind fun x => .refl _
  | _ :: _ :: _, _ :: _ :: _, _ => exact .refl _

theorem Sizing.Grows.check {a b : Sizing} (h : a.Grows b) {n : Nat} (hn : a.check n = true) : b.check n = true := by
  have h1 := h.1
  have h2 := h.2.1
  simp only [Sizing.check, Bool.and_eq_true, decide_eq_true_eq] at hn ⊢
  omega

theorem grows_typifyTy (ht : E.KeepsText F Q) (hs : E.Sane) (hs' : F.Sane)
    (hq : ∀ v i j, Q i j → (rec v i).Keeps (rec' v j)) {i j : SemId} {t u : Ty SemId} (hij : Q i j)
    (hi : E.find i = some t) (hj : F.find j = some u) (h : t.Grows E F Q u) (v : Val) :
    (typifyTy rec E v t).Keeps (typifyTy rec' F v u) := by
  have hwf := hs.wf _ _ hi
  have hwf' := hs'.wf _ _ hj
  have sized : ∀ {a b : Sizing} {n : Nat} {o o' : Out TErr Val}, a.Grows b → (a.check n = true → o.Keeps o') →
      Out.Keeps (if !a.check n then .err .outOfBounds else o) (if !b.check n then .err .outOfBounds else o') := by
    intro a b n o o' h ho
    cases hc : a.check n with
    | false => exact .err
    | true =>
      rw [h.check hc]
      exact ho hc
  cases h with
  | primitive => exact .refl _
  | unicodeChar => exact .refl _
  | enum hm _ => exact grows_typifyEnum hwf hwf' hm (ht.letters _ _ _ _ hij hi hj) v
  | union hm => exact grows_typifyUnion hq hwf hwf' hm (fun a b h => ht.options i j a b _ hij (h ▸ hi) hj) v
  | tuple ha _ =>
    simp only [typifyTy]
    unfold typifyTuple
    simp only [all2_length ha]
    split
    · split
      · exact .refl _
      · exact grows_newtype hq ha _
    · split
      · exact .refl _
      · exact (grows_typifyZip hq _ ha).bind fun x => .refl _
    · exact (grows_typifyZip hq _ ha).bind fun x => .refl _
    · exact grows_newtype hq ha _
  | struct ha =>
    simp only [typifyTy]
    unfold typifyStruct
    simp only [all2_length ha]
    split
    · split
      · exact .refl _
      · exact (grows_typifyFields hq ha _ _).bind fun x => .refl _
    · exact (grows_typifyMapFields hq ha _ _).bind fun x => .refl _
    · exact .refl _
  | array h1 h2 h3 =>
    simp only [typifyTy]
    unfold typifyArray
    simp only [h2, h3]
    exact .refl _
  | list h1 h2 h3 h4 =>
    simp only [typifyTy]
    unfold typifyList
    simp only [h2, h3]
    split
    · exact sized h4 fun _ => .refl _
    · exact sized h4 fun _ => .refl _
    · exact sized h4 fun _ => (grows_outMap (fun v => hq v _ _ h1) _).bind fun x => .refl _
    · exact .refl _
  | set h1 h4 =>
    simp only [typifyTy]
    unfold typifySet
    split
    · exact sized h4 fun _ => (grows_typifySetItems (fun v => hq v _ _ h1) _ _).bind fun x => .refl _
    · exact .refl _
  | map h1 h2 h4 =>
    simp only [typifyTy]
    unfold typifyMap
    split
    · exact sized h4 fun _ => (grows_typifyMapItems (fun v => hq v _ _ h1) (fun v => hq v _ _ h2) _ _).bind fun x => .refl _
    · exact .refl _

end

theorem grows_typify (hg : E.Grows F Q) (ht : E.KeepsText F Q) (hs : E.Sane) (hs' : F.Sane) : ∀ (n : Nat) (v : Val) (i j : SemId),
    Q i j → (typify E n v i).Keeps (typify F n v j)
  | 0, _, _, _, _ => .refl _
  | n + 1, v, i, j, h => by
    obtain ⟨t, u, hi, hj, hgr⟩ := hg.types i j h
    simp only [typify, hs.typeOf hi, hs'.typeOf hj]
    exact grows_typifyTy ht hs hs' (fun v i j h => grows_typify hg ht hs hs' n v i j h) h hi hj hgr v

end Verif
