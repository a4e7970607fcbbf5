import Verif.Model.Extract
import Verif.Spec.Reach
import Verif.Lemmas.Ast
import Verif.Lemmas.Basic

namespace Verif

theorem Ty.iterRefs_eq {Ref ε : Type} {debug : Bool} {t : Ty Ref} (h : t.WF)
    (hd : debug = true → t.refs.length < 255) :
    (t.iterRefs debug : Out ε (List Ref)) = .ok t.refs := by
  have hl := Ty.refs_length_le h
  have h2 : ∃ l : List (Ref × Option Ty.ItemCase),
      Ty.collectIter (Ty.iterNext debug) 257 (Ty.iterStart t) = .ok l ∧
      l.map Prod.fst = t.refs := by
    by_cases ht : ∃ fs, t = .tuple fs
    · obtain ⟨fs, rfl⟩ := ht
      refine ⟨fs.map fun r => (r, none), ?_, by simp [Ty.refs, Function.comp_def]⟩
      have := collectIter_list (Ty.iterNext debug) (.tuple fs) (fs.map fun r => (r, none)) debug
        (fun pos => by
          simp only [Ty.iterNext, Ty.tyAt_eq, Ty.refs, List.getElem?_map]
          cases hg : fs[pos.toNat]? with
          | none => simp
          | some a =>
            have hlt := (List.getElem?_eq_some_iff.mp hg).1
            have hc : (Ty.tuple fs).caseAt pos = none := by
              simp only [Ty.caseAt]
              rw [if_neg]
              intro e
              have := congrArg BitVec.toNat e
              simp only [BitVec.toNat_ofNat] at this
              have h3 : fs.length ≤ 255 := h.2
              omega
            simp [hc])
        (by simpa [Ty.refs] using hl) (by simpa [Ty.refs] using hd) 0 (by omega) 257 (by simp [Ty.refs] at hl ⊢; omega)
      exact this
    · have ht' : ∀ fs, t ≠ .tuple fs := fun fs e => ht ⟨fs, e⟩
      have hli : t.items.length = t.refs.length := by rw [← Ty.items_map_fst]; simp
      refine ⟨t.items.map fun p => (p.1, some p.2), ?_, ?_⟩
      · have := collectIter_list (Ty.iterNext debug) t (t.items.map fun p => (p.1, some p.2)) debug
          (fun pos => by
            simp only [Ty.iterNext, Ty.tyAt_eq, Ty.caseAt_eq t pos ht', ← Ty.items_map_fst,
              List.getElem?_map]
            cases t.items[pos.toNat]? <;> simp)
          (by simp only [List.length_map, hli]; exact hl)
          (by simp only [List.length_map, hli]; exact hd) 0 (by omega) 257
          (by simp only [List.length_map, hli]; omega)
        exact this
      · rw [List.map_map, ← Ty.items_map_fst]; rfl
  obtain ⟨l, h3, h4⟩ := h2
  simp [Ty.iterRefs, h3, h4]

theorem collectIter_list_panic {α γ : Type}
    (next : Ty.IterState α → Out Unit (Option γ × Ty.IterState α))
    (t : Ty α) (l : List γ)
    (hnext : ∀ pos, next ⟨t, pos⟩ = (Ty.incPos true pos >>= fun p => pure (l[pos.toNat]?, ⟨t, p⟩)))
    (hl : l.length = 255)
    (k : Nat) (hk : k ≤ 255) (fuel : Nat) (hf : 255 - k < fuel) :
    Ty.collectIter next fuel ⟨t, BitVec.ofNat 8 k⟩ = .panic := by
  induction fuel generalizing k with
  | zero => omega
  | succ fuel ih =>
    have hk' : (BitVec.ofNat 8 k).toNat = k := by simp; omega
    unfold Ty.collectIter
    rw [hnext, hk']
    rcases Nat.lt_or_ge k 255 with h | h
    · have hinc : Ty.incPos true (BitVec.ofNat 8 k) = .ok (BitVec.ofNat 8 (k + 1)) := by
        have h1 : BitVec.ofNat 8 k + 1 = BitVec.ofNat 8 (k + 1) := by
          apply BitVec.eq_of_toNat_eq; simp
        unfold Ty.incPos
        rw [h1, if_neg]
        intro h
        simp only [Bool.and_eq_true, beq_iff_eq] at h
        have h2 := congrArg BitVec.toNat h.2
        have h3 : (255 : Byte).toNat = 255 := rfl
        rw [hk', h3] at h2
        omega
      rw [hinc, List.getElem?_eq_getElem (by omega)]
      simp only [Out.bind_ok, Out.pure_eq]
      rw [ih (k + 1) (by omega) (by omega)]
      rfl
    · have : k = 255 := by omega
      subst this
      rfl

theorem Ty.iterRefs_panic {Ref ε : Type} {t : Ty Ref} (h : t.WF) (hl : t.refs.length = 255) :
    (t.iterRefs true : Out ε (List Ref)) = .panic := by
  have h2 : Ty.collectIter (Ty.iterNext true) 257 (Ty.iterStart t) = .panic := by
    by_cases ht : ∃ fs, t = .tuple fs
    · obtain ⟨fs, rfl⟩ := ht
      exact collectIter_list_panic (Ty.iterNext true) (.tuple fs) (fs.map fun r => (r, none))
        (fun pos => by
          simp only [Ty.iterNext, Ty.tyAt_eq, Ty.refs, List.getElem?_map]
          cases hg : fs[pos.toNat]? with
          | none => simp
          | some a =>
            have hlt := (List.getElem?_eq_some_iff.mp hg).1
            have hc : (Ty.tuple fs).caseAt pos = none := by
              simp only [Ty.caseAt]
              rw [if_neg]
              intro e
              have := congrArg BitVec.toNat e
              simp only [BitVec.toNat_ofNat] at this
              have h3 : fs.length ≤ 255 := h.2
              omega
            simp [hc])
        (by simpa [Ty.refs] using hl) 0 (by omega) 257 (by omega)
    · have ht' : ∀ fs, t ≠ .tuple fs := fun fs e => ht ⟨fs, e⟩
      have hli : t.items.length = t.refs.length := by rw [← Ty.items_map_fst]; simp
      exact collectIter_list_panic (Ty.iterNext true) t (t.items.map fun p => (p.1, some p.2))
        (fun pos => by
          simp only [Ty.iterNext, Ty.tyAt_eq, Ty.caseAt_eq t pos ht', ← Ty.items_map_fst,
            List.getElem?_map]
          cases t.items[pos.toNat]? <;> simp)
        (by simp only [List.length_map, hli]; exact hl) 0 (by omega) 257 (by omega)
  simp [Ty.iterRefs, h2]

/-- Number of defined types not yet found. -/
def todo (sys : TypeSystem) (found : OSet SemId) : Nat :=
  (sys.filter fun p => !found.contains p.1).length

theorem todo_insert {sys : TypeSystem} {found : OSet SemId} {id : SemId} {t : Ty SemId}
    (h : sys.get id = some t) (hn : id ∉ found) : todo sys (OSet.insert found id) < todo sys found := by
  have hm := OMap.get_mem h
  unfold todo
  clear h
  have hle : ∀ l : TypeSystem, (l.filter fun p => !(OSet.insert found id).contains p.1).length ≤
      (l.filter fun p => !found.contains p.1).length := by
    intro l
    induction l with
    | nil => simp
    | cons p l ih =>
      simp only [List.filter_cons]
      by_cases h1 : p.1 ∈ found
      · have h2 : p.1 ∈ OSet.insert found id := OSet.mem_insert.mpr (Or.inr h1)
        simpa [h1, h2] using ih
      · by_cases h2 : p.1 ∈ OSet.insert found id
        · simp only [List.contains_iff_mem.mpr h2, Bool.not_true, Bool.false_eq_true, if_false]
          simp [h1] at ih ⊢
          omega
        · simpa [h1, h2] using ih
  induction sys with
  | nil => simp at hm
  | cons p l ih =>
    simp only [List.filter_cons]
    rcases List.mem_cons.mp hm with e | hm'
    · subst e
      have h2 : id ∈ OSet.insert found id := OSet.mem_insert.mpr (Or.inl rfl)
      have := hle l
      simp [hn, h2] at this ⊢
      omega
    · have ih := ih hm'
      by_cases h1 : p.1 ∈ found
      · have h2 : p.1 ∈ OSet.insert found id := OSet.mem_insert.mpr (Or.inr h1)
        simpa [h1, h2] using ih
      · by_cases h2 : p.1 ∈ OSet.insert found id
        · simp [h1, h2] at ih ⊢
          omega
        · simpa [h1, h2] using ih

/-- State of the extraction loop. -/
structure ExtractInv (debug : Bool) (sys : TypeSystem) (roots : SemId → Prop) (ids found : OSet SemId)
    (ex : TypeSystem) : Prop where
  idsReach : ∀ id ∈ ids, Reach sys roots id
  foundReach : ∀ id ∈ found, Reach sys roots id
  idsSorted : OSet.Sorted ids
  disjoint : ∀ id ∈ ids, id ∉ found
  roots : ∀ id, roots id → id ∈ ids ∨ id ∈ found
  closed : ∀ id ∈ found, ∃ t, sys.get id = some t ∧ ∀ r ∈ t.refs, r ∈ ids ∨ r ∈ found
  exGet : ∀ id, ex.get id = if id ∈ found then sys.get id else none
  exSorted : ex.Sorted
  exIter : ex.Iterable debug

theorem extractLoop_spec {debug : Bool} {sys : TypeSystem} {roots : SemId → Prop}
    (hi : sys.TypesWF) {fuel : Nat} {ids found : OSet SemId} {ex : TypeSystem}
    (inv : ExtractInv debug sys roots ids found ex) (hf : todo sys found < fuel) :
    (∃ out, extractLoop debug sys fuel ids found ex = .ok out ∧ out.Sorted ∧
      (∀ id, Reach sys roots id → ∃ t, sys.get id = some t ∧ out.get id = some t) ∧
      (∀ id t, out.get id = some t → Reach sys roots id ∧ sys.get id = some t) ∧
      out.Iterable debug) ∨
    (∃ id, extractLoop debug sys fuel ids found ex = .err id ∧ Reach sys roots id ∧
      sys.get id = none) ∨
    (extractLoop debug sys fuel ids found ex = .panic ∧ debug = true ∧
      ∃ id t, Reach sys roots id ∧ sys.get id = some t ∧ t.refs.length = 255) := by
  induction fuel generalizing ids found ex with
  | zero => omega
  | succ fuel ih =>
    cases ids with
    | nil =>
      refine Or.inl ⟨ex, rfl, inv.exSorted, ?_, ?_, inv.exIter⟩
      · have hall : ∀ id, Reach sys roots id → id ∈ found := by
          intro id h
          induction h with
          | root h => simpa using inv.roots _ h
          | step _ hg hr ih =>
            obtain ⟨t', ht', hc⟩ := inv.closed _ ih
            rw [hg] at ht'
            cases ht'
            simpa using hc _ hr
        intro id h
        have hm := hall id h
        obtain ⟨t, ht, -⟩ := inv.closed id hm
        exact ⟨t, ht, by rw [inv.exGet, if_pos hm, ht]⟩
      · intro id t h
        rw [inv.exGet] at h
        split at h
        · rename_i hm
          exact ⟨inv.foundReach id hm, h⟩
        · cases h
    | cons id ids =>
      unfold extractLoop
      cases hg : sys.get id with
      | none => exact Or.inr (Or.inl ⟨id, rfl, inv.idsReach id (by simp), hg⟩)
      | some t =>
        have hwt : t.WF := hi id t hg
        by_cases hfull : debug = true ∧ t.refs.length = 255
        · obtain ⟨rfl, hl⟩ := hfull
          refine Or.inr (Or.inr ⟨?_, rfl, id, t, inv.idsReach id (by simp), hg, hl⟩)
          simp [Ty.iterRefs_panic hwt hl]
        have hdt : debug = true → t.refs.length < 255 := fun hd => by
          have := Ty.refs_length_le hwt
          have : t.refs.length ≠ 255 := fun e => hfull ⟨hd, e⟩
          omega
        simp only [Ty.iterRefs_eq hwt hdt, Out.bind_ok]
        have hnf : id ∉ found := inv.disjoint id (by simp)
        have hids : ∀ j ∈ ids, j ≠ id := by
          intro j hj e
          have := OSet.nodup_of_sorted inv.idsSorted
          rw [List.nodup_cons] at this
          exact this.1 (e ▸ hj)
        apply ih
        · refine ⟨?_, ?_, ?_, ?_, ?_, ?_, ?_, ?_, ?_⟩
          · intro j hj
            rcases OSet.mem_extend.mp hj with hj | hj
            · exact inv.idsReach j (by simp [hj])
            · exact .step (inv.idsReach id (by simp)) hg (List.mem_filter.mp hj).1
          · intro j hj
            rcases OSet.mem_insert.mp hj with rfl | hj
            · exact inv.idsReach _ (by simp)
            · exact inv.foundReach j hj
          · exact OSet.sorted_extend (List.Pairwise.of_cons inv.idsSorted) _
          · intro j hj hm
            rcases OSet.mem_extend.mp hj with hj' | hj'
            · rcases OSet.mem_insert.mp hm with e | hm
              · exact hids _ hj' e
              · exact inv.disjoint j (by simp [hj']) hm
            · have := (List.mem_filter.mp hj').2
              simp [hm] at this
          · intro j hj
            rcases inv.roots j hj with h | h
            · rcases List.mem_cons.mp h with rfl | h
              · exact Or.inr (OSet.mem_insert.mpr (Or.inl rfl))
              · exact Or.inl (OSet.mem_extend.mpr (Or.inl h))
            · exact Or.inr (OSet.mem_insert.mpr (Or.inr h))
          · intro j hj
            rcases OSet.mem_insert.mp hj with rfl | hj
            · refine ⟨t, hg, fun r hr => ?_⟩
              by_cases hrf : r ∈ OSet.insert found j
              · exact Or.inr hrf
              · exact Or.inl (OSet.mem_extend.mpr (Or.inr (List.mem_filter.mpr ⟨hr, by simp [hrf]⟩)))
            · obtain ⟨u, hu, hc⟩ := inv.closed j hj
              refine ⟨u, hu, fun r hr => ?_⟩
              rcases hc r hr with h | h
              · rcases List.mem_cons.mp h with rfl | h
                · exact Or.inr (OSet.mem_insert.mpr (Or.inl rfl))
                · exact Or.inl (OSet.mem_extend.mpr (Or.inl h))
              · exact Or.inr (OSet.mem_insert.mpr (Or.inr h))
          · intro j
            rw [OMap.get_insert, inv.exGet]
            by_cases e : id = j
            · subst e
              rw [if_pos rfl, if_pos (OSet.mem_insert.mpr (Or.inl rfl)), hg]
            · rw [if_neg e]
              by_cases hj : j ∈ found
              · rw [if_pos hj, if_pos (OSet.mem_insert.mpr (Or.inr hj))]
              · rw [if_neg hj, if_neg]
                intro h
                rcases OSet.mem_insert.mp h with h | h
                · exact e h.symm
                · exact hj h
          · exact OMap.sorted_insert inv.exSorted _ _
          · intro j u hu
            rw [OMap.get_insert] at hu
            split at hu
            · cases hu
              exact ⟨hwt, hdt⟩
            · exact inv.exIter j u hu
        · have := todo_insert hg hnf
          omega

theorem extract_spec {debug : Bool} {sys : TypeSystem} (hi : sys.TypesWF) {fuel : Nat}
    (hf : sys.length < fuel) (ids : List SemId) :
    (∃ out, extract debug fuel sys ids = .ok out ∧ out.Sorted ∧
      (∀ id, Reach sys (· ∈ ids) id → ∃ t, sys.get id = some t ∧ out.get id = some t) ∧
      (∀ id t, out.get id = some t → Reach sys (· ∈ ids) id ∧ sys.get id = some t) ∧
      out.Iterable debug) ∨
    (∃ id, extract debug fuel sys ids = .err id ∧ Reach sys (· ∈ ids) id ∧ sys.get id = none) ∨
    (extract debug fuel sys ids = .panic ∧ debug = true ∧
      ∃ id t, Reach sys (· ∈ ids) id ∧ sys.get id = some t ∧ t.refs.length = 255) := by
  apply extractLoop_spec hi
  · refine ⟨?_, by simp, OSet.sorted_extend List.Pairwise.nil ids, by simp, ?_, by simp, by simp,
      List.Pairwise.nil, by intro j u hu; cases hu⟩
    · intro id h
      exact .root (by simpa [OSet.mem_extend] using h)
    · intro id h
      exact Or.inl (OSet.mem_extend.mpr (Or.inr h))
  · have : todo sys [] ≤ sys.length := List.length_filter_le _ _
    omega

theorem Reach.mono {sys : TypeSystem} {p q : SemId → Prop} (h : ∀ id, p id → Reach sys q id)
    {id : SemId} (hr : Reach sys p id) : Reach sys q id := by
  induction hr with
  | root h' => exact h _ h'
  | step _ hg hm ih => exact .step ih hg hm

end Verif
