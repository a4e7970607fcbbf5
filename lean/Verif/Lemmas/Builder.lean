import Verif.Lemmas.Symbolic

/-! Helper lemmas about `LibBuilder::compile_symbols`. -/

namespace Verif

theorem hmGet_none {K V : Type} [DecidableEq K] {m : List (K × V)} {k : K} :
    hmGet m k = none ↔ ∀ p ∈ m, p.1 ≠ k := by
  simp [hmGet, List.find?_eq_none]

theorem hmGet_mem {K V : Type} [DecidableEq K] {m : List (K × V)} {k : K} {v : V}
    (h : hmGet m k = some v) : (k, v) ∈ m := by
  unfold hmGet at h
  obtain ⟨p, hp, rfl⟩ := Option.map_eq_some_iff.mp h
  have h1 := List.mem_of_find?_eq_some hp
  have h2 := List.find?_some hp
  simp only [decide_eq_true_eq] at h2
  rw [← h2]; exact h1

theorem hmGet_of_mem {K V : Type} [DecidableEq K] {m : List (K × V)} (hn : (m.map Prod.fst).Nodup)
    {k : K} {v : V} (h : (k, v) ∈ m) : hmGet m k = some v := by
  induction m with
  | nil => cases h
  | cons p m ih =>
    simp only [List.map_cons, List.nodup_cons] at hn
    rcases List.mem_cons.mp h with e | h
    · subst e; simp [hmGet]
    · have : p.1 ≠ k := by
        intro e
        exact hn.1 (List.mem_map.mpr ⟨_, h, e.symm⟩)
      have ih := ih hn.2 h
      simpa [hmGet, List.find?_cons, this] using ih

/-- Outcome of the check of direct references. -/
theorem checkNames_spec (types : List (Name × Ty TranspileRef))
    (l : List (Name × Ty TranspileRef)) :
    (checkNames types l = .ok () ∧
      ∀ p ∈ l, ∀ n, TranspileRef.named n ∈ p.2.refs → (hmGet types n).isSome) ∨
    (∃ n, checkNames types l = .err (.unknownType n) ∧ hmGet types n = none ∧
      ∃ p ∈ l, TranspileRef.named n ∈ p.2.refs) := by
  induction l with
  | nil => exact Or.inl ⟨rfl, by simp⟩
  | cons q l ih =>
    obtain ⟨m, ty⟩ := q
    simp only [checkNames]
    cases hf : ty.refs.find? fun r => match r with
      | .named n => (hmGet types n).isNone
      | _ => false with
    | none =>
      have hnone := List.find?_eq_none.mp hf
      rcases ih with ⟨h1, h2⟩ | ⟨n, h1, h2, p, hp, h3⟩
      · left
        refine ⟨h1, ?_⟩
        intro p hp n hn
        rcases List.mem_cons.mp hp with rfl | hp
        · have := hnone _ hn
          cases h : hmGet types n <;> simp_all
        · exact h2 p hp n hn
      · exact Or.inr ⟨n, h1, h2, p, by simp [hp], h3⟩
    | some r =>
      have hr := List.mem_of_find?_eq_some hf
      have hp := List.find?_some hf
      cases r with
      | named n =>
        right
        refine ⟨n, rfl, ?_, (m, ty), by simp, hr⟩
        cases h : hmGet types n <;> simp_all
      | embedded => simp at hp
      | extern => simp at hp

/-- Outcome of collecting the dependencies of the external libraries. -/
theorem builderDeps_spec (known : List (Dependency × Option (List SemId))) (libs : List Name)
    (hn : libs.Nodup) (he : ∀ lib ∈ libs, lib ≠ LIB_EMBEDDED) (used : List (Name × Dependency))
    (hu : ∀ p ∈ used, p.1 ∉ libs) :
    (∃ new, builderDeps known libs used = .ok (used ++ new) ∧ new.map Prod.fst = libs ∧
      ∀ p ∈ new, (known.map Prod.fst).find? (fun d => d.name = p.1) = some p.2) ∨
    (∃ lib ∈ libs, builderDeps known libs used = .err (.unknownLib lib) ∧
      ∀ d ∈ known, d.1.name ≠ lib) := by
  induction libs generalizing used with
  | nil => exact Or.inl ⟨[], by simp [builderDeps], rfl, by simp⟩
  | cons lib libs ih =>
    simp only [List.nodup_cons] at hn
    simp only [builderDeps, if_neg (he lib (by simp))]
    cases hf : (known.map Prod.fst).find? fun d => d.name = lib with
    | none =>
      right
      refine ⟨lib, by simp, ?_, ?_⟩
      · have : hmGet used lib = none := hmGet_none.mpr fun p hp e => hu p hp (by simp [e])
        simp [this]
      · intro d hd h
        have := List.find?_eq_none.mp hf d.1 (List.mem_map_of_mem hd)
        simp [h] at this
    | some dep =>
      have hu' : ∀ p ∈ used ++ [(lib, dep)], p.1 ∉ libs := by
        intro p hp
        rcases List.mem_append.mp hp with hp | hp
        · exact fun h => hu p hp (by simp [h])
        · simp only [List.mem_singleton] at hp
          subst hp; exact hn.1
      rcases ih hn.2 (fun l hl => he l (by simp [hl])) _ hu' with ⟨new, h1, h2, h3⟩ | ⟨l, hl, h1, h2⟩
      · left
        refine ⟨(lib, dep) :: new, by simp [h1], by simp [h2], ?_⟩
        intro p hp
        rcases List.mem_cons.mp hp with rfl | hp
        · exact hf
        · exact h3 p hp
      · exact Or.inr ⟨l, by simp [hl], h1, h2⟩

/-- Outcome of the check of the types of one library. -/
theorem checkExtern_spec {b : LibBuilder} {used : List (Name × Dependency)} {lib : Name}
    {provided : Option (List SemId)} (hp : (hmGet used lib).bind b.knownGet = some provided)
    (l : List (SemId × Name)) :
    (checkExtern b used lib l = .ok () ∧ ∀ q ∈ l, ∀ ids, provided = some ids → q.1 ∈ ids) ∨
    (∃ q ∈ l, ∃ ids, provided = some ids ∧ q.1 ∉ ids ∧
      checkExtern b used lib l = .err (.dependencyMissesType lib q.1 q.2)) := by
  induction l with
  | nil => exact Or.inl ⟨rfl, by simp⟩
  | cons q l ih =>
    obtain ⟨id, name⟩ := q
    simp only [checkExtern, hp, Out.expect, Out.bind_ok]
    cases provided with
    | none =>
      rcases ih with ⟨h1, -⟩ | ⟨q, -, ids, h, -⟩
      · exact Or.inl ⟨h1, by simp⟩
      · cases h
    | some ids =>
      by_cases hin : id ∈ ids
      · simp only [List.contains_iff_mem.mpr hin, if_true]
        rcases ih with ⟨h1, h2⟩ | ⟨q, hq, ids, h1, h2, h3⟩
        · left
          refine ⟨h1, ?_⟩
          intro q hq ids' e
          rcases List.mem_cons.mp hq with rfl | hq
          · cases e; exact hin
          · exact h2 q hq ids' e
        · exact Or.inr ⟨q, by simp [hq], ids, h1, h2, h3⟩
      · right
        refine ⟨(id, name), by simp, ids, rfl, hin, ?_⟩
        simp [hin]

/-- Outcome of the loop over all external libraries. -/
theorem checkExterns_spec {b : LibBuilder} {used : List (Name × Dependency)}
    {prov : Name → Option (List SemId)} (l : List (Name × OMap SemId Name))
    (hp : ∀ p ∈ l, (hmGet used p.1).bind b.knownGet = some (prov p.1)) (acc : ExternTypes) :
    (checkExterns b used l acc = .ok (l.foldl (fun m p => OMap.insert m p.1 p.2) acc) ∧
      ∀ p ∈ l, p.2.length ≤ 65535 ∧ ∀ q ∈ p.2, ∀ ids, prov p.1 = some ids → q.1 ∈ ids) ∨
    (∃ p ∈ l, ∃ q ∈ p.2, ∃ ids, prov p.1 = some ids ∧ q.1 ∉ ids ∧
      checkExterns b used l acc = .err (.dependencyMissesType p.1 q.1 q.2)) ∨
    (∃ p ∈ l, 65535 < p.2.length ∧ checkExterns b used l acc = .err (.libTooLarge p.1)) := by
  induction l generalizing acc with
  | nil => exact Or.inl ⟨rfl, by simp⟩
  | cons p l ih =>
    obtain ⟨lib, types⟩ := p
    simp only [checkExterns]
    rcases checkExtern_spec (hp (lib, types) (by simp)) types with ⟨h1, h2⟩ | ⟨q, hq, ids, h1, h2, h3⟩
    · simp only [h1, Out.bind_ok]
      by_cases hlen : types.length ≤ 65535
      · rw [if_pos hlen]
        rcases ih (fun p hp' => hp p (by simp [hp'])) (OMap.insert acc lib types) with
          ⟨h3, h4⟩ | ⟨p, hp', q, hq, ids, h3⟩ | ⟨p, hp', h3⟩
        · left
          refine ⟨h3, ?_⟩
          intro p hp'
          rcases List.mem_cons.mp hp' with rfl | hp'
          · exact ⟨hlen, h2⟩
          · exact h4 p hp'
        · exact Or.inr (Or.inl ⟨p, by simp [hp'], q, hq, ids, h3⟩)
        · exact Or.inr (Or.inr ⟨p, by simp [hp'], h3⟩)
      · rw [if_neg hlen]
        exact Or.inr (Or.inr ⟨(lib, types), by simp, by simp; omega, rfl⟩)
    · right; left
      refine ⟨(lib, types), by simp, q, hq, ids, h1, h2, ?_⟩
      rw [h3]; rfl

/-- A dependency found by name has an entry in the table of known libraries. -/
theorem knownGet_of_find {b : LibBuilder} (hk : (b.knownLibs.map fun p => p.1.id).Nodup)
    {lib : Name} {d : Dependency}
    (h : (b.knownLibs.map Prod.fst).find? (fun d => d.name = lib) = some d) :
    ∃ v, b.knownGet d = some v ∧ (d, v) ∈ b.knownLibs ∧ d.name = lib := by
  obtain ⟨hd, hn⟩ := find_name h
  obtain ⟨⟨d', v⟩, hp, e⟩ := List.mem_map.mp hd
  cases e
  refine ⟨v, ?_, hp, hn⟩
  clear h hn hd
  unfold LibBuilder.knownGet
  revert hk hp
  generalize b.knownLibs = K
  intro hk hp
  induction K with
  | nil => cases hp
  | cons q K ih =>
    simp only [List.map_cons, List.nodup_cons] at hk
    rcases List.mem_cons.mp hp with e | hp
    · subst e; simp
    · have : q.1.id ≠ d'.id := by
        intro e
        exact hk.1 (List.mem_map.mpr ⟨_, hp, e.symm⟩)
      simpa [List.find?_cons, this] using ih hk.2 hp

/-- All outcomes of `compile_symbols`. -/
theorem compileSymbols_cases (b : LibBuilder) (hw : b.WF) (hne : b.types ≠ []) :
    (∃ n, b.compileSymbols = .err (.unknownType n) ∧ (∀ t, (n, t) ∉ b.types) ∧
      ∃ p ∈ b.types, TranspileRef.named n ∈ p.2.refs) ∨
    (b.DirectlyDefined ∧ ∃ lib m, (lib, m) ∈ b.externTypes ∧
      b.compileSymbols = .err (.unknownLib lib) ∧ ∀ d ∈ b.knownLibs, d.1.name ≠ lib) ∨
    (b.DirectlyDefined ∧ ∃ dep : Name → Dependency, ∃ prov : Name → Option (List SemId),
      (∀ p ∈ b.externTypes, (dep p.1, prov p.1) ∈ b.knownLibs ∧ (dep p.1).name = p.1) ∧
      ((∃ lib m id name ids, (lib, m) ∈ b.externTypes ∧ (id, name) ∈ m ∧ prov lib = some ids ∧
          id ∉ ids ∧ b.compileSymbols = .err (.dependencyMissesType lib id name)) ∨
       (∃ lib m, (lib, m) ∈ b.externTypes ∧ 65535 < m.length ∧
          b.compileSymbols = .err (.libTooLarge lib)) ∨
       (∀ p ∈ b.externTypes, p.2.length ≤ 65535 ∧
          ∀ q ∈ p.2, ∀ ids, prov p.1 = some ids → q.1 ∈ ids) ∧
        ((b.compileSymbols = .err .tooManyDependencies ∧ 255 < b.externTypes.length) ∨
         (b.compileSymbols = .ok ⟨b.libName,
            (b.externTypes.map fun p => dep p.1).foldl depInsert [],
            OMap.ofPairs b.externTypes, OMap.ofPairs b.types⟩ ∧
          b.externTypes.length ≤ 255)))) := by
  have hne' : b.types.isEmpty = false := by
    cases h : b.types with
    | nil => exact absurd h hne
    | cons => rfl
  unfold LibBuilder.compileSymbols
  rw [hne']
  simp only [Bool.false_eq_true, if_false]
  rcases checkNames_spec b.types b.types with ⟨h1, h2⟩ | ⟨n, h1, h2, p, hp, h3⟩
  rotate_left
  · left
    refine ⟨n, by rw [h1]; rfl, fun t ht => hmGet_none.mp h2 _ ht rfl, p, hp, h3⟩
  right
  have hdef : b.DirectlyDefined := by
    intro p hp n hn
    obtain ⟨t, ht⟩ := Option.isSome_iff_exists.mp (h2 p hp n hn)
    exact ⟨t, hmGet_mem ht⟩
  rw [h1]
  simp only [Out.bind_ok]
  rcases builderDeps_spec b.knownLibs (b.externTypes.map Prod.fst) hw.externs (by
      intro lib hl
      obtain ⟨p, hp, rfl⟩ := List.mem_map.mp hl
      exact hw.noEmbedded p hp) [] (by simp) with ⟨used, h3, h4, h5⟩ | ⟨lib, hl, h3, h4⟩
  rotate_left
  · left
    obtain ⟨p, hp, rfl⟩ := List.mem_map.mp hl
    exact ⟨hdef, p.1, p.2, hp, by rw [h3]; rfl, h4⟩
  right
  refine ⟨hdef, ?_⟩
  rw [h3]
  simp only [Out.bind_ok, List.nil_append]
  have hund : (used.map Prod.fst).Nodup := by rw [h4]; exact hw.externs
  have hget : ∀ p ∈ b.externTypes, ∃ d v, hmGet used p.1 = some d ∧ b.knownGet d = some v ∧
      (d, v) ∈ b.knownLibs ∧ d.name = p.1 := by
    intro p hp
    have : p.1 ∈ used.map Prod.fst := by rw [h4]; exact List.mem_map_of_mem hp
    obtain ⟨q, hq, e⟩ := List.mem_map.mp this
    obtain ⟨v, hv, hm, hn⟩ := knownGet_of_find hw.known (h5 q hq)
    refine ⟨q.2, v, ?_, hv, hm, by rw [hn, e]⟩
    rw [← e]
    exact hmGet_of_mem hund hq
  let dep : Name → Dependency := fun n => (hmGet used n).getD ⟨Id32.rep 0, n⟩
  let prov : Name → Option (List SemId) := fun n => ((hmGet used n).bind b.knownGet).getD none
  refine ⟨dep, prov, ?_, ?_⟩
  · intro p hp
    obtain ⟨d, v, a1, a2, a3, a4⟩ := hget p hp
    simp only [dep, prov, a1, Option.getD_some, Option.bind_some, a2]
    exact ⟨a3, a4⟩
  have hprov : ∀ p ∈ b.externTypes, (hmGet used p.1).bind b.knownGet = some (prov p.1) := by
    intro p hp
    obtain ⟨d, v, a1, a2, a3, a4⟩ := hget p hp
    simp only [prov, a1, Option.bind_some, a2, Option.getD_some]
  have hdeps : used.map Prod.snd = b.externTypes.map fun p => dep p.1 := by
    have e : used.map Prod.snd = (used.map Prod.fst).map dep := by
      rw [List.map_map]
      apply List.map_congr_left
      intro q hq
      simp only [Function.comp, dep, hmGet_of_mem hund hq, Option.getD_some]
    rw [e, h4, List.map_map]
    rfl
  have hlenE : ∀ (ps : ExternTypes) (acc : ExternTypes), (ps.map Prod.fst).Nodup →
      (∀ p ∈ ps, OMap.get acc p.1 = none) →
      (ps.foldl (fun m p => OMap.insert m p.1 p.2) acc).length = acc.length + ps.length := by
    intro ps
    induction ps with
    | nil => simp
    | cons p ps ih =>
      intro acc hn ha
      simp only [List.map_cons, List.nodup_cons] at hn
      rw [List.foldl_cons, ih]
      · have : (OMap.insert acc p.1 p.2).length = acc.length + 1 := by
          have hp := ha p (by simp)
          clear ih ha hn
          induction acc with
          | nil => rfl
          | cons q acc ih =>
            simp only [OMap.get] at hp
            simp only [OMap.insert]
            split
            · simp
            · split
              · rename_i h; rw [if_pos h.symm] at hp; cases hp
              · rw [List.length_cons, ih (by
                  rw [if_neg (fun e => by rename_i h; exact h e.symm)] at hp; exact hp)]
                simp
        rw [this, List.length_cons]; omega
      · exact hn.2
      · intro q hq
        rw [OMap.get_insert, if_neg, ha q (by simp [hq])]
        intro e
        exact hn.1 (List.mem_map.mpr ⟨q, hq, e.symm⟩)
  rcases checkExterns_spec b.externTypes hprov [] with ⟨h6, h7⟩ | ⟨p, hp, q, hq, ids, a1, a2, h6⟩ |
      ⟨p, hp, hl, h6⟩
  · right; right
    refine ⟨h7, ?_⟩
    have hel := hlenE b.externTypes [] hw.externs (by simp)
    simp only [List.length_nil, Nat.zero_add] at hel
    rw [h6]
    simp only [Out.bind_ok, hel]
    by_cases hlen : 255 < b.externTypes.length
    · left
      rw [if_pos hlen]
      exact ⟨rfl, hlen⟩
    · right
      rw [if_neg hlen, hdeps]
      have hdl : ∀ (ds acc : List Dependency), (ds.foldl depInsert acc).length ≤
          acc.length + ds.length := by
        intro ds
        induction ds with
        | nil => simp
        | cons d ds ih =>
          intro acc
          rw [List.foldl_cons]
          refine Nat.le_trans (ih _) ?_
          have : (depInsert acc d).length ≤ acc.length + 1 := by
            induction acc with
            | nil => simp [depInsert]
            | cons a acc ih =>
              simp only [depInsert]
              split
              · simp
              · split <;> simp; omega
          simp only [List.length_cons]; omega
      have hb := hdl (b.externTypes.map fun p => dep p.1) []
      simp only [List.length_nil, List.length_map] at hb
      rw [if_neg (by omega)]
      exact ⟨rfl, by omega⟩
  · left
    exact ⟨p.1, p.2, q.1, q.2, ids, hp, hq, a1, a2, by rw [h6]; rfl⟩
  · right; left
    exact ⟨p.1, p.2, hp, hl, by rw [h6]; rfl⟩

end Verif
