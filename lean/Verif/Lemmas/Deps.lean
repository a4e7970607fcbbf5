import Verif.Lemmas.Basic
import Verif.Spec.Compile

/-! Helper lemmas about sets of dependencies. -/

namespace Verif

theorem mem_depInsert_sub {s : List Dependency} {d x : Dependency} (h : x ∈ depInsert s d) :
    x = d ∨ x ∈ s := by
  induction s with
  | nil => simpa [depInsert] using h
  | cons e s ih =>
    simp only [depInsert] at h
    split at h
    · simpa using h
    · split at h
      · exact Or.inr h
      · rcases List.mem_cons.mp h with rfl | h
        · simp
        · rcases ih h with h | h <;> simp [h]

theorem mem_depInsert_old {s : List Dependency} {d x : Dependency} (h : x ∈ s) :
    x ∈ depInsert s d := by
  induction s with
  | nil => cases h
  | cons e s ih =>
    simp only [depInsert]
    split
    · simp [h]
    · split
      · exact h
      · rcases List.mem_cons.mp h with rfl | h
        · simp
        · simp [ih h]

/-- The id of the inserted element is present afterwards. -/
theorem depInsert_id (s : List Dependency) (d : Dependency) : ∃ x ∈ depInsert s d, x.id = d.id := by
  induction s with
  | nil => exact ⟨d, by simp [depInsert], rfl⟩
  | cons e s ih =>
    simp only [depInsert]
    split
    · exact ⟨d, by simp, rfl⟩
    · split
      · rename_i h; exact ⟨e, by simp, h.symm⟩
      · obtain ⟨x, hx, h⟩ := ih
        exact ⟨x, by simp [hx], h⟩

/-- An element whose id is new is added. -/
theorem mem_depInsert_new {s : List Dependency} {d : Dependency} (h : ∀ x ∈ s, x.id ≠ d.id) :
    d ∈ depInsert s d := by
  obtain ⟨x, hx, he⟩ := depInsert_id s d
  rcases mem_depInsert_sub hx with rfl | hx
  · exact hx
  · exact absurd he (h x hx)

theorem depsSorted_insert {s : List Dependency} (hs : DepsSorted s) (d : Dependency) :
    DepsSorted (depInsert s d) := by
  induction s with
  | nil => simp [depInsert, DepsSorted]
  | cons e s ih =>
    simp only [depInsert]
    unfold DepsSorted at hs ⊢
    obtain ⟨h1, h2⟩ := List.pairwise_cons.mp hs
    split
    · rename_i hlt
      refine List.pairwise_cons.mpr ⟨?_, hs⟩
      intro x hx
      rcases List.mem_cons.mp hx with rfl | hx
      · exact hlt
      · exact LawfulKeyOrd.trans _ _ _ hlt (h1 x hx)
    · split
      · exact hs
      · rename_i hlt hne
        refine List.pairwise_cons.mpr ⟨?_, ih h2⟩
        intro x hx
        rcases mem_depInsert_sub hx with rfl | hx
        · exact KeyOrd.lt_of_not_lt_ne hlt hne
        · exact h1 x hx

theorem depsSorted_id_inj {s : List Dependency} (hs : DepsSorted s) {a b : Dependency}
    (ha : a ∈ s) (hb : b ∈ s) (h : a.id = b.id) : a = b := by
  induction s with
  | nil => cases ha
  | cons e s ih =>
    obtain ⟨h1, h2⟩ := List.pairwise_cons.mp hs
    rcases List.mem_cons.mp ha with ea | ha' <;> rcases List.mem_cons.mp hb with eb | hb'
    · rw [ea, eb]
    · subst ea; exact absurd h (KeyOrd.ne_of_lt (h1 b hb'))
    · subst eb; exact absurd h.symm (KeyOrd.ne_of_lt (h1 a ha'))
    · exact ih h2 ha' hb'

/-- With respect to a sorted set the inserted elements come from, membership after insertion. -/
theorem mem_depInsert {s D : List Dependency} (hD : DepsSorted D) (hs : ∀ x ∈ s, x ∈ D)
    {d x : Dependency} (hd : d ∈ D) : x ∈ depInsert s d ↔ x = d ∨ x ∈ s := by
  refine ⟨mem_depInsert_sub, ?_⟩
  rintro (rfl | h)
  · obtain ⟨y, hy, he⟩ := depInsert_id s x
    rcases mem_depInsert_sub hy with rfl | hy'
    · exact hy
    · have := depsSorted_id_inj hD (hs y hy') hd he
      subst this
      exact hy
  · exact mem_depInsert_old h

theorem depsSorted_ext {s t : List Dependency} (hs : DepsSorted s) (ht : DepsSorted t)
    (h : ∀ x, x ∈ s ↔ x ∈ t) : s = t := by
  induction s generalizing t with
  | nil =>
    cases t with
    | nil => rfl
    | cons b t => have := (h b).mpr (by simp); cases this
  | cons a s ih =>
    cases t with
    | nil => have := (h a).mp (by simp); cases this
    | cons b t =>
      obtain ⟨h1, h2⟩ := List.pairwise_cons.mp hs
      obtain ⟨h3, h4⟩ := List.pairwise_cons.mp ht
      have hab : a = b := by
        rcases List.mem_cons.mp ((h a).mp (by simp)) with e | ha
        · exact e
        · rcases List.mem_cons.mp ((h b).mpr (by simp)) with e | hb
          · exact e.symm
          · have := KeyOrd.asymm (h1 b hb)
            rw [h3 a ha] at this
            cases this
      subst hab
      congr 1
      apply ih h2 h4
      intro x
      constructor
      · intro hx
        rcases List.mem_cons.mp ((h x).mp (by simp [hx])) with rfl | hx'
        · exact absurd rfl (KeyOrd.ne_of_lt (h1 _ hx))
        · exact hx'
      · intro hx
        rcases List.mem_cons.mp ((h x).mpr (by simp [hx])) with rfl | hx'
        · exact absurd rfl (KeyOrd.ne_of_lt (h3 _ hx))
        · exact hx'

theorem find_name {deps : List Dependency} {lib : Name} {d : Dependency}
    (h : deps.find? (fun d => d.name = lib) = some d) : d ∈ deps ∧ d.name = lib :=
  ⟨List.mem_of_find?_eq_some h, by simpa using List.find?_some h⟩

/-- Outcome of collecting the used dependencies. -/
theorem usedDeps_spec {D : List Dependency} (hD : DepsSorted D) (libs : List Name)
    {used : List Dependency} (hu : ∀ x ∈ used, x ∈ D) (hs : DepsSorted used) :
    (∃ used', usedDeps D libs used = .ok used' ∧ DepsSorted used' ∧ (∀ x ∈ used', x ∈ D) ∧
      (∀ lib ∈ libs, lib ≠ LIB_EMBEDDED → ∃ d ∈ D, d.name = lib) ∧
      ∀ x, x ∈ used' ↔ x ∈ used ∨ ∃ lib ∈ libs, lib ≠ LIB_EMBEDDED ∧
        D.find? (fun d => d.name = lib) = some x) ∨
    (∃ lib ∈ libs, lib ≠ LIB_EMBEDDED ∧ (∀ d ∈ D, d.name ≠ lib) ∧
      usedDeps D libs used = .err (.unknownLib lib)) := by
  induction libs generalizing used with
  | nil => exact Or.inl ⟨used, rfl, hs, hu, by simp, by simp⟩
  | cons lib libs ih =>
    simp only [usedDeps]
    by_cases he : lib = LIB_EMBEDDED
    · rw [if_pos he]
      rcases ih hu hs with ⟨u, h1, h2, h3, h4, h5⟩ | ⟨l, hl, h⟩
      · refine Or.inl ⟨u, h1, h2, h3, ?_, ?_⟩
        · intro l hl hne
          rcases List.mem_cons.mp hl with rfl | hl
          · exact absurd he hne
          · exact h4 l hl hne
        · intro x
          rw [h5]
          constructor
          · rintro (h | ⟨l, hl, h⟩)
            · exact Or.inl h
            · exact Or.inr ⟨l, by simp [hl], h⟩
          · rintro (h | ⟨l, hl, h, h'⟩)
            · exact Or.inl h
            · rcases List.mem_cons.mp hl with rfl | hl
              · exact absurd he h
              · exact Or.inr ⟨l, hl, h, h'⟩
      · exact Or.inr ⟨l, by simp [hl], h⟩
    · rw [if_neg he]
      cases hf : D.find? fun d => d.name = lib with
      | none =>
        have hno : ∀ d ∈ D, d.name ≠ lib := by
          intro d hd
          have := List.find?_eq_none.mp hf d hd
          simpa using this
        right
        refine ⟨lib, by simp, he, hno, ?_⟩
        dsimp only
        rw [if_neg]
        simp only [List.any_eq_true, decide_eq_true_eq, not_exists, not_and]
        exact fun x hx => hno x (hu x hx)
      | some dep =>
        obtain ⟨hdep, hname⟩ := find_name hf
        dsimp only
        have hu' : ∀ x ∈ depInsert used dep, x ∈ D := by
          intro x hx
          rcases mem_depInsert_sub hx with rfl | hx
          · exact hdep
          · exact hu x hx
        rcases ih hu' (depsSorted_insert hs dep) with ⟨u, h1, h2, h3, h4, h5⟩ | ⟨l, hl, h⟩
        · refine Or.inl ⟨u, h1, h2, h3, ?_, ?_⟩
          · intro l hl hne
            rcases List.mem_cons.mp hl with rfl | hl
            · exact ⟨dep, hdep, hname⟩
            · exact h4 l hl hne
          · intro x
            rw [h5, mem_depInsert hD hu hdep]
            constructor
            · rintro ((rfl | h) | ⟨l, hl, h⟩)
              · exact Or.inr ⟨lib, by simp, he, hf⟩
              · exact Or.inl h
              · exact Or.inr ⟨l, by simp [hl], h⟩
            · rintro (h | ⟨l, hl, h, h'⟩)
              · exact Or.inl (Or.inr h)
              · rcases List.mem_cons.mp hl with rfl | hl
                · rw [hf] at h'; cases h'; exact Or.inl (Or.inl rfl)
                · exact Or.inr ⟨l, hl, h, h'⟩
        · exact Or.inr ⟨l, by simp [hl], h⟩

end Verif
