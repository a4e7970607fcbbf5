import Verif.Spec.Transpile
import Verif.Lemmas.Builder
import Verif.Lemmas.Commit
import Verif.Lemmas.Fuel

/-! Helper lemmas about building libraries from Rust types. -/

namespace Verif

/-! ## Descriptions -/

theorem forall_mem_two {P : RTy → Prop} {a b : RTy} (h : P a) (h' : P b) : ∀ p ∈ [a, b], P p := by
  intro p hp
  simp only [List.mem_cons, List.not_mem_nil, or_false] at hp
  rcases hp with rfl | rfl
  · exact h
  · exact h'

theorem forall_mem_one {P : RTy → Prop} {a : RTy} (h : P a) : ∀ p ∈ [a], P p := by
  intro p hp
  simp only [List.mem_cons, List.not_mem_nil, or_false] at hp
  subst hp; exact h

theorem forall_mem_next {α : Type} {P : RTy → Prop} {a : α × RTy} {l : List (α × RTy)} (h : P a.2)
    (h' : ∀ p ∈ l.map Prod.snd, P p) : ∀ p ∈ (a :: l).map Prod.snd, P p := by
  intro p hp
  rw [List.map_cons, List.mem_cons] at hp
  rcases hp with rfl | hp
  · exact h
  · exact h' p hp

mutual
theorem RTy.inductAux {P : RTy → Prop} (h : ∀ t : RTy, (∀ p ∈ t.parts, P p) → P t) : ∀ t, P t
  | .prim _ => h _ (fun _ hp => nomatch hp)
  | .unicode _ => h _ (fun _ hp => nomatch hp)
  | .rstring c c1 _ => h _ (forall_mem_two (RTy.inductAux h c1) (RTy.inductAux h c))
  | .array t _ => h _ (forall_mem_one (RTy.inductAux h t))
  | .list t _ => h _ (forall_mem_one (RTy.inductAux h t))
  | .set t _ => h _ (forall_mem_one (RTy.inductAux h t))
  | .map k t _ => h _ (forall_mem_two (RTy.inductAux h k) (RTy.inductAux h t))
  | .record _ _ _ fs => h _ (RTy.inductFields h fs)
  | .enum _ _ _ => h _ (fun _ hp => nomatch hp)
  | .union _ _ vs _ => h _ (RTy.inductVariants h vs)
termination_by structural t => t
theorem RTy.inductFields {P : RTy → Prop} (h : ∀ t : RTy, (∀ p ∈ t.parts, P p) → P t) :
    ∀ fs : List (Option Name × RTy), ∀ p ∈ fs.map Prod.snd, P p
  | [] => fun _ hp => nomatch hp
  | f :: fs => forall_mem_next (RTy.inductField h f) (RTy.inductFields h fs)
termination_by structural t => t
theorem RTy.inductField {P : RTy → Prop} (h : ∀ t : RTy, (∀ p ∈ t.parts, P p) → P t) :
    ∀ f : Option Name × RTy, P f.2
  | (_, t) => RTy.inductAux h t
termination_by structural t => t
theorem RTy.inductVariants {P : RTy → Prop} (h : ∀ t : RTy, (∀ p ∈ t.parts, P p) → P t) :
    ∀ fs : List (Variant × RTy), ∀ p ∈ fs.map Prod.snd, P p
  | [] => fun _ hp => nomatch hp
  | f :: fs => forall_mem_next (RTy.inductVariant h f) (RTy.inductVariants h fs)
termination_by structural t => t
theorem RTy.inductVariant {P : RTy → Prop} (h : ∀ t : RTy, (∀ p ∈ t.parts, P p) → P t) :
    ∀ f : Variant × RTy, P f.2
  | (_, t) => RTy.inductAux h t
termination_by structural t => t
end

/-- Induction over descriptions. -/
theorem RTy.induct {P : RTy → Prop} (h : ∀ t : RTy, (∀ p ∈ t.parts, P p) → P t) (t : RTy) : P t :=
  RTy.inductAux h t

theorem RTy.Contains.trans {a b c : RTy} (h : a.Contains b) (h' : b.Contains c) : a.Contains c := by
  induction h with
  | refl => exact h'
  | step hp _ ih => exact .step hp (ih h')

theorem RTy.contains_iff {t s : RTy} : t.Contains s ↔ s = t ∨ ∃ p ∈ t.parts, p.Contains s := by
  constructor
  · intro h
    cases h with
    | refl => exact .inl rfl
    | step hp h => exact .inr ⟨_, hp, h⟩
  · rintro (rfl | ⟨p, hp, h⟩)
    · exact .refl _
    · exact .step hp h

/-- A set of named types. -/
abbrev Decls := Name → Name → Ty TranspileRef → Prop

/-- What the parts declare. -/
def RTy.partDecls (V : View) (t : RTy) : Decls := fun lib n u => ∃ p ∈ t.parts, p.Declares V lib n u

theorem RTy.declares_iff {V : View} {t : RTy} {lib n : Name} {u : Ty TranspileRef} :
    t.Declares V lib n u ↔ t.partDecls V lib n u ∨ (t.lib = lib ∧ t.name = some n ∧ t.ty V = u) := by
  unfold RTy.Declares RTy.partDecls
  constructor
  · rintro ⟨s, hs, h⟩
    rcases RTy.contains_iff.mp hs with rfl | ⟨p, hp, hs⟩
    · exact .inr h
    · exact .inl ⟨p, hp, s, hs, h⟩
  · rintro (⟨p, hp, s, hs, h⟩ | h)
    · exact ⟨s, .step hp hs, h⟩
    · exact ⟨t, .refl t, h⟩

/-! ## Maps -/

theorem hmGet_insert {K V : Type} [DecidableEq K] (m : List (K × V)) (k : K) (v : V) (j : K) :
    hmGet (hmInsert m k v) j = if k = j then some v else hmGet m j := by
  induction m with
  | nil => by_cases h : k = j <;> simp [hmInsert, hmGet, h]
  | cons p m ih =>
    unfold hmInsert
    by_cases hp : p.1 = k
    · rw [if_pos hp]
      by_cases h : k = j
      · simp [hmGet, h]
      · simp [hmGet, h, hp]
    · rw [if_neg hp]
      by_cases h : k = j
      · subst h
        simp only [if_true] at ih ⊢
        simp only [hmGet, List.find?_cons, hp, decide_false] at ih ⊢
        exact ih
      · simp only [h, if_false] at ih ⊢
        simp only [hmGet, List.find?_cons] at ih ⊢
        split
        · rfl
        · exact ih

/-! ## Equality is reflexive -/

theorem Variant.eqv_refl (v : Variant) : v.eqv v = true := by simp [Variant.eqv]

theorem eqvVariants_refl : ∀ vs, eqvVariants vs vs = true
  | [] => rfl
  | v :: vs => by simp [eqvVariants, Variant.eqv_refl, eqvVariants_refl vs]

mutual
theorem TranspileRef.eqv_refl : ∀ r : TranspileRef, r.eqv r = true
  | .embedded t => by unfold TranspileRef.eqv; exact TranspileRef.eqvTy_refl t
  | .named n => by simp [TranspileRef.eqv]
  | .extern s => by simp [TranspileRef.eqv]
theorem TranspileRef.eqvTy_refl : ∀ t : Ty TranspileRef, TranspileRef.eqvTy t t = true
  | .primitive c => by simp [TranspileRef.eqvTy]
  | .unicodeChar => by simp [TranspileRef.eqvTy]
  | .enum vs => by unfold TranspileRef.eqvTy; exact eqvVariants_refl vs
  | .union vs => by unfold TranspileRef.eqvTy; exact TranspileRef.eqvCases_refl vs
  | .tuple fs => by unfold TranspileRef.eqvTy; exact TranspileRef.eqvRefs_refl fs
  | .struct fs => by unfold TranspileRef.eqvTy; exact TranspileRef.eqvFields_refl fs
  | .array t n => by simp [TranspileRef.eqvTy, TranspileRef.eqv_refl t]
  | .list t s => by simp [TranspileRef.eqvTy, TranspileRef.eqv_refl t]
  | .set t s => by simp [TranspileRef.eqvTy, TranspileRef.eqv_refl t]
  | .map k t s => by simp [TranspileRef.eqvTy, TranspileRef.eqv_refl k, TranspileRef.eqv_refl t]
theorem TranspileRef.eqvRefs_refl : ∀ rs : List TranspileRef, TranspileRef.eqvRefs rs rs = true
  | [] => by simp [TranspileRef.eqvRefs]
  | r :: rs => by simp [TranspileRef.eqvRefs, TranspileRef.eqv_refl r, TranspileRef.eqvRefs_refl rs]
theorem TranspileRef.eqvFields_refl : ∀ rs : List (Name × TranspileRef), TranspileRef.eqvFields rs rs = true
  | [] => by simp [TranspileRef.eqvFields]
  | (n, r) :: rs => by simp [TranspileRef.eqvFields, TranspileRef.eqv_refl r, TranspileRef.eqvFields_refl rs]
theorem TranspileRef.eqvCases_refl : ∀ rs : List (Variant × TranspileRef), TranspileRef.eqvCases rs rs = true
  | [] => by simp [TranspileRef.eqvCases]
  | (v, r) :: rs => by
    simp [TranspileRef.eqvCases, TranspileRef.eqv_refl r, TranspileRef.eqvCases_refl rs, Variant.eqv_refl]
end

/-! ## Contents -/

variable (V : View) (U : RTy → Prop) (K : List (Dependency × Option (List SemId)))

/-- The type is recorded, under its name or with its id. -/
def LibBuilder.Has (b : LibBuilder) (lib n : Name) (u : Ty TranspileRef) : Prop :=
  (lib = V.own → b.HasType n u) ∧ (lib ≠ V.own → b.HasExtern lib n (TranspileRef.semIdNamed V.H u n))

/-- Invariant of the builder, when the types transpiled are those in `U`. -/
structure BuilderInv (b : LibBuilder) : Prop where
  own : b.libName = V.own
  known : b.knownLibs = K
  types : ∀ n ty, b.HasType n ty → ∃ s, U s ∧ s.lib = V.own ∧ s.name = some n ∧ s.ty V = ty ∧
    ∀ lib m u, s.Declares V lib m u → b.Has V lib m u
  externs : ∀ lib n id, b.HasExtern lib n id → ∃ s, U s ∧ s.lib ≠ V.own ∧ s.name = some n ∧
    id = TranspileRef.semIdNamed V.H (s.ty V) n

/-- The builder got the declarations, and nothing else. -/
structure Adds (b b' : LibBuilder) (D : Decls) : Prop where
  types : ∀ n ty, b'.HasType n ty ↔ b.HasType n ty ∨ D V.own n ty
  externs : ∀ lib n id, b'.HasExtern lib n id ↔ b.HasExtern lib n id ∨
    lib ≠ V.own ∧ ∃ ty, D lib n ty ∧ id = TranspileRef.semIdNamed V.H ty n

variable {V U K}

theorem Adds.trans {b b' b'' : LibBuilder} {D D' D'' : Decls} (h : Adds V b b' D) (h' : Adds V b' b'' D')
    (e : ∀ lib n u, D'' lib n u ↔ D lib n u ∨ D' lib n u) : Adds V b b'' D'' := by
  constructor
  · intro n ty
    rw [h'.types, h.types, e, or_assoc]
  · intro lib n id
    rw [h'.externs, h.externs]
    constructor
    · rintro ((h | ⟨h1, ty, h2, h3⟩) | ⟨h1, ty, h2, h3⟩)
      · exact .inl h
      · exact .inr ⟨h1, ty, (e _ _ _).mpr (.inl h2), h3⟩
      · exact .inr ⟨h1, ty, (e _ _ _).mpr (.inr h2), h3⟩
    · rintro (h | ⟨h1, ty, h2, h3⟩)
      · exact .inl (.inl h)
      · rcases (e _ _ _).mp h2 with h2 | h2
        · exact .inl (.inr ⟨h1, ty, h2, h3⟩)
        · exact .inr ⟨h1, ty, h2, h3⟩

theorem Adds.none {b : LibBuilder} {D : Decls} (h : ∀ lib n u, ¬ D lib n u) : Adds V b b D :=
  ⟨fun n ty => by simp [h], fun lib n id => by simp [h]⟩

theorem Adds.congr {b b' : LibBuilder} {D D' : Decls} (h : Adds V b b' D)
    (e : ∀ lib n u, D' lib n u ↔ D lib n u) : Adds V b b' D' :=
  ⟨fun n ty => by rw [h.types, e], fun lib n id => by rw [h.externs]; simp only [e]⟩

/-- Nothing new. -/
theorem Adds.known {b : LibBuilder} {D : Decls} (h : ∀ lib n u, D lib n u → b.Has V lib n u) :
    Adds V b b D := by
  constructor
  · intro n ty
    exact ⟨.inl, fun h' => h'.elim id fun h' => (h _ _ _ h').1 rfl⟩
  · intro lib n id
    refine ⟨.inl, ?_⟩
    rintro (h' | ⟨h1, ty, h2, rfl⟩)
    · exact h'
    · exact (h _ _ _ h2).2 h1

theorem Adds.has {b b' : LibBuilder} {D : Decls} (h : Adds V b b' D) {lib n : Name} {u : Ty TranspileRef}
    (hd : D lib n u ∨ b.Has V lib n u) : b'.Has V lib n u := by
  constructor
  · rintro rfl
    exact (h.types _ _).mpr (hd.elim .inr fun h => .inl (h.1 rfl))
  · intro hne
    exact (h.externs _ _ _).mpr (hd.elim (fun h => .inr ⟨hne, u, h, rfl⟩) fun h => .inl (h.2 hne))

/-! ## Reporting a type -/

theorem dependencyId_ok {b : LibBuilder} {lib : Name} {id : LibId} :
    b.dependencyId lib = .ok id ↔
      ((b.knownLibs.map Prod.fst).find? fun d => d.name = lib).map Dependency.id = some id := by
  unfold LibBuilder.dependencyId
  cases ((b.knownLibs.map Prod.fst).find? fun d => d.name = lib) <;> simp [Out.expect]

/-- The ids of dependencies are those of the view. -/
def DepsOk (V : View) (K : List (Dependency × Option (List SemId))) : Prop :=
  ∀ lib id, ((K.map Prod.fst).find? fun d => d.name = lib).map Dependency.id = some id → V.dep lib = id

/-- The library is known. -/
def Known (K : List (Dependency × Option (List SemId))) (lib : Name) : Prop :=
  ∃ d ∈ K, d.1.name = lib

theorem known_find {lib : Name} (h : Known K lib) :
    ∃ id, ((K.map Prod.fst).find? fun d => d.name = lib).map Dependency.id = some id := by
  obtain ⟨d, hd, hn⟩ := h
  cases e : (K.map Prod.fst).find? fun d => d.name = lib with
  | none =>
    rw [List.find?_eq_none] at e
    have := e d.1 (List.mem_map_of_mem hd)
    simp [hn] at this
  | some d' => exact ⟨d'.id, rfl⟩

/-- Types of other libraries with the same id have the same name. -/
def NamesById (V : View) (U : RTy → Prop) : Prop :=
  ∀ s s' n n', U s → U s' → s.lib ≠ V.own → s'.lib ≠ V.own → s.name = some n → s'.name = some n' →
    TranspileRef.semIdNamed V.H (s.ty V) n = TranspileRef.semIdNamed V.H (s'.ty V) n' → n = n'

theorem namesById {V : View} {U : RTy → Prop} {D : Bytes → Prop} (hc : ¬ Collision V.H D)
    (hD : ∀ s n, U s → s.lib ≠ V.own → s.name = some n → D (n.commit ++ TranspileRef.commitTy (s.ty V))) :
    NamesById V U := by
  intro s s' n n' hs hs' hl hl' hn hn' h
  exact (Name.commit_append_inj (semHash_inj hc (hD s n hs hl hn) (hD s' n' hs' hl' hn') h)).1

/-- A name is used for one type only. -/
def OneType (V : View) (U : RTy → Prop) : Prop :=
  ∀ s s', U s → U s' → s.lib = V.own → s'.lib = V.own → s.name ≠ none → s.name = s'.name →
    s.ty V = s'.ty V ∧ ∀ lib name ty, s.Declares V lib name ty ↔ s'.Declares V lib name ty

theorem report_spec (hc : NamesById V U) (hone : OneType V U) (hdep : DepsOk V K) {t : RTy} (hU : U t)
    {b : Transpiler} (hb : BuilderInv V U K b.toLibBuilder)
    (hparts : ∀ lib n u, t.partDecls V lib n u → b.Has V lib n u) :
    (∀ b', b.report V.H t.lib t.name (t.ty V) = .ok b' → BuilderInv V U K b'.toLibBuilder ∧
      Adds V b.toLibBuilder b'.toLibBuilder (t.Declares V) ∧ b'.last = some (t.ref V)) ∧
    ((t.name ≠ none → t.lib = V.own ∨ Known K t.lib) →
      ∃ b', b.report V.H t.lib t.name (t.ty V) = .ok b') := by
  have hdecl : ∀ lib n u, t.Declares V lib n u ↔
      t.partDecls V lib n u ∨ (t.lib = lib ∧ t.name = some n ∧ t.ty V = u) := fun _ _ _ => RTy.declares_iff
  cases hname : t.name with
  | none =>
    refine ⟨?_, fun _ => ⟨_, rfl⟩⟩
    intro b' h
    simp only [Transpiler.report, Out.ok.injEq] at h
    subst h
    refine ⟨hb, ?_, by simp [RTy.ref, View.ref, hname]⟩
    refine (Adds.known hparts).congr fun lib n u => ?_
    rw [hdecl, hname]; simp
  | some name =>
    by_cases hl : t.lib = V.own
    · have hold : ∀ old, hmGet b.types name = some old → old = t.ty V := by
        intro old ho
        obtain ⟨s, hs, h1, h2, h3, -⟩ := hb.types name old ho
        rw [← h3]
        exact (hone s t hs hU h1 hl (by simp [h2]) (by rw [h2, hname])).1
      have hok : b.report V.H t.lib (some name) (t.ty V) = .ok
          { b with types := hmInsert b.types name (t.ty V), last := some (.named name) } := by
        simp only [Transpiler.report, hb.own, hl, if_true]
        cases ho : hmGet b.types name with
        | none => simp
        | some old => simp [hold old ho, TranspileRef.eqvTy_refl]
      rw [hok]
      refine ⟨?_, fun _ => ⟨_, rfl⟩⟩
      intro b' h
      simp only [Out.ok.injEq] at h
      subst h
      have hadds : Adds V b.toLibBuilder { b.toLibBuilder with types := hmInsert b.types name (t.ty V) }
          (t.Declares V) := by
        refine Adds.trans (D := t.partDecls V) (D' := fun lib n u => t.lib = lib ∧ t.name = some n ∧ t.ty V = u)
          (Adds.known hparts) ?_ hdecl
        constructor
        · intro n ty
          show hmGet (hmInsert b.types name (t.ty V)) n = some ty ↔ hmGet b.types n = some ty ∨ _
          rw [hmGet_insert, hname]
          by_cases hn : name = n
          · subst hn
            simp only [if_true, Option.some.injEq, hl, true_and]
            constructor
            · exact .inr
            · rintro (h | h)
              · exact (hold _ h).symm
              · exact h
          · simp [hn]
        · intro lib n id
          show b.HasExtern lib n id ↔ _
          constructor
          · exact .inl
          · rintro (h | ⟨h1, ty, ⟨h2, -⟩, -⟩)
            · exact h
            · exact absurd (h2.symm.trans hl) h1
      refine ⟨⟨hb.own, hb.known, ?_, ?_⟩, hadds, by simp [RTy.ref, View.ref, hname, hl]⟩
      · intro n ty h
        rcases (hadds.types n ty).mp h with h | h
        · obtain ⟨s, h1, h2, h3, h4, h5⟩ := hb.types n ty h
          exact ⟨s, h1, h2, h3, h4, fun lib m u hd => hadds.has (.inr (h5 lib m u hd))⟩
        · rcases (hdecl _ _ _).mp h with h | ⟨h1, h2, h3⟩
          · obtain ⟨s, h1, h2, h3, h4, h5⟩ := hb.types n ty ((hparts _ _ _ h).1 rfl)
            exact ⟨s, h1, h2, h3, h4, fun lib m u hd => hadds.has (.inr (h5 lib m u hd))⟩
          · exact ⟨t, hU, h1, h2, h3, fun lib m u hd => hadds.has (.inl hd)⟩
      · intro lib n id h
        exact hb.externs lib n id h
    · have hrep : b.report V.H t.lib (some name) (t.ty V) = (do
          let libId ← b.dependencyId t.lib
          pure { b with
            externTypes := hmInsert b.externTypes t.lib (OMap.insert ((hmGet b.externTypes t.lib).getD [])
              (TranspileRef.semIdNamed V.H (t.ty V) name) name)
            last := some (.extern ⟨t.lib, name, libId, TranspileRef.semIdNamed V.H (t.ty V) name⟩) }) := by
        simp only [Transpiler.report, hb.own, hl, if_false]
      rw [hrep]
      refine ⟨?_, ?_⟩
      · intro b' h
        obtain ⟨libId, hid, h⟩ := Out.bind_eq_ok.mp h
        simp only [Out.pure_eq, Out.ok.injEq] at h
        subst h
        rw [dependencyId_ok, hb.known] at hid
        have hadds : Adds V b.toLibBuilder { b.toLibBuilder with
              externTypes := hmInsert b.externTypes t.lib <| (OMap.insert ((hmGet b.externTypes t.lib).getD []) (TranspileRef.semIdNamed V.H (t.ty V) name) name) }
            (t.Declares V) := by
          refine Adds.trans (D := t.partDecls V) (D' := fun lib n u => t.lib = lib ∧ t.name = some n ∧ t.ty V = u)
            (Adds.known hparts) ?_ hdecl
          constructor
          · intro n ty
            show b.HasType n ty ↔ _
            constructor
            · exact .inl
            · rintro (h | ⟨h, -⟩)
              · exact h
              · exact absurd h hl
          · intro lib n id
            unfold LibBuilder.HasExtern
            simp only [hmGet_insert, hname, Option.some.injEq]
            by_cases hlib : t.lib = lib
            · subst hlib
              simp only [if_true, Option.some.injEq, exists_eq_left', true_and, ne_eq, hl, not_false_eq_true,
                OMap.get_insert]
              by_cases hi : TranspileRef.semIdNamed V.H (t.ty V) name = id
              · subst hi
                simp only [if_true, Option.some.injEq]
                constructor
                · rintro rfl
                  exact .inr ⟨_, ⟨rfl, rfl⟩, rfl⟩
                · rintro (⟨m, h1, h2⟩ | ⟨ty, ⟨h1, -⟩, -⟩)
                  · obtain ⟨s, hs, hls, hns, he⟩ := hb.externs t.lib n _ ⟨m, h1, h2⟩
                    exact hc t s name n hU hs hl hls hname hns he
                  · exact h1
              · simp only [hi, if_false]
                constructor
                · intro h
                  cases hm : hmGet b.externTypes t.lib with
                  | none => rw [hm] at h; simp at h
                  | some m => rw [hm] at h; exact .inl ⟨m, rfl, h⟩
                · rintro (⟨m, h1, h2⟩ | ⟨ty, ⟨h1, h2⟩, h3⟩)
                  · rw [h1]; exact h2
                  · exact absurd (by rw [h3, h1, h2]) hi
            · simp only [hlib, if_false, false_and, exists_false, and_false, or_false]
        refine ⟨⟨hb.own, hb.known, ?_, ?_⟩, hadds, ?_⟩
        · intro n ty h
          obtain ⟨s, h1, h2, h3, h4, h5⟩ := hb.types n ty h
          exact ⟨s, h1, h2, h3, h4, fun lib m u hd => hadds.has (.inr (h5 lib m u hd))⟩
        · intro lib n id h
          rcases (hadds.externs lib n id).mp h with h | ⟨hne, ty, hd, rfl⟩
          · exact hb.externs lib n id h
          · rcases (hdecl _ _ _).mp hd with hd | ⟨h1, h2, rfl⟩
            · exact hb.externs lib n _ ((hparts _ _ _ hd).2 hne)
            · exact ⟨t, hU, hl, h2, rfl⟩
        · simp [RTy.ref, View.ref, hname, hl, hdep _ _ hid]
      · intro h
        have hk := (h (by simp)).resolve_left hl
        obtain ⟨id, hid⟩ := known_find hk
        rw [← hb.known, ← dependencyId_ok] at hid
        rw [hid]
        exact ⟨_, rfl⟩

/-! ## Sorting variants -/

theorem mem_insertTag {α : Type} {tag : α → Nat} {x y : α} : ∀ {l : List α},
    l.Pairwise (fun a b => tag a < tag b) → (y ∈ insertTag tag x l ↔ y = x ∨ (y ∈ l ∧ tag y ≠ tag x))
  | [], _ => by simp [insertTag]
  | z :: l, h => by
    rw [List.pairwise_cons] at h
    unfold insertTag
    split
    · rename_i hlt
      simp only [List.mem_cons]
      constructor
      · rintro (h' | rfl | h')
        · exact .inl h'
        · exact .inr ⟨.inl rfl, by omega⟩
        · have := h.1 y h'
          exact .inr ⟨.inr h', by omega⟩
      · rintro (h' | ⟨h', -⟩)
        · exact .inl h'
        · exact .inr h'
    · split
      · rename_i heq
        simp only [List.mem_cons]
        constructor
        · rintro (h' | h')
          · exact .inl h'
          · have := h.1 y h'
            exact .inr ⟨.inr h', by omega⟩
        · rintro (h' | ⟨rfl | h', hne⟩)
          · exact .inl h'
          · exact absurd heq.symm hne
          · exact .inr h'
      · rename_i hne
        rw [List.mem_cons, mem_insertTag h.2, List.mem_cons]
        constructor
        · rintro (rfl | h' | ⟨h', hh⟩)
          · exact .inr ⟨.inl rfl, fun e => hne e.symm⟩
          · exact .inl h'
          · exact .inr ⟨.inr h', hh⟩
        · rintro (h' | ⟨rfl | h', hh⟩)
          · exact .inr (.inl h')
          · exact .inl rfl
          · exact .inr (.inr ⟨h', hh⟩)

theorem pairwise_insertTag {α : Type} {tag : α → Nat} {x : α} : ∀ {l : List α},
    l.Pairwise (fun a b => tag a < tag b) → (insertTag tag x l).Pairwise (fun a b => tag a < tag b)
  | [], _ => by simp [insertTag]
  | z :: l, h => by
    have h' := h
    rw [List.pairwise_cons] at h
    unfold insertTag
    split
    · rename_i hlt
      rw [List.pairwise_cons]
      refine ⟨fun a ha => ?_, h'⟩
      rcases List.mem_cons.mp ha with rfl | ha
      · exact hlt
      · have := h.1 a ha; omega
    · split
      · rename_i heq
        rw [List.pairwise_cons]
        exact ⟨fun a ha => by have := h.1 a ha; omega, h.2⟩
      · rename_i hlt hne
        rw [List.pairwise_cons]
        refine ⟨fun a ha => ?_, pairwise_insertTag h.2⟩
        rcases (mem_insertTag h.2).mp ha with rfl | ⟨ha, -⟩
        · omega
        · exact h.1 a ha

theorem length_insertTag {α : Type} {tag : α → Nat} {x : α} : ∀ {l : List α}, (∀ y ∈ l, tag y ≠ tag x) →
    (insertTag tag x l).length = l.length + 1
  | [], _ => rfl
  | z :: l, h => by
    unfold insertTag
    split
    · rfl
    · split
      · rename_i heq
        exact absurd heq.symm (h z List.mem_cons_self)
      · simp [length_insertTag fun y hy => h y (List.mem_cons_of_mem _ hy)]

theorem sortTags_fold {α : Type} {tag : α → Nat} : ∀ (l s : List α),
    s.Pairwise (fun a b => tag a < tag b) → (l.map tag).Nodup → (∀ x ∈ l, ∀ y ∈ s, tag y ≠ tag x) →
    (l.foldl (fun s x => insertTag tag x s) s).Pairwise (fun a b => tag a < tag b) ∧
    (∀ y, y ∈ l.foldl (fun s x => insertTag tag x s) s ↔ y ∈ s ∨ y ∈ l) ∧
    (l.foldl (fun s x => insertTag tag x s) s).length = s.length + l.length
  | [], s, hs, _, _ => ⟨hs, by simp, rfl⟩
  | x :: l, s, hs, hn, hd => by
    rw [List.map_cons, List.nodup_cons] at hn
    have hx : ∀ y ∈ s, tag y ≠ tag x := hd x List.mem_cons_self
    obtain ⟨h1, h2, h3⟩ := sortTags_fold l (insertTag tag x s) (pairwise_insertTag hs) hn.2 (by
      intro z hz y hy
      rcases (mem_insertTag hs).mp hy with rfl | ⟨hy, -⟩
      · intro e
        exact hn.1 (List.mem_map.mpr ⟨z, hz, e.symm⟩)
      · exact hd z (List.mem_cons_of_mem _ hz) y hy)
    rw [List.foldl_cons]
    refine ⟨h1, fun y => ?_, ?_⟩
    · rw [h2, mem_insertTag hs, List.mem_cons]
      constructor
      · rintro ((h | ⟨h, -⟩) | h)
        · exact .inr (.inl h)
        · exact .inl h
        · exact .inr (.inr h)
      · rintro (h | h | h)
        · exact .inl (.inr ⟨h, hx y h⟩)
        · exact .inl (.inl h)
        · exact .inr h
    · rw [h3, length_insertTag hx, List.length_cons]; omega

theorem eq_of_strict {α : Type} {tag : α → Nat} : ∀ {l l' : List α},
    l.Pairwise (fun a b => tag a < tag b) → l'.Pairwise (fun a b => tag a < tag b) →
    (∀ y, y ∈ l ↔ y ∈ l') → l = l'
  | [], [], _, _, _ => rfl
  | [], y :: l', _, _, h => by have := (h y).mpr List.mem_cons_self; simp at this
  | x :: l, [], _, _, h => by have := (h x).mp List.mem_cons_self; simp at this
  | x :: l, y :: l', hl, hl', h => by
    rw [List.pairwise_cons] at hl hl'
    have hxy : x = y := by
      rcases List.mem_cons.mp ((h x).mp List.mem_cons_self) with e | hx
      · exact e
      · rcases List.mem_cons.mp ((h y).mpr List.mem_cons_self) with e | hy
        · exact e.symm
        · have := hl.1 y hy
          have := hl'.1 x hx
          omega
    subst hxy
    congr 1
    refine eq_of_strict hl.2 hl'.2 fun z => ?_
    constructor
    · intro hz
      rcases List.mem_cons.mp ((h z).mp (List.mem_cons_of_mem _ hz)) with rfl | h'
      · have := hl.1 _ hz; omega
      · exact h'
    · intro hz
      rcases List.mem_cons.mp ((h z).mpr (List.mem_cons_of_mem _ hz)) with rfl | h'
      · have := hl'.1 _ hz; omega
      · exact h'

theorem mem_byTag {α : Type} {tag : α → Byte} {l : List α} {y : α} : y ∈ byTag tag l ↔ y ∈ l := by
  unfold byTag
  simp only [List.mem_flatMap, List.mem_range, List.mem_filter, decide_eq_true_eq]
  constructor
  · rintro ⟨_, -, h, -⟩; exact h
  · intro h; exact ⟨_, (tag y).isLt, h, rfl⟩

theorem pairwise_filter_tag {α : Type} {tag : α → Byte} (k : Nat) : ∀ {l : List α},
    (l.map tag).Nodup → (l.filter fun x => decide ((tag x).toNat = k)).Pairwise
      (fun a b => (tag a).toNat < (tag b).toNat)
  | [], _ => by simp
  | x :: l, h => by
    rw [List.map_cons, List.nodup_cons] at h
    rw [List.filter_cons]
    split
    · rename_i hx
      rw [List.pairwise_cons]
      refine ⟨fun a ha => ?_, pairwise_filter_tag k h.2⟩
      simp only [List.mem_filter, decide_eq_true_eq] at ha hx
      exact absurd (List.mem_map.mpr ⟨a, ha.1, BitVec.eq_of_toNat_eq (ha.2.trans hx.symm)⟩) h.1
    · exact pairwise_filter_tag k h.2

theorem pairwise_byTag {α : Type} {tag : α → Byte} {l : List α} (h : (l.map tag).Nodup) :
    (byTag tag l).Pairwise (fun a b => (tag a).toNat < (tag b).toNat) := by
  unfold byTag
  rw [List.pairwise_flatMap]
  refine ⟨fun k _ => pairwise_filter_tag k h, ?_⟩
  refine List.Pairwise.imp ?_ List.pairwise_lt_range
  intro i j hij a ha b hb
  simp only [List.mem_filter, decide_eq_true_eq] at ha hb
  omega

theorem sortTags_eq {α : Type} {tag : α → Byte} {l : List α} (h : (l.map tag).Nodup) :
    sortTags (fun x => (tag x).toNat) l = byTag tag l ∧
      (sortTags (fun x => (tag x).toNat) l).length = l.length := by
  have hn : (l.map fun x => (tag x).toNat).Nodup := by
    have : (l.map fun x => (tag x).toNat) = (l.map tag).map BitVec.toNat := by simp
    rw [this, List.Nodup, List.pairwise_map]
    refine h.imp fun hne e => hne (BitVec.eq_of_toNat_eq e)
  obtain ⟨h1, h2, h3⟩ := sortTags_fold (tag := fun x => (tag x).toNat) l [] List.Pairwise.nil hn (by simp)
  refine ⟨eq_of_strict (tag := fun x => (tag x).toNat) h1 (pairwise_byTag h) fun y => ?_, by
    simpa [sortTags] using h3⟩
  rw [mem_byTag]
  have := h2 y
  simpa [sortTags] using this

/-! ## Running the builder -/

theorem Adds.extend {b b' : LibBuilder} {D D' : Decls} (h : Adds V b b' D)
    (h1 : ∀ lib n u, D lib n u → D' lib n u) (h2 : ∀ lib n u, D' lib n u → b.Has V lib n u) :
    Adds V b b' D' :=
  (Adds.known h2).trans h fun lib n u => ⟨.inl, fun h' => h'.elim id (h1 lib n u)⟩

variable (V U K) in
/-- The computation adds the declarations and has a result that satisfies `Q`; it succeeds if `ok`. -/
structure Does {α : Type} (m : Out Unit α) (st : α → LibBuilder) (b : LibBuilder) (D : Decls)
    (Q : α → Prop) (ok : Prop) : Prop where
  post : ∀ x, m = .ok x → BuilderInv V U K (st x) ∧ Adds V b (st x) D ∧ Q x
  succ : ok → ∃ x, m = .ok x

theorem Does.bind {α β : Type} {m : Out Unit α} {f : α → Out Unit β} {st : α → LibBuilder}
    {st' : β → LibBuilder} {b : LibBuilder} {D D' D'' : Decls} {Q : α → Prop} {Q' : β → Prop} {ok ok' : Prop}
    (h : Does V U K m st b D Q ok)
    (h' : ∀ x, BuilderInv V U K (st x) → Adds V b (st x) D → Q x → Does V U K (f x) st' (st x) D' Q' ok')
    (e : ∀ lib n u, D'' lib n u ↔ D lib n u ∨ D' lib n u) :
    Does V U K (m >>= f) st' b D'' Q' (ok ∧ ok') := by
  constructor
  · intro y hy
    obtain ⟨x, hx, hy⟩ := Out.bind_eq_ok.mp hy
    obtain ⟨h1, h2, h3⟩ := h.post x hx
    obtain ⟨h4, h5, h6⟩ := (h' x h1 h2 h3).post y hy
    exact ⟨h4, h2.trans h5 e, h6⟩
  · rintro ⟨ho, ho'⟩
    obtain ⟨x, hx⟩ := h.succ ho
    obtain ⟨h1, h2, h3⟩ := h.post x hx
    obtain ⟨y, hy⟩ := (h' x h1 h2 h3).succ ho'
    exact ⟨y, by rw [hx]; exact hy⟩

theorem Does.pure {α : Type} {x : α} {st : α → LibBuilder} {b : LibBuilder} {D : Decls} {Q : α → Prop}
    {ok : Prop} (hb : BuilderInv V U K (st x)) (ha : Adds V b (st x) D) (hq : Q x) :
    Does V U K (.ok x) st b D Q ok := by
  constructor
  · rintro y h
    simp only [Out.ok.injEq] at h
    subst h
    exact ⟨hb, ha, hq⟩
  · intro _
    exact ⟨x, rfl⟩

theorem Does.mono {α : Type} {m : Out Unit α} {st : α → LibBuilder} {b : LibBuilder} {D : Decls}
    {Q : α → Prop} {ok ok' : Prop} (h : Does V U K m st b D Q ok) (ho : ok' → ok) :
    Does V U K m st b D Q ok' :=
  ⟨h.post, fun h' => h.succ (ho h')⟩

theorem Does.congr {α : Type} {m : Out Unit α} {st : α → LibBuilder} {b : LibBuilder} {D D' : Decls}
    {Q : α → Prop} {ok : Prop} (h : Does V U K m st b D Q ok) (e : ∀ lib n u, D' lib n u ↔ D lib n u) :
    Does V U K m st b D' Q ok :=
  ⟨fun x hx => ⟨(h.post x hx).1, (h.post x hx).2.1.congr e, (h.post x hx).2.2⟩, h.succ⟩

/-- A step that does not change the builder. -/
theorem Does.look {α β : Type} {m : Out Unit α} {f : α → Out Unit β} {st' : β → LibBuilder} {b : LibBuilder}
    {D' : Decls} {Q : α → Prop} {Q' : β → Prop} {ok ok' : Prop}
    (h : ∀ x, m = .ok x → Q x) (hs : ok → ∃ x, m = .ok x)
    (h' : ∀ x, Q x → Does V U K (f x) st' b D' Q' ok') :
    Does V U K (m >>= f) st' b D' Q' (ok ∧ ok') := by
  constructor
  · intro y hy
    obtain ⟨x, hx, hy⟩ := Out.bind_eq_ok.mp hy
    exact (h' x (h x hx)).post y hy
  · rintro ⟨ho, ho'⟩
    obtain ⟨x, hx⟩ := hs ho
    obtain ⟨y, hy⟩ := (h' x (h x hx)).succ ho'
    exact ⟨y, by rw [hx]; exact hy⟩

variable (V U K) in
/-- The setting: types are taken from a set closed under parts. -/
structure Setting : Prop where
  hc : NamesById V U
  one : OneType V U
  dep : DepsOk V K
  closed : ∀ t, U t → ∀ p ∈ t.parts, U p
  tags : ∀ t, U t → t.DistinctTags

variable (V K) in
/-- All types mentioned respect the limits. -/
def RTy.AllOk (debug : Bool) (t : RTy) : Prop := ∀ s, t.Contains s → s.NodeOk debug V.own (Known K)

theorem RTy.AllOk.part {debug : Bool} {t p : RTy} (h : t.AllOk V K debug) (hp : p ∈ t.parts) :
    p.AllOk V K debug :=
  fun s hs => h s (.step hp hs)

theorem RTy.AllOk.self {debug : Bool} {t : RTy} (h : t.AllOk V K debug) : t.NodeOk debug V.own (Known K) :=
  h t (.refl t)

variable (V U K) in
/-- Encoding the type declares what it declares. -/
def RTy.Good (debug : Bool) (t : RTy) : Prop :=
  ∀ b : Transpiler, BuilderInv V U K b.toLibBuilder →
    Does V U K (t.encode V.H debug b) Transpiler.toLibBuilder b.toLibBuilder (t.Declares V)
      (fun b' => b'.last = some (t.ref V)) (t.AllOk V K debug)

theorem Does.report (S : Setting V U K) {t : RTy} (hU : U t) {b : Transpiler}
    (hb : BuilderInv V U K b.toLibBuilder) (hparts : ∀ lib n u, t.partDecls V lib n u → b.Has V lib n u) :
    Does V U K (b.report V.H t.lib t.name (t.ty V)) Transpiler.toLibBuilder b.toLibBuilder (t.Declares V)
      (fun b' => b'.last = some (t.ref V)) (t.name ≠ none → t.lib = V.own ∨ Known K t.lib) :=
  ⟨(report_spec S.hc S.one S.dep hU hb hparts).1, (report_spec S.hc S.one S.dep hU hb hparts).2⟩

/-- The type compiled last. -/
theorem Does.last {β : Type} {b : Transpiler} {r : TranspileRef} (h : b.last = some r)
    {f : TranspileRef → Out Unit β} : (Out.expect b.last >>= f) = f r := by
  rw [h]; rfl

theorem Does.compileType {debug : Bool} (S : Setting V U K) {t : RTy} (hU : U t) (ht : t.Good V U K debug)
    {b : Transpiler} (hb : BuilderInv V U K b.toLibBuilder) :
    Does V U K (compileType V.H t.lib t.name (t.encode V.H debug) b) (fun x => x.2.toLibBuilder)
      b.toLibBuilder (t.Declares V) (fun x => x.1 = t.ref V) (t.AllOk V K debug) := by
  have hcomp : Does V U K (do
      let b ← t.encode V.H debug b
      let r ← Out.expect b.last
      Pure.pure (r, b)) (fun x => x.2.toLibBuilder)
      b.toLibBuilder (t.Declares V) (fun x => x.1 = t.ref V) (t.AllOk V K debug) := by
    refine ((ht b hb).bind (D' := fun _ _ _ => False) (ok' := True) ?_ (by simp)).mono (fun h => ⟨h, trivial⟩)
    intro b' hb' _ hl
    rw [Does.last hl]
    exact .pure hb' (Adds.none (by simp)) rfl
  unfold Verif.compileType
  cases hn : t.name with
  | none => exact hcomp
  | some name =>
    simp only
    split
    · exact hcomp
    · split
      · rename_i hl
        rw [hb.own] at hl
        refine (hcomp.bind (D' := fun _ _ _ => False) (ok' := t.AllOk V K debug) ?_ (by simp)).mono
          (fun h => ⟨h, h⟩)
        rintro ⟨r, b'⟩ hb' _ hr
        simp only at hr hb' ⊢
        subst hr
        refine (Does.look (Q := fun id => V.dep t.lib = id) (ok := t.AllOk V K debug) (ok' := True)
          ?_ ?_ ?_).mono (fun h => ⟨h, trivial⟩)
        · intro id hid
          rw [dependencyId_ok, hb'.known] at hid
          exact S.dep _ _ hid
        · intro h
          obtain ⟨id, hid⟩ := known_find ((h.self.1 (by simp [hn])).resolve_left hl)
          rw [← hb'.known, ← dependencyId_ok] at hid
          exact ⟨id, hid⟩
        · intro id hid
          subst hid
          refine .pure hb' (Adds.none (by simp)) ?_
          simp [RTy.ref, View.ref, hn, hl, TranspileRef.id]
      · rename_i hl
        rw [hb.own] at hl
        have hl : t.lib = V.own := Decidable.byContradiction hl
        split
        · rename_i hs
          obtain ⟨ty, hty⟩ := Option.isSome_iff_exists.mp hs
          obtain ⟨s, h1, h2, h3, h4, h5⟩ := hb.types name ty hty
          refine .pure hb (Adds.known fun lib n u hd => h5 lib n u ?_) (by simp [RTy.ref, View.ref, hn, hl])
          exact ((S.one s t h1 hU h2 hl (by simp [h3]) (by rw [h3, hn])).2 lib n u).mpr hd
        · exact hcomp

/-- What some of the types declare. -/
def listDecls (V : View) (ts : List RTy) : Decls := fun lib n u => ∃ p ∈ ts, p.Declares V lib n u

theorem Does.fields {debug : Bool} (S : Setting V U K) : ∀ (fs : List (Option Name × RTy)) (b : Transpiler),
    BuilderInv V U K b.toLibBuilder → (∀ p ∈ fs.map Prod.snd, U p ∧ p.Good V U K debug) →
    Does V U K (RTy.encodeFields V.H debug fs b) (fun x => x.2.toLibBuilder) b.toLibBuilder
      (listDecls V (fs.map Prod.snd)) (fun x => x.1 = RTy.tyFields V fs)
      (∀ p ∈ fs.map Prod.snd, p.AllOk V K debug)
  | [], b, hb, _ => by
    unfold RTy.encodeFields
    exact .pure hb (Adds.none (by simp [listDecls])) rfl
  | (n, t) :: fs, b, hb, h => by
    unfold RTy.encodeFields RTy.encodeField
    have h1 := h t (by simp)
    refine Does.mono (ok := t.AllOk V K debug ∧ ∀ p ∈ fs.map Prod.snd, p.AllOk V K debug) ?_ ?_
    · refine Does.bind (D := t.Declares V) (D' := listDecls V (fs.map Prod.snd))
        (Q := fun x => x.1 = (n, t.ref V)) (st := fun x => x.2.toLibBuilder)
        (ok := t.AllOk V K debug) ?_ ?_ ?_
      · refine ((Does.compileType S h1.1 h1.2 hb).bind (D' := fun _ _ _ => False) (ok' := True) ?_
          (by simp)).mono (fun h => ⟨h, trivial⟩)
        rintro ⟨r, b'⟩ hb' _ hr
        exact .pure hb' (Adds.none (by simp)) (by simp only at hr; rw [hr])
      · rintro ⟨r, b'⟩ hb' _ hr
        simp only at hr
        subst hr
        refine ((Does.fields S fs b' hb' fun p hp => h p (by simp at hp ⊢; exact .inr hp)).bind
          (D' := fun _ _ _ => False) (ok' := True) ?_ (by simp)).mono (fun h => ⟨h, trivial⟩)
        rintro ⟨rs, b''⟩ hb'' _ hr
        simp only at hr
        refine .pure hb'' (Adds.none (by simp)) ?_
        simp only [RTy.tyFields, RTy.tyField, RTy.ref, hr]
      · intro lib n u
        simp [listDecls]
    · intro h
      exact ⟨h t (by simp), fun p hp => h p (by simp at hp ⊢; exact .inr hp)⟩

theorem Does.variant {debug : Bool} {v : Variant} {t : RTy} (h : t.Good V U K debug) {b : Transpiler}
    (hb : BuilderInv V U K b.toLibBuilder) :
    Does V U K (RTy.encodeVariant V.H debug (v, t) b) (fun x => x.2.toLibBuilder) b.toLibBuilder
      (t.Declares V) (fun x => x.1 = (v, t.ref V)) (t.AllOk V K debug) := by
  unfold RTy.encodeVariant
  refine ((h b hb).bind (D' := fun _ _ _ => False) (ok' := True) ?_ (by simp)).mono (fun h => ⟨h, trivial⟩)
  intro b' hb' _ hr
  rw [Does.last hr]
  exact .pure hb' (Adds.none (by simp)) rfl

theorem Does.variants {debug : Bool} : ∀ (vs : List (Variant × RTy)) (b : Transpiler),
    BuilderInv V U K b.toLibBuilder → (∀ p ∈ vs.map Prod.snd, p.Good V U K debug) →
    Does V U K (RTy.encodeVariants V.H debug vs b) (fun x => x.2.toLibBuilder) b.toLibBuilder
      (listDecls V (vs.map Prod.snd)) (fun x => x.1 = RTy.tyVariants V vs)
      (∀ p ∈ vs.map Prod.snd, p.AllOk V K debug)
  | [], b, hb, _ => by
    unfold RTy.encodeVariants
    exact .pure hb (Adds.none (by simp [listDecls])) rfl
  | (v, t) :: vs, b, hb, h => by
    unfold RTy.encodeVariants
    refine Does.mono (ok := t.AllOk V K debug ∧ ∀ p ∈ vs.map Prod.snd, p.AllOk V K debug) ?_ ?_
    · refine Does.bind (D' := listDecls V (vs.map Prod.snd)) (Does.variant (v := v) (h t (by simp)) hb) ?_ ?_
      · rintro ⟨r, b'⟩ hb' _ hr
        simp only at hr
        subst hr
        refine ((Does.variants vs b' hb' fun p hp => h p (by simp at hp ⊢; exact .inr hp)).bind
          (D' := fun _ _ _ => False) (ok' := True) ?_ (by simp)).mono (fun h => ⟨h, trivial⟩)
        rintro ⟨rs, b''⟩ hb'' _ hr
        simp only at hr
        refine .pure hb'' (Adds.none (by simp)) ?_
        simp only [RTy.tyVariants, RTy.tyVariant, RTy.ref, hr]
      · intro lib n u
        simp [listDecls]
    · intro h
      exact ⟨h t (by simp), fun p hp => h p (by simp at hp ⊢; exact .inr hp)⟩

theorem Does.nth {debug : Bool} : ∀ (vs : List (Variant × RTy)) (w : Nat) (b : Transpiler),
    BuilderInv V U K b.toLibBuilder → (∀ p ∈ vs.map Prod.snd, p.Good V U K debug) →
    (∀ lib n u, listDecls V (vs.map Prod.snd) lib n u → b.Has V lib n u) →
    Does V U K (RTy.encodeNth V.H debug vs w b) Transpiler.toLibBuilder b.toLibBuilder
      (listDecls V (vs.map Prod.snd)) (fun _ => True)
      ((∀ p ∈ vs.map Prod.snd, p.AllOk V K debug) ∧ w < vs.length)
  | [], w, b, _, _, _ => by
    unfold RTy.encodeNth
    exact ⟨fun _ h => by simp at h, fun h => by simp at h⟩
  | (v, t) :: vs, 0, b, hb, h, hd => by
    unfold RTy.encodeNth
    have := (Does.variant (v := v) (h t (by simp)) hb).bind (f := fun x => Pure.pure x.2)
      (st' := Transpiler.toLibBuilder) (Q' := fun _ => True)
      (D' := fun _ _ _ => False) (D'' := t.Declares V) (ok' := True)
      (fun x hx _ _ => .pure hx (Adds.none (by simp)) trivial) (by simp)
    refine ⟨fun x hx => ?_, fun h => this.succ ⟨h.1 t (by simp), trivial⟩⟩
    obtain ⟨h1, h2, -⟩ := this.post x hx
    refine ⟨h1, h2.extend (fun lib n u h => ?_) hd, trivial⟩
    exact ⟨t, by simp, h⟩
  | (v, t) :: vs, w + 1, b, hb, h, hd => by
    unfold RTy.encodeNth
    have := Does.nth vs w b hb (fun p hp => h p (by simp at hp ⊢; exact .inr hp)) (by
      rintro lib n u ⟨p, hp, h⟩
      exact hd lib n u ⟨p, by simp at hp ⊢; exact .inr hp, h⟩)
    refine ⟨fun x hx => ?_, fun h => this.succ ⟨fun p hp => h.1 p (by simp at hp ⊢; exact .inr hp), by
      have := h.2; simp at this; exact this⟩⟩
    obtain ⟨h1, h2, -⟩ := this.post x hx
    refine ⟨h1, h2.extend ?_ hd, trivial⟩
    rintro lib n u ⟨p, hp, h⟩
    exact ⟨p, by simp at hp ⊢; exact .inr hp, h⟩

/-! ## Building structs -/

theorem fieldNames_spec : ∀ (rs : List (Option Name × TranspileRef)),
    (∀ l, fieldNames rs = .ok l → l = rs.filterMap fun f => f.1.map fun n => (n, f.2)) ∧
    (∀ l, fieldNames rs = .ok l → l.length = rs.length) ∧
    ((∀ f ∈ rs, f.1 ≠ none) → ∃ l, fieldNames rs = .ok l)
  | [] => by simp [fieldNames]
  | (n, r) :: rs => by
    obtain ⟨h1, h2, h3⟩ := fieldNames_spec rs
    cases n with
    | none => simp [fieldNames]
    | some n =>
      simp only [fieldNames, Out.expect_some, Out.bind_ok]
      refine ⟨?_, ?_, ?_⟩
      · intro l h
        obtain ⟨l', hl', h⟩ := Out.bind_eq_ok.mp h
        simp only [Out.pure_eq, Out.ok.injEq] at h
        rw [← h, h1 l' hl']; simp
      · intro l h
        obtain ⟨l', hl', h⟩ := Out.bind_eq_ok.mp h
        simp only [Out.pure_eq, Out.ok.injEq] at h
        rw [← h, List.length_cons, h2 l' hl', List.length_cons]
      · intro h
        obtain ⟨l, hl⟩ := h3 fun f hf => h f (List.mem_cons_of_mem _ hf)
        exact ⟨(n, r) :: l, by rw [hl]; rfl⟩

theorem tyFields_length (V : View) : ∀ fs, (RTy.tyFields V fs).length = fs.length
  | [] => rfl
  | f :: fs => by simp [RTy.tyFields, tyFields_length V fs]

theorem tyFields_names (V : View) : ∀ fs : List (Option Name × RTy),
    (RTy.tyFields V fs).map Prod.fst = fs.map Prod.fst
  | [] => rfl
  | (n, t) :: fs => by simp [RTy.tyFields, RTy.tyField, tyFields_names V fs]

theorem tyVariants_length (V : View) : ∀ fs, (RTy.tyVariants V fs).length = fs.length
  | [] => rfl
  | f :: fs => by simp [RTy.tyVariants, tyVariants_length V fs]

theorem tyVariants_tags (V : View) : ∀ fs : List (Variant × RTy),
    ((RTy.tyVariants V fs).map fun v => v.1.tag) = fs.map fun v => v.1.tag
  | [] => rfl
  | (n, t) :: fs => by simp [RTy.tyVariants, RTy.tyVariant, tyVariants_tags V fs]

theorem buildStruct_spec {lib : Name} {name : Option Name} {isTuple : Bool} {fs : List (Option Name × RTy)} :
    (∀ ty, buildStruct isTuple (RTy.tyFields V fs) = .ok ty → ty = RTy.ty V (.record lib name isTuple fs)) ∧
    ((fs.length ≤ 255 ∧ (isTuple = false → ∀ f ∈ fs, f.1 ≠ none)) →
      ∃ ty, buildStruct isTuple (RTy.tyFields V fs) = .ok ty) := by
  have he : (RTy.tyFields V fs).isEmpty = fs.isEmpty := by cases fs <;> simp [RTy.tyFields]
  unfold buildStruct RTy.ty
  rw [he, tyFields_length]
  cases hf : fs.isEmpty with
  | true => simp
  | false =>
    simp only [Bool.false_eq_true, if_false]
    cases isTuple with
    | true =>
      simp only [if_true]
      refine ⟨?_, ?_⟩
      · intro ty h
        split at h
        · simp only [Out.ok.injEq] at h
          exact h.symm
        · simp at h
      · rintro ⟨h, -⟩
        rw [if_pos h]
        exact ⟨_, rfl⟩
    | false =>
      obtain ⟨h1, h2, h3⟩ := fieldNames_spec (RTy.tyFields V fs)
      simp only [Bool.false_eq_true, if_false]
      refine ⟨?_, ?_⟩
      · intro ty h
        obtain ⟨l, hl, h⟩ := Out.bind_eq_ok.mp h
        split at h
        · simp only [Out.pure_eq, Out.ok.injEq] at h
          rw [← h, h1 l hl]
        · simp at h
      · rintro ⟨h, hn⟩
        obtain ⟨l, hl⟩ := h3 (by
          intro f hf
          have : f.1 ∈ (RTy.tyFields V fs).map Prod.fst := List.mem_map_of_mem hf
          rw [tyFields_names] at this
          obtain ⟨g, hg, hgf⟩ := List.mem_map.mp this
          rw [← hgf]
          exact hn trivial g hg)
        rw [hl, Out.bind_ok, h2 l hl, tyFields_length, if_pos h]
        exact ⟨_, rfl⟩

theorem decrement_spec {debug : Bool} {x : BitVec 64} :
    (∀ y, decrement debug x = .ok y → x - 1 = y) ∧ ((debug = true → x ≠ 0) → ∃ y, decrement debug x = .ok y) := by
  unfold decrement
  constructor
  · intro y h
    split at h
    · simp at h
    · simpa using h
  · intro h
    rw [if_neg]
    · exact ⟨_, rfl⟩
    · simp only [Bool.and_eq_true, decide_eq_true_eq, not_and]
      exact h

/-! ## Encoding -/

theorem RTy.good_unnamed {t : RTy} (hn : t.name = none) : t.ref V = .embedded (t.ty V) := by
  simp [RTy.ref, View.ref, hn]

theorem RTy.declares_parts {t : RTy} (hn : t.name = none) {lib n : Name} {u : Ty TranspileRef} :
    t.Declares V lib n u ↔ listDecls V t.parts lib n u := by
  rw [RTy.declares_iff, hn]
  simp [RTy.partDecls, listDecls]

theorem Does.one {debug : Bool} {p : RTy} (hp : p.Good V U K debug) {b : Transpiler}
    (hb : BuilderInv V U K b.toLibBuilder) {f : TranspileRef → Ty TranspileRef} {ty : Ty TranspileRef}
    (hf : f (p.ref V) = ty) :
    Does V U K (do
      let b ← RTy.encode V.H debug p b
      let r ← Out.expect b.last
      Pure.pure { b with last := some (.embedded (f r)) }) Transpiler.toLibBuilder b.toLibBuilder
      (listDecls V [p]) (fun b' => b'.last = some (.embedded ty)) (p.AllOk V K debug) := by
  refine ((hp b hb).bind (D' := fun _ _ _ => False) (ok' := True) ?_ (by simp [listDecls])).mono
    (fun h => ⟨h, trivial⟩)
  intro b' hb' _ hr
  rw [Does.last hr]
  exact .pure hb' (Adds.none (by simp)) (by rw [← hf])

theorem RTy.good {debug : Bool} (S : Setting V U K) (t : RTy) : U t → t.Good V U K debug := by
  induction t using RTy.induct with | _ t ih
  intro hU b hb
  have hgood : ∀ p ∈ t.parts, p.Good V U K debug := fun p hp => ih p hp (S.closed t hU p hp)
  have hup : ∀ p ∈ t.parts, U p := S.closed t hU
  cases t with
  | prim c =>
    unfold RTy.encode
    refine .pure hb (Adds.none ?_) (by rw [RTy.good_unnamed rfl, RTy.ty])
    intro lib n u; rw [RTy.declares_parts rfl]; simp [listDecls, RTy.parts]
  | unicode sz =>
    unfold RTy.encode
    refine .pure hb (Adds.none ?_) (by rw [RTy.good_unnamed rfl, RTy.ty])
    intro lib n u; rw [RTy.declares_parts rfl]; simp [listDecls, RTy.parts]
  | array p len =>
    unfold RTy.encode
    refine ((Does.one (hgood p (by simp [RTy.parts])) hb (f := fun r => .array r len) ?_).congr
      fun _ _ _ => RTy.declares_parts rfl).mono fun h => h.part (by simp [RTy.parts])
    rw [RTy.ty]; rfl
  | list p len =>
    unfold RTy.encode
    refine ((Does.one (hgood p (by simp [RTy.parts])) hb (f := fun r => .list r len) ?_).congr
      fun _ _ _ => RTy.declares_parts rfl).mono fun h => h.part (by simp [RTy.parts])
    rw [RTy.ty]; rfl
  | set p len =>
    unfold RTy.encode
    refine ((Does.one (hgood p (by simp [RTy.parts])) hb (f := fun r => .set r len) ?_).congr
      fun _ _ _ => RTy.declares_parts rfl).mono fun h => h.part (by simp [RTy.parts])
    rw [RTy.ty]; rfl
  | map k p len =>
    unfold RTy.encode
    refine ((hgood k (by simp [RTy.parts]) b hb).bind (D' := listDecls V [p]) (ok' := p.AllOk V K debug)
      (D'' := RTy.Declares V (.map k p len)) ?_ ?_).mono
      fun h => ⟨h.part (by simp [RTy.parts]), h.part (by simp [RTy.parts])⟩
    · intro b' hb' _ hr
      rw [Does.last hr, RTy.good_unnamed (t := .map k p len) rfl]
      refine Does.one (hgood p (by simp [RTy.parts])) hb' (f := fun r => .map (k.ref V) r len) ?_
      rw [RTy.ty]; rfl
    · intro lib n u
      rw [RTy.declares_parts rfl]
      simp [listDecls, RTy.parts]
  | rstring c c1 sz =>
    unfold RTy.encode
    refine Does.mono (ok := c1.AllOk V K debug ∧ c.AllOk V K debug ∧ (debug = true → sz.min ≠ 0) ∧
      (debug = true → sz.max ≠ 0) ∧ True) ?_ ?_
    · refine (hgood c1 (by simp [RTy.parts]) b hb).bind (D' := listDecls V [c])
        (D'' := RTy.Declares V (.rstring c c1 sz)) ?_ ?_
      · intro b' hb' _ hr
        rw [Does.last hr]
        refine (hgood c (by simp [RTy.parts]) b' hb').bind (D' := fun _ _ _ => False) ?_
          (by simp [listDecls])
        intro b'' hb'' _ hr'
        rw [Does.last hr']
        refine Does.look (Q := fun y => sz.min - 1 = y) decrement_spec.1 decrement_spec.2 ?_
        rintro _ rfl
        refine Does.look (Q := fun y => sz.max - 1 = y) decrement_spec.1 decrement_spec.2 ?_
        rintro _ rfl
        refine .pure hb'' (Adds.none (by simp)) ?_
        rw [RTy.good_unnamed (t := .rstring c c1 sz) rfl, RTy.ty]; rfl
      · intro lib n u
        rw [RTy.declares_parts rfl]
        simp [listDecls, RTy.parts]
    · intro h
      have := h.self.2
      exact ⟨h.part (by simp [RTy.parts]), h.part (by simp [RTy.parts]), fun hd => (this hd).1,
        fun hd => (this hd).2, trivial⟩
  | record lib name isTuple fs =>
    unfold RTy.encode
    refine Does.mono (ok := (∀ p ∈ fs.map Prod.snd, p.AllOk V K debug) ∧
      (fs.length ≤ 255 ∧ (isTuple = false → ∀ f ∈ fs, f.1 ≠ none)) ∧
      (name ≠ none → lib = V.own ∨ Known K lib)) ?_ ?_
    · refine (Does.fields S fs b hb fun p hp => ⟨hup p hp, hgood p hp⟩).bind
        (D' := RTy.Declares V (.record lib name isTuple fs)) ?_ ?_
      · rintro ⟨rs, b'⟩ hb' hadd hr
        simp only at hr
        subst hr
        refine Does.look (Q := fun ty => ty = RTy.ty V (.record lib name isTuple fs)) (buildStruct_spec (lib := lib) (name := name)).1
          (buildStruct_spec (lib := lib) (name := name)).2 ?_
        rintro _ rfl
        exact Does.report S (t := .record lib name isTuple fs) hU hb' fun lib n u h => hadd.has (.inl h)
      · intro lib' n u
        rw [RTy.declares_iff]
        constructor
        · intro h; exact .inr h
        · rintro (h | h)
          · exact .inl h
          · exact h
    · intro h
      exact ⟨fun p hp => h.part hp, h.self.2, h.self.1⟩
  | enum lib name vs =>
    have htags := S.tags _ hU
    unfold RTy.encode buildEnum
    refine Does.mono (ok := (1 ≤ vs.length ∧ vs.length ≤ 255) ∧ (name ≠ none → lib = V.own ∨ Known K lib) ∧
      (name ≠ none → lib = V.own ∨ Known K lib)) ?_ ?_
    · refine Does.look (Q := fun ty => ty = RTy.ty V (.enum lib name vs)) ?_ ?_ ?_
      · intro ty h
        rw [RTy.ty, ← (sortTags_eq htags).1]
        simp only at h
        split at h
        · simpa using h.symm
        · simp at h
      · intro h
        simp only [(sortTags_eq htags).2, h, and_self, if_true]
        exact ⟨_, rfl⟩
      · rintro _ rfl
        refine (Does.report S (t := .enum lib name vs) hU hb ?_).bind ?_ (fun _ _ _ => (or_self_iff).symm)
        · simp [RTy.partDecls, RTy.parts]
        · intro b' hb' _ _
          refine Does.report S (t := .enum lib name vs) hU hb' ?_
          simp [RTy.partDecls, RTy.parts]
    · intro h
      exact ⟨h.self.2, h.self.1, h.self.1⟩
  | union lib name vs w =>
    have htags := S.tags _ hU
    have htags' : ((RTy.tyVariants V vs).map fun v => v.1.tag).Nodup := by
      rw [tyVariants_tags]; exact htags
    unfold RTy.encode
    refine Does.mono (ok := (∀ p ∈ vs.map Prod.snd, p.AllOk V K debug) ∧ (1 ≤ vs.length ∧ vs.length ≤ 255) ∧
      (name ≠ none → lib = V.own ∨ Known K lib) ∧
      ((∀ p ∈ vs.map Prod.snd, p.AllOk V K debug) ∧ w < vs.length) ∧
      (name ≠ none → lib = V.own ∨ Known K lib)) ?_ ?_
    · refine (Does.variants vs b hb hgood).bind (D' := RTy.Declares V (.union lib name vs w)) ?_ ?_
      · rintro ⟨rs, b'⟩ hb' hadd hr
        simp only at hr
        subst hr
        refine Does.look (Q := fun ty => ty = RTy.ty V (.union lib name vs w)) ?_ ?_ ?_
        · intro ty h
          rw [RTy.ty, ← (sortTags_eq (tag := fun v : Variant × TranspileRef => v.1.tag) htags').1]
          unfold buildUnion at h
          simp only at h
          split at h
          · simpa using h.symm
          · simp at h
        · intro h
          unfold buildUnion
          simp only [(sortTags_eq (tag := fun v : Variant × TranspileRef => v.1.tag) htags').2,
            tyVariants_length, h, and_self, if_true]
          exact ⟨_, rfl⟩
        · rintro _ rfl
          refine (Does.report S (t := .union lib name vs w) hU hb' fun lib n u h => hadd.has (.inl h)).bind
            (D' := RTy.Declares V (.union lib name vs w)) ?_ (fun _ _ _ => (or_self_iff).symm)
          intro b2 hb2 hadd2 _
          have hhas : ∀ lib n u, listDecls V (vs.map Prod.snd) lib n u → b2.Has V lib n u := fun lib n u h =>
            hadd2.has (.inr (hadd.has (.inl h)))
          refine (Does.nth vs w b2 hb2 hgood hhas).bind (D' := RTy.Declares V (.union lib name vs w)) ?_ ?_
          · intro b3 hb3 hadd3 _
            exact Does.report S (t := .union lib name vs w) hU hb3 fun lib n u h => hadd3.has (.inl h)
          · intro lib' n u
            rw [RTy.declares_iff]
            constructor
            · intro h; exact .inr h
            · rintro (h | h)
              · exact .inl h
              · exact h
      · intro lib' n u
        rw [RTy.declares_iff]
        constructor
        · intro h; exact .inr h
        · rintro (h | h)
          · exact .inl h
          · exact h
    · intro h
      have := h.self.2
      exact ⟨fun p hp => h.part hp, ⟨this.1, this.2.1⟩, h.self.1, ⟨fun p hp => h.part hp, this.2.2⟩, h.self.1⟩

theorem Does.transpile {debug : Bool} (S : Setting V U K) : ∀ (ts : List RTy) (b : Transpiler),
    BuilderInv V U K b.toLibBuilder → (∀ t ∈ ts, U t) →
    Does V U K (Transpiler.transpile V.H debug ts b) Transpiler.toLibBuilder b.toLibBuilder
      (listDecls V ts) (fun _ => True) (∀ t ∈ ts, t.AllOk V K debug)
  | [], b, hb, _ => by
    unfold Transpiler.transpile
    exact .pure hb (Adds.none (by simp [listDecls])) trivial
  | t :: ts, b, hb, h => by
    unfold Transpiler.transpile
    refine ((RTy.good S t (h t (by simp)) b hb).bind (D' := listDecls V ts)
      (ok' := ∀ t ∈ ts, t.AllOk V K debug) ?_ ?_).mono ?_
    · intro b' hb' _ _
      exact Does.transpile S ts b' hb' fun t ht => h t (List.mem_cons_of_mem _ ht)
    · intro lib n u
      simp [listDecls]
    · intro h
      exact ⟨h t (by simp), fun p hp => h p (List.mem_cons_of_mem _ hp)⟩

end Verif
