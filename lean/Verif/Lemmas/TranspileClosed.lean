import Verif.Lemmas.TranspileFrame

/-! Helper lemmas: nothing referred to is missing, whatever is transpiled. -/

namespace Verif

/-- The external type is recorded and its library is known. -/
def LibBuilder.UseOk (b : LibBuilder) (s : SymbolRef) : Prop :=
  s.libName ≠ b.libName ∧ b.HasExtern s.libName s.tyName s.semId ∧
    ∃ d ids, (d, ids) ∈ b.knownLibs ∧ d.name = s.libName ∧ d.id = s.libId

/-- All the reference refers to is recorded. -/
structure LibBuilder.RefOk (b : LibBuilder) (r : TranspileRef) : Prop where
  names : ∀ m, r.Mentions m → ∃ u, b.HasType m u
  uses : ∀ s, r.Uses s → b.UseOk s

/-- All the type refers to is recorded. -/
def LibBuilder.TyOk (b : LibBuilder) (t : Ty TranspileRef) : Prop := ∀ r ∈ t.refs, b.RefOk r

/-- The builder keeps what it has. -/
structure Grows (b b' : LibBuilder) : Prop where
  libName : b'.libName = b.libName
  known : b'.knownLibs = b.knownLibs
  types : ∀ n u, b.HasType n u → ∃ u', b'.HasType n u'
  externs : ∀ lib n id, b.HasExtern lib n id → b'.HasExtern lib n id

theorem Grows.refl (b : LibBuilder) : Grows b b := ⟨rfl, rfl, fun _ u h => ⟨u, h⟩, fun _ _ _ h => h⟩

theorem Grows.trans {b b' b'' : LibBuilder} (h : Grows b b') (h' : Grows b' b'') : Grows b b'' :=
  ⟨h'.libName.trans h.libName, h'.known.trans h.known,
    fun n u hu => by obtain ⟨u', hu'⟩ := h.types n u hu; exact h'.types n u' hu',
    fun lib n id hi => h'.externs _ _ _ (h.externs _ _ _ hi)⟩

theorem Grows.refOk {b b' : LibBuilder} (h : Grows b b') {r : TranspileRef} (hr : b.RefOk r) : b'.RefOk r :=
  ⟨fun m hm => by obtain ⟨u, hu⟩ := hr.names m hm; exact h.types m u hu,
    fun s hs => by
      obtain ⟨h1, h2, h3⟩ := hr.uses s hs
      exact ⟨by rw [h.libName]; exact h1, h.externs _ _ _ h2, by rw [h.known]; exact h3⟩⟩

theorem Grows.tyOk {b b' : LibBuilder} (h : Grows b b') {t : Ty TranspileRef} (hr : b.TyOk t) : b'.TyOk t :=
  fun r hr' => h.refOk (hr r hr')

theorem LibBuilder.refOk_embedded {b : LibBuilder} {t : Ty TranspileRef} (h : b.TyOk t) :
    b.RefOk (.embedded t) := by
  constructor
  · intro m hm
    cases hm with
    | embedded hr hm => exact (h _ hr).names m hm
  · intro s hs
    cases hs with
    | embedded hr hs => exact (h _ hr).uses s hs

variable {V : View} {K : List (Dependency × Option (List SemId))} {P : Name → SemId → Prop}

/-- Invariant of the builder, whatever is transpiled. The names and ids of types of other libraries are those of `P`. -/
structure ClosedInv (V : View) (K : List (Dependency × Option (List SemId))) (P : Name → SemId → Prop)
    (b : Transpiler) : Prop where
  of : BuilderOf V K b
  types : ∀ n ty, b.HasType n ty → b.TyOk ty
  externs : ∀ lib n id, b.HasExtern lib n id → P n id
  last : ∀ r, b.last = some r → b.RefOk r

/-- The type compiled last is this named type of another library. -/
def Transpiler.LastIs (b : Transpiler) (lib : Name) (name : Option Name) : Prop :=
  ∀ n, name = some n → lib ≠ b.libName → ∃ libId id, b.last = some (.extern ⟨lib, n, libId, id⟩) ∧
    b.dependencyId lib = .ok libId

theorem dependencyId_mem {b : LibBuilder} {lib : Name} {id : LibId} (h : b.dependencyId lib = .ok id) :
    ∃ d ids, (d, ids) ∈ b.knownLibs ∧ d.name = lib ∧ d.id = id := by
  rw [dependencyId_ok] at h
  cases e : (b.knownLibs.map Prod.fst).find? fun d => d.name = lib with
  | none => rw [e] at h; simp at h
  | some d =>
    rw [e] at h
    obtain ⟨p, hp, rfl⟩ := List.mem_map.mp (List.mem_of_find?_eq_some e)
    have := List.find?_some e
    exact ⟨p.1, p.2, hp, by simpa using this, by simpa using h⟩

theorem closed_report (hP : ∀ n m id, P n id → P m id → n = m) {lib : Name} {name : Option Name}
    {ty : Ty TranspileRef} (hn : ∀ n, name = some n → lib ≠ V.own → P n (TranspileRef.semIdNamed V.H ty n))
    {b b' : Transpiler} (hb : ClosedInv V K P b) (hty : b.TyOk ty) (h : b.report V.H lib name ty = .ok b') :
    ClosedInv V K P b' ∧ Grows b.toLibBuilder b'.toLibBuilder ∧ b'.LastIs lib name := by
  cases name with
  | none =>
    simp only [Transpiler.report, Out.ok.injEq] at h
    subst h
    refine ⟨⟨hb.of, hb.types, hb.externs, ?_⟩, Grows.refl _, fun n hn => nomatch hn⟩
    intro r hr
    simp only [Option.some.injEq] at hr
    subst hr
    exact LibBuilder.refOk_embedded hty
  | some name =>
    unfold Transpiler.report at h
    simp only at h
    split at h
    · rename_i hl
      have h : { b with types := hmInsert b.types name ty, last := some (.named name) } = b' := by
        split at h
        · split at h
          · simpa using h
          · simp at h
        · simpa using h
      have hg : Grows b.toLibBuilder b'.toLibBuilder := by
        subst h
        refine ⟨rfl, rfl, ?_, fun _ _ _ h => h⟩
        intro n u hu
        by_cases hn : name = n
        · exact ⟨ty, by simp [LibBuilder.HasType, hmGet_insert, hn]⟩
        · exact ⟨u, by simpa [LibBuilder.HasType, hmGet_insert, hn] using hu⟩
      refine ⟨⟨⟨hg.libName.trans hb.of.1, hg.known.trans hb.of.2⟩, ?_, ?_, ?_⟩, hg, ?_⟩
      · intro n u hu
        subst h
        simp only [LibBuilder.HasType, hmGet_insert] at hu
        split at hu
        · simp only [Option.some.injEq] at hu
          subst hu
          exact hg.tyOk hty
        · exact hg.tyOk (hb.types n u hu)
      · subst h
        exact hb.externs
      · intro r hr
        subst h
        simp only [Option.some.injEq] at hr
        subst hr
        constructor
        · intro m hm
          cases hm
          exact ⟨ty, by simp [LibBuilder.HasType, hmGet_insert]⟩
        · intro s hs
          cases hs
      · intro n _ hne
        rw [hg.libName] at hne
        exact absurd hl hne
    · rename_i hl
      obtain ⟨libId, hid, h⟩ := Out.bind_eq_ok.mp h
      simp only [Out.pure_eq, Out.ok.injEq] at h
      have hnew : b'.HasExtern lib name (TranspileRef.semIdNamed V.H ty name) := by
        subst h
        exact ⟨_, by rw [hmGet_insert, if_pos rfl], by rw [OMap.get_insert, if_pos rfl]⟩
      have hcases : ∀ l n id, b'.HasExtern l n id →
          b.HasExtern l n id ∨ (l = lib ∧ n = name ∧ id = TranspileRef.semIdNamed V.H ty name) := by
        rintro l n id ⟨m, h1, h2⟩
        subst h
        simp only [hmGet_insert] at h1
        split at h1
        · rename_i hll
          simp only [Option.some.injEq] at h1
          subst h1
          rw [OMap.get_insert] at h2
          split at h2
          · rename_i hi
            simp only [Option.some.injEq] at h2
            exact .inr ⟨hll.symm, h2.symm, hi.symm⟩
          · subst hll
            cases hm : hmGet b.externTypes lib with
            | none => rw [hm] at h2; simp at h2
            | some m => rw [hm] at h2; exact .inl ⟨m, hm, h2⟩
        · exact .inl ⟨m, h1, h2⟩
      have hg : Grows b.toLibBuilder b'.toLibBuilder := by
        refine ⟨by subst h; rfl, by subst h; rfl, fun n u hu => ⟨u, by subst h; exact hu⟩, ?_⟩
        intro l n id hx
        by_cases hll : lib = l
        · subst hll
          by_cases hi : TranspileRef.semIdNamed V.H ty name = id
          · subst hi
            have := hP _ _ _ (hn name rfl (by rw [← hb.of.1]; exact hl)) (hb.externs lib n _ hx)
            subst this
            exact hnew
          · obtain ⟨m, h1, h2⟩ := hx
            subst h
            refine ⟨_, by rw [hmGet_insert, if_pos rfl], ?_⟩
            rw [OMap.get_insert, if_neg hi, h1]
            exact h2
        · obtain ⟨m, h1, h2⟩ := hx
          subst h
          exact ⟨m, by rw [hmGet_insert, if_neg hll]; exact h1, h2⟩
      refine ⟨⟨⟨hg.libName.trans hb.of.1, hg.known.trans hb.of.2⟩, ?_, ?_, ?_⟩, hg, ?_⟩
      · intro n u hu
        exact hg.tyOk (hb.types n u (by subst h; exact hu))
      · intro l n id hx
        rcases hcases l n id hx with hx | ⟨rfl, rfl, rfl⟩
        · exact hb.externs l n id hx
        · exact hn n rfl (by rw [← hb.of.1]; exact hl)
      · intro r hr
        have : r = .extern ⟨lib, name, libId, TranspileRef.semIdNamed V.H ty name⟩ := by
          subst h; simpa using hr.symm
        subst this
        constructor
        · intro m hm; cases hm
        · intro s hs
          cases hs
          refine ⟨?_, hnew, ?_⟩
          · simp only [hg.libName]; exact hl
          · rw [hg.known]; exact dependencyId_mem hid
      · intro n hn _
        cases hn
        exact ⟨libId, TranspileRef.semIdNamed V.H ty name, by subst h; rfl, by subst h; exact hid⟩

/-- Encoding keeps the invariant. -/
def RTy.Safe (V : View) (K : List (Dependency × Option (List SemId))) (P : Name → SemId → Prop) (debug : Bool)
    (t : RTy) : Prop :=
  ∀ b b' : Transpiler, ClosedInv V K P b → t.encode V.H debug b = .ok b' →
    ClosedInv V K P b' ∧ Grows b.toLibBuilder b'.toLibBuilder ∧ b'.LastIs t.lib t.name

theorem expect_ok {α : Type} {o : Option α} {x : α} (h : Out.expect (ε := Unit) o = .ok x) : o = some x := by
  cases o <;> simp [Out.expect] at h ⊢
  exact h

theorem closed_compileType {debug : Bool} {t : RTy} (ht : t.Safe V K P debug)
    {b b' : Transpiler} {r : TranspileRef} (hb : ClosedInv V K P b)
    (h : compileType V.H t.lib t.name (t.encode V.H debug) b = .ok (r, b')) :
    ClosedInv V K P b' ∧ Grows b.toLibBuilder b'.toLibBuilder ∧ b'.RefOk r := by
  have hcomp : ∀ r b', (do
      let b ← t.encode V.H debug b
      let r ← Out.expect b.last
      Pure.pure (r, b) : Out Unit _) = .ok (r, b') →
      (ClosedInv V K P b' ∧ Grows b.toLibBuilder b'.toLibBuilder ∧ b'.RefOk r) ∧ b'.LastIs t.lib t.name ∧
        b'.last = some r := by
    intro r b' h
    obtain ⟨b1, h1, h⟩ := Out.bind_eq_ok.mp h
    obtain ⟨r1, h2, h⟩ := Out.bind_eq_ok.mp h
    simp only [Out.pure_eq, Out.ok.injEq, Prod.mk.injEq] at h
    obtain ⟨rfl, rfl⟩ := h
    obtain ⟨h3, h4, h5⟩ := ht b _ hb h1
    exact ⟨⟨h3, h4, h3.last _ (expect_ok h2)⟩, h5, expect_ok h2⟩
  unfold compileType at h
  cases hn : t.name with
  | none => rw [hn] at h; exact (hcomp r b' h).1
  | some name =>
    rw [hn] at h
    simp only at h
    split at h
    · exact (hcomp r b' h).1
    · split at h
      · rename_i hl
        obtain ⟨⟨r1, b1⟩, h1, h⟩ := Out.bind_eq_ok.mp h
        obtain ⟨libId, h2, h⟩ := Out.bind_eq_ok.mp h
        simp only [Out.pure_eq, Out.ok.injEq, Prod.mk.injEq] at h
        obtain ⟨⟨h3, h4, h5⟩, h6, h7⟩ := hcomp r1 b1 h1
        obtain ⟨libId', id, h8, h9⟩ := h6 name hn (by rw [h4.libName]; exact hl)
        rw [h9] at h2
        cases h2
        rw [h7] at h8
        cases h8
        obtain ⟨rfl, rfl⟩ := h
        exact ⟨h3, h4, h5⟩
      · split at h
        · rename_i hs
          obtain ⟨ty, hty⟩ := Option.isSome_iff_exists.mp hs
          simp only [Out.ok.injEq, Prod.mk.injEq] at h
          obtain ⟨rfl, rfl⟩ := h
          refine ⟨hb, Grows.refl _, ?_, ?_⟩
          · intro m hm
            cases hm
            exact ⟨ty, hty⟩
          · intro s hs; cases hs
        · exact (hcomp r b' h).1

theorem closed_fields {debug : Bool} : ∀ (fs : List (Option Name × RTy)) (b b' : Transpiler)
    (rs : List (Option Name × TranspileRef)), (∀ p ∈ fs.map Prod.snd, p.Safe V K P debug) → ClosedInv V K P b →
    RTy.encodeFields V.H debug fs b = .ok (rs, b') →
    ClosedInv V K P b' ∧ Grows b.toLibBuilder b'.toLibBuilder ∧ ∀ r ∈ rs, b'.RefOk r.2
  | [], b, b', rs, _, hb, h => by
    simp only [RTy.encodeFields, Out.ok.injEq, Prod.mk.injEq] at h
    obtain ⟨rfl, rfl⟩ := h
    exact ⟨hb, Grows.refl _, by simp⟩
  | (n, t) :: fs, b, b', rs, hs, hb, h => by
    simp only [RTy.encodeFields] at h
    obtain ⟨⟨⟨n1, r1⟩, b1⟩, h1, h⟩ := Out.bind_eq_ok.mp h
    obtain ⟨⟨rs2, b2⟩, h2, h⟩ := Out.bind_eq_ok.mp h
    simp only [Out.pure_eq, Out.ok.injEq, Prod.mk.injEq] at h
    obtain ⟨rfl, rfl⟩ := h
    simp only [RTy.encodeField] at h1
    obtain ⟨⟨r3, b3⟩, h3, h1⟩ := Out.bind_eq_ok.mp h1
    simp only [Out.pure_eq, Out.ok.injEq, Prod.mk.injEq] at h1
    obtain ⟨⟨rfl, rfl⟩, rfl⟩ := h1
    obtain ⟨c1, g1, k1⟩ := closed_compileType (hs t (by simp)) hb h3
    obtain ⟨c2, g2, k2⟩ := closed_fields fs _ _ _ (fun p hp => hs p (by simp at hp ⊢; exact .inr hp)) c1 h2
    refine ⟨c2, g1.trans g2, ?_⟩
    intro r hr
    rcases List.mem_cons.mp hr with rfl | hr
    · exact g2.refOk k1
    · exact k2 r hr

theorem closed_variant {debug : Bool} {v : Variant × RTy} {b b' : Transpiler}
    {r : Variant × TranspileRef} (hs : v.2.Safe V K P debug) (hb : ClosedInv V K P b)
    (h : RTy.encodeVariant V.H debug v b = .ok (r, b')) :
    ClosedInv V K P b' ∧ Grows b.toLibBuilder b'.toLibBuilder ∧ b'.RefOk r.2 := by
  obtain ⟨v, t⟩ := v
  simp only [RTy.encodeVariant] at h
  obtain ⟨b1, h1, h⟩ := Out.bind_eq_ok.mp h
  obtain ⟨r1, h2, h⟩ := Out.bind_eq_ok.mp h
  simp only [Out.pure_eq, Out.ok.injEq, Prod.mk.injEq] at h
  obtain ⟨rfl, rfl⟩ := h
  obtain ⟨c1, g1, -⟩ := hs b _ hb h1
  exact ⟨c1, g1, c1.last _ (expect_ok h2)⟩

theorem closed_variants {debug : Bool} : ∀ (fs : List (Variant × RTy)) (b b' : Transpiler)
    (rs : List (Variant × TranspileRef)), (∀ p ∈ fs.map Prod.snd, p.Safe V K P debug) → ClosedInv V K P b →
    RTy.encodeVariants V.H debug fs b = .ok (rs, b') →
    ClosedInv V K P b' ∧ Grows b.toLibBuilder b'.toLibBuilder ∧ ∀ r ∈ rs, b'.RefOk r.2
  | [], b, b', rs, _, hb, h => by
    simp only [RTy.encodeVariants, Out.ok.injEq, Prod.mk.injEq] at h
    obtain ⟨rfl, rfl⟩ := h
    exact ⟨hb, Grows.refl _, by simp⟩
  | v :: fs, b, b', rs, hs, hb, h => by
    simp only [RTy.encodeVariants] at h
    obtain ⟨⟨r1, b1⟩, h1, h⟩ := Out.bind_eq_ok.mp h
    obtain ⟨⟨rs2, b2⟩, h2, h⟩ := Out.bind_eq_ok.mp h
    simp only [Out.pure_eq, Out.ok.injEq, Prod.mk.injEq] at h
    obtain ⟨rfl, rfl⟩ := h
    obtain ⟨c1, g1, k1⟩ := closed_variant (hs v.2 (by simp)) hb h1
    obtain ⟨c2, g2, k2⟩ := closed_variants fs _ _ _ (fun p hp => hs p (by simp at hp ⊢; exact .inr hp)) c1 h2
    refine ⟨c2, g1.trans g2, ?_⟩
    intro r hr
    rcases List.mem_cons.mp hr with rfl | hr
    · exact g2.refOk k1
    · exact k2 r hr

theorem closed_nth {debug : Bool} : ∀ (fs : List (Variant × RTy)) (w : Nat) (b b' : Transpiler),
    (∀ p ∈ fs.map Prod.snd, p.Safe V K P debug) → ClosedInv V K P b →
    RTy.encodeNth V.H debug fs w b = .ok b' → ClosedInv V K P b' ∧ Grows b.toLibBuilder b'.toLibBuilder
  | [], w, b, b', _, _, h => by simp [RTy.encodeNth] at h
  | v :: fs, 0, b, b', hs, hb, h => by
    simp only [RTy.encodeNth] at h
    obtain ⟨⟨r1, b1⟩, h1, h⟩ := Out.bind_eq_ok.mp h
    simp only [Out.pure_eq, Out.ok.injEq] at h
    subst h
    obtain ⟨c1, g1, -⟩ := closed_variant (hs v.2 (by simp)) hb h1
    exact ⟨c1, g1⟩
  | v :: fs, w + 1, b, b', hs, hb, h => by
    simp only [RTy.encodeNth] at h
    exact closed_nth fs w b b' (fun p hp => hs p (by simp at hp ⊢; exact .inr hp)) hb h

theorem fieldNames_refs : ∀ {rs : List (Option Name × TranspileRef)} {l : List (Name × TranspileRef)},
    fieldNames rs = .ok l → l.map Prod.snd = rs.map Prod.snd
  | [], l, h => by simp [fieldNames] at h; subst h; rfl
  | (n, r) :: rs, l, h => by
    simp only [fieldNames] at h
    obtain ⟨n1, h1, h⟩ := Out.bind_eq_ok.mp h
    obtain ⟨l2, h2, h⟩ := Out.bind_eq_ok.mp h
    simp only [Out.pure_eq, Out.ok.injEq] at h
    subst h
    simp [fieldNames_refs h2]

theorem buildStruct_refs {isTuple : Bool} {rs : List (Option Name × TranspileRef)} {ty : Ty TranspileRef}
    (h : buildStruct isTuple rs = .ok ty) : ∀ r ∈ ty.refs, ∃ x ∈ rs, x.2 = r := by
  unfold buildStruct at h
  split at h
  · simp only [Out.ok.injEq] at h
    subst h
    simp [Ty.refs]
  · split at h
    · split at h
      · simp only [Out.ok.injEq] at h
        subst h
        intro r hr
        exact List.mem_map.mp hr
      · simp at h
    · obtain ⟨l, hl, h⟩ := Out.bind_eq_ok.mp h
      split at h
      · simp only [Out.pure_eq, Out.ok.injEq] at h
        subst h
        intro r hr
        simp only [Ty.refs, fieldNames_refs hl] at hr
        exact List.mem_map.mp hr
      · simp at h

theorem mem_of_insertTag {α : Type} {tag : α → Nat} {x y : α} : ∀ {l : List α},
    y ∈ insertTag tag x l → y = x ∨ y ∈ l
  | [], h => by simp [insertTag] at h; exact .inl h
  | z :: l, h => by
    unfold insertTag at h
    split at h
    · simpa using h
    · split at h
      · rcases List.mem_cons.mp h with h | h
        · exact .inl h
        · exact .inr (List.mem_cons_of_mem _ h)
      · rcases List.mem_cons.mp h with h | h
        · exact .inr (by simp [h])
        · exact (mem_of_insertTag h).imp id (List.mem_cons_of_mem _)

theorem mem_of_sortFold {α : Type} {tag : α → Nat} {y : α} : ∀ (l s : List α),
    y ∈ l.foldl (fun s x => insertTag tag x s) s → y ∈ s ∨ y ∈ l
  | [], s, h => .inl h
  | x :: l, s, h => by
    rcases mem_of_sortFold l _ h with h | h
    · rcases mem_of_insertTag h with h | h
      · exact .inr (by simp [h])
      · exact .inl h
    · exact .inr (List.mem_cons_of_mem _ h)

theorem buildUnion_refs {rs : List (Variant × TranspileRef)} {ty : Ty TranspileRef}
    (h : buildUnion rs = .ok ty) : ∀ r ∈ ty.refs, ∃ x ∈ rs, x.2 = r := by
  unfold buildUnion at h
  simp only at h
  split at h
  · simp only [Out.ok.injEq] at h
    subst h
    intro r hr
    obtain ⟨x, hx, rfl⟩ := List.mem_map.mp hr
    rcases mem_of_sortFold _ _ hx with hx | hx
    · simp at hx
    · exact ⟨x, hx, rfl⟩
  · simp at h

theorem buildEnum_refs {vs : List Variant} {ty : Ty TranspileRef}
    (h : buildEnum vs = .ok ty) : ty.refs = [] := by
  unfold buildEnum at h
  simp only at h
  split at h
  · simp only [Out.ok.injEq] at h
    subst h
    rfl
  · simp at h

theorem ClosedInv.embed {b : Transpiler} (hb : ClosedInv V K P b) {ty : Ty TranspileRef}
    (h : b.TyOk ty) : ClosedInv V K P { b with last := some (.embedded ty) } :=
  ⟨hb.of, hb.types, hb.externs, fun r hr => by
    simp only [Option.some.injEq] at hr
    subst hr
    exact LibBuilder.refOk_embedded h⟩

theorem RTy.lastIs_none {t : RTy} {b : Transpiler} (h : t.name = none) : b.LastIs t.lib t.name := by
  intro n hn
  rw [h] at hn
  cases hn

/-- The named types of other libraries which the type mentions have names and ids of `P`. -/
def RTy.Listed (V : View) (P : Name → SemId → Prop) (t : RTy) : Prop :=
  ∀ s, t.Contains s → ∀ n, s.name = some n → s.lib ≠ V.own → P n (TranspileRef.semIdNamed V.H (s.ty V) n)

theorem RTy.safe (hdep : DepsOk V K) (hP : ∀ n m id, P n id → P m id → n = m) {debug : Bool} (t : RTy) :
    (∀ s, t.Contains s → s.DistinctTags) → t.Listed V P → t.Safe V K P debug := by
  induction t using RTy.induct with | _ t ih
  intro htags hlist b b' hb h
  have ihp : ∀ p ∈ t.parts, p.Framed V K debug := fun p hp =>
    (RTy.framed hdep p fun s hs => htags s (.step hp hs)).1
  have ih : ∀ p ∈ t.parts, p.Safe V K P debug := fun p hp =>
    ih p hp (fun s hs => htags s (.step hp hs)) fun s hs => hlist s (.step hp hs)
  have hself := hlist t (.refl t)
  have one : ∀ (p : RTy) (f : TranspileRef → Ty TranspileRef), p ∈ t.parts → (∀ r, (f r).refs = [r]) →
      t.name = none → (do
        let b ← RTy.encode V.H debug p b
        let r ← Out.expect b.last
        Pure.pure { b with last := some (.embedded (f r)) } : Out Unit Transpiler) = .ok b' →
      ClosedInv V K P b' ∧ Grows b.toLibBuilder b'.toLibBuilder ∧ b'.LastIs t.lib t.name := by
    intro p f hp hf hn h
    obtain ⟨b1, h1, h⟩ := Out.bind_eq_ok.mp h
    obtain ⟨r, h2, h⟩ := Out.bind_eq_ok.mp h
    simp only [Out.pure_eq, Out.ok.injEq] at h
    subst h
    obtain ⟨c1, g1, -⟩ := ih p hp b b1 hb h1
    refine ⟨c1.embed ?_, g1, RTy.lastIs_none hn⟩
    intro r' hr'
    rw [hf] at hr'
    simp only [List.mem_cons, List.not_mem_nil, or_false] at hr'
    subst hr'
    exact c1.last _ (expect_ok h2)
  cases t with
  | prim c =>
    simp only [RTy.encode, Out.ok.injEq] at h
    subst h
    exact ⟨hb.embed (by simp [LibBuilder.TyOk, Ty.refs]), Grows.refl _, RTy.lastIs_none rfl⟩
  | unicode sz =>
    simp only [RTy.encode, Out.ok.injEq] at h
    subst h
    refine ⟨hb.embed ?_, Grows.refl _, RTy.lastIs_none rfl⟩
    intro r hr
    simp only [Ty.refs, List.mem_cons, List.not_mem_nil, or_false] at hr
    subst hr
    exact LibBuilder.refOk_embedded (by simp [LibBuilder.TyOk, Ty.refs])
  | array p len =>
    exact one p (fun r => .array r len) (by simp [RTy.parts]) (fun _ => rfl) rfl (by simpa [RTy.encode] using h)
  | list p len =>
    exact one p (fun r => .list r len) (by simp [RTy.parts]) (fun _ => rfl) rfl (by simpa [RTy.encode] using h)
  | set p len =>
    exact one p (fun r => .set r len) (by simp [RTy.parts]) (fun _ => rfl) rfl (by simpa [RTy.encode] using h)
  | map k p len =>
    simp only [RTy.encode] at h
    obtain ⟨b1, h1, h⟩ := Out.bind_eq_ok.mp h
    obtain ⟨key, h2, h⟩ := Out.bind_eq_ok.mp h
    obtain ⟨b2, h3, h⟩ := Out.bind_eq_ok.mp h
    obtain ⟨r, h4, h⟩ := Out.bind_eq_ok.mp h
    simp only [Out.pure_eq, Out.ok.injEq] at h
    subst h
    obtain ⟨c1, g1, -⟩ := ih k (by simp [RTy.parts]) b b1 hb h1
    obtain ⟨c2, g2, -⟩ := ih p (by simp [RTy.parts]) b1 b2 c1 h3
    refine ⟨c2.embed ?_, g1.trans g2, RTy.lastIs_none rfl⟩
    intro r' hr'
    simp only [Ty.refs, List.mem_cons, List.not_mem_nil, or_false] at hr'
    rcases hr' with rfl | rfl
    · exact g2.refOk (c1.last _ (expect_ok h2))
    · exact c2.last _ (expect_ok h4)
  | rstring c c1 sz =>
    simp only [RTy.encode] at h
    obtain ⟨b1, h1, h⟩ := Out.bind_eq_ok.mp h
    obtain ⟨r1, h2, h⟩ := Out.bind_eq_ok.mp h
    obtain ⟨b2, h3, h⟩ := Out.bind_eq_ok.mp h
    obtain ⟨r2, h4, h⟩ := Out.bind_eq_ok.mp h
    obtain ⟨mn, -, h⟩ := Out.bind_eq_ok.mp h
    obtain ⟨mx, -, h⟩ := Out.bind_eq_ok.mp h
    simp only [Out.pure_eq, Out.ok.injEq] at h
    subst h
    obtain ⟨k1, g1, -⟩ := ih c1 (by simp [RTy.parts]) b b1 hb h1
    obtain ⟨k2, g2, -⟩ := ih c (by simp [RTy.parts]) b1 b2 k1 h3
    refine ⟨k2.embed ?_, g1.trans g2, RTy.lastIs_none rfl⟩
    intro r' hr'
    simp only [Ty.refs, List.mem_cons, List.not_mem_nil, or_false] at hr'
    rcases hr' with rfl | rfl
    · exact g2.refOk (k1.last _ (expect_ok h2))
    · refine LibBuilder.refOk_embedded ?_
      intro r' hr'
      simp only [Ty.refs, List.mem_cons, List.not_mem_nil, or_false] at hr'
      subst hr'
      exact k2.last _ (expect_ok h4)
  | record lib name isTuple fs =>
    simp only [RTy.encode] at h
    obtain ⟨⟨rs, b1⟩, h1, h⟩ := Out.bind_eq_ok.mp h
    obtain ⟨ty, h2, h⟩ := Out.bind_eq_ok.mp h
    obtain ⟨c1, g1, k1⟩ := closed_fields fs b b1 rs ih hb h1
    have k2 := (framed_fields hdep fs b b1 rs ihp hb.of h1).2.2
    subst k2
    have e2 := (buildStruct_spec (lib := lib) (name := name)).1 _ h2
    obtain ⟨c2, g2, l2⟩ := closed_report hP (ty := ty) (lib := lib) (name := name) (by rw [e2]; exact hself) c1 (by
      intro r hr
      obtain ⟨x, hx, rfl⟩ := buildStruct_refs h2 r hr
      exact k1 x hx) h
    exact ⟨c2, g1.trans g2, l2⟩
  | enum lib name vs =>
    simp only [RTy.encode] at h
    obtain ⟨ty, h2, h⟩ := Out.bind_eq_ok.mp h
    obtain ⟨b1, h1, h⟩ := Out.bind_eq_ok.mp h
    have hty : ∀ b : LibBuilder, b.TyOk ty := by
      intro b r hr
      rw [buildEnum_refs h2] at hr
      simp at hr
    have e2 := buildEnum_eq (htags _ (.refl _)) h2
    have hn : ∀ n, name = some n → lib ≠ V.own → P n (TranspileRef.semIdNamed V.H ty n) := by
      rw [RTy.ty] at hself
      rw [e2]; exact hself
    obtain ⟨c1, g1, -⟩ := closed_report hP hn hb (hty _) h1
    obtain ⟨c2, g2, l2⟩ := closed_report hP hn c1 (hty _) h
    exact ⟨c2, g1.trans g2, l2⟩
  | union lib name vs w =>
    simp only [RTy.encode] at h
    obtain ⟨⟨rs, b1⟩, h1, h⟩ := Out.bind_eq_ok.mp h
    obtain ⟨ty, h2, h⟩ := Out.bind_eq_ok.mp h
    obtain ⟨b2, h3, h⟩ := Out.bind_eq_ok.mp h
    obtain ⟨b3, h4, h5⟩ := Out.bind_eq_ok.mp h
    obtain ⟨c1, g1, k1⟩ := closed_variants vs b b1 rs ih hb h1
    have hty : b1.TyOk ty := by
      intro r hr
      obtain ⟨x, hx, rfl⟩ := buildUnion_refs h2 r hr
      exact k1 x hx
    have k2 := (framed_variants vs b b1 rs ihp hb.of h1).2.2
    subst k2
    have e2 := buildUnion_eq (by rw [tyVariants_tags]; exact htags _ (.refl _)) h2
    have hn : ∀ n, name = some n → lib ≠ V.own → P n (TranspileRef.semIdNamed V.H ty n) := by
      rw [RTy.ty] at hself
      rw [e2]; exact hself
    obtain ⟨c2, g2, -⟩ := closed_report hP hn c1 hty h3
    obtain ⟨c3, g3⟩ := closed_nth vs w b2 b3 ih c2 h4
    obtain ⟨c4, g4, l4⟩ := closed_report hP hn c3 (g3.tyOk (g2.tyOk hty)) h5
    exact ⟨c4, ((g1.trans g2).trans g3).trans g4, l4⟩

theorem closed_transpile (hdep : DepsOk V K) (hP : ∀ n m id, P n id → P m id → n = m) {debug : Bool} :
    ∀ (ts : List RTy) (b b' : Transpiler), (∀ t ∈ ts, ∀ s, t.Contains s → s.DistinctTags) →
    (∀ t ∈ ts, t.Listed V P) → ClosedInv V K P b → Transpiler.transpile V.H debug ts b = .ok b' →
    ClosedInv V K P b' ∧ Grows b.toLibBuilder b'.toLibBuilder
  | [], b, b', _, _, hb, h => by
    simp only [Transpiler.transpile, Out.ok.injEq] at h
    subst h
    exact ⟨hb, Grows.refl _⟩
  | t :: ts, b, b', htags, hlist, hb, h => by
    simp only [Transpiler.transpile] at h
    obtain ⟨b1, h1, h⟩ := Out.bind_eq_ok.mp h
    obtain ⟨c1, g1, -⟩ := RTy.safe hdep hP t (htags t (by simp)) (hlist t (by simp)) b b1 hb h1
    obtain ⟨c2, g2⟩ := closed_transpile hdep hP ts b1 b' (fun t ht => htags t (by simp [ht]))
      (fun t ht => hlist t (by simp [ht])) c1 h
    exact ⟨c2, g1.trans g2⟩

end Verif
