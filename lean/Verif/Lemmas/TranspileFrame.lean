import Verif.Lemmas.Transpile

/-! Helper lemmas: what encoding a type does with the names it does not declare, whatever the builder
has recorded before. -/

namespace Verif

variable {V : View} {K : List (Dependency × Option (List SemId))}

/-- The builder belongs to the library, and knows the libraries. -/
def BuilderOf (V : View) (K : List (Dependency × Option (List SemId))) (b : Transpiler) : Prop :=
  b.libName = V.own ∧ b.knownLibs = K

/-- Names other than these are left alone. -/
def Keeps (D : Name → Prop) (b b' : Transpiler) : Prop :=
  ∀ n, ¬ D n → hmGet b'.types n = hmGet b.types n

theorem Keeps.refl (D : Name → Prop) (b : Transpiler) : Keeps D b b := fun _ _ => rfl

theorem Keeps.trans {D : Name → Prop} {b b' b'' : Transpiler} (h : Keeps D b b') (h' : Keeps D b' b'') :
    Keeps D b b'' := fun n hn => (h' n hn).trans (h n hn)

theorem Keeps.mono {D D' : Name → Prop} {b b' : Transpiler} (h : Keeps D b b') (hd : ∀ n, D n → D' n) :
    Keeps D' b b' := fun n hn => h n fun h' => hn (hd n h')

/-- The names of the library which the type declares. -/
def RTy.ownNames (V : View) (t : RTy) (n : Name) : Prop := ∃ ty, t.Declares V V.own n ty

theorem RTy.ownNames_part {t p : RTy} (hp : p ∈ t.parts) (n : Name) (h : p.ownNames V n) : t.ownNames V n := by
  obtain ⟨ty, s, hs, h⟩ := h
  exact ⟨ty, s, .step hp hs, h⟩

/-- Encoding results in a reference to the type and leaves other names alone. -/
def RTy.Framed (V : View) (K : List (Dependency × Option (List SemId))) (debug : Bool) (t : RTy) : Prop :=
  ∀ b b' : Transpiler, BuilderOf V K b → t.encode V.H debug b = .ok b' →
    BuilderOf V K b' ∧ Keeps (t.ownNames V) b b' ∧ b'.last = some (t.ref V)

theorem expect_eq_ok {α : Type} {o : Option α} {x : α} (h : Out.expect (ε := Unit) o = .ok x) : o = some x := by
  cases o <;> simp [Out.expect] at h ⊢
  exact h

theorem framed_report (hdep : DepsOk V K) {t : RTy} {b b' : Transpiler} (hb : BuilderOf V K b)
    (h : b.report V.H t.lib t.name (t.ty V) = .ok b') :
    BuilderOf V K b' ∧ Keeps (t.ownNames V) b b' ∧ b'.last = some (t.ref V) ∧
      ∀ n, t.lib = V.own → t.name = some n → b'.HasType n (t.ty V) ∧
        ∀ old, b.HasType n old → TranspileRef.eqvTy old (t.ty V) = true := by
  cases hn : t.name with
  | none =>
    rw [hn] at h
    simp only [Transpiler.report, Out.ok.injEq] at h
    subst h
    exact ⟨hb, fun _ _ => rfl, by simp [RTy.ref, View.ref, hn], fun n _ h => nomatch h⟩
  | some name =>
    rw [hn] at h
    unfold Transpiler.report at h
    simp only [hb.1] at h
    split at h
    · rename_i hl
      have h : { b with types := hmInsert b.types name (t.ty V), last := some (.named name) } = b' ∧
          ∀ old, b.HasType name old → TranspileRef.eqvTy old (t.ty V) = true := by
        split at h
        · rename_i old ho
          split at h
          · rename_i he
            refine ⟨by simpa [hb.1] using h, ?_⟩
            intro old' ho'
            rw [LibBuilder.HasType, ho] at ho'
            simp only [Option.some.injEq] at ho'
            rw [← ho']
            exact he
          · simp at h
        · rename_i ho
          refine ⟨by simpa [hb.1] using h, ?_⟩
          intro old' ho'
          rw [LibBuilder.HasType, ho] at ho'
          simp at ho'
      obtain ⟨h, he⟩ := h
      subst h
      refine ⟨hb, ?_, by simp [RTy.ref, View.ref, hn, hl], ?_⟩
      · intro n hne
        have : name ≠ n := by
          rintro rfl
          exact hne ⟨t.ty V, t, .refl t, hl, hn, rfl⟩
        simp [hmGet_insert, this]
      · intro n _ hn'
        cases hn'
        exact ⟨by simp [LibBuilder.HasType, hmGet_insert], he⟩
    · rename_i hl
      obtain ⟨libId, hid, h⟩ := Out.bind_eq_ok.mp h
      simp only [Out.pure_eq, Out.ok.injEq] at h
      subst h
      rw [dependencyId_ok, hb.2] at hid
      exact ⟨⟨rfl, hb.2⟩, fun _ _ => rfl, by simp [RTy.ref, View.ref, hn, hl, hdep _ _ hid],
        fun n h => absurd h hl⟩

theorem framed_compileType (hdep : DepsOk V K) {debug : Bool} {t : RTy} (ht : t.Framed V K debug)
    {b b' : Transpiler} {r : TranspileRef} (hb : BuilderOf V K b)
    (h : compileType V.H t.lib t.name (t.encode V.H debug) b = .ok (r, b')) :
    BuilderOf V K b' ∧ Keeps (t.ownNames V) b b' ∧ r = t.ref V := by
  have hcomp : ∀ r b', (do
      let b ← t.encode V.H debug b
      let r ← Out.expect b.last
      Pure.pure (r, b) : Out Unit _) = .ok (r, b') →
      BuilderOf V K b' ∧ Keeps (t.ownNames V) b b' ∧ r = t.ref V := by
    intro r b' h
    obtain ⟨b1, h1, h⟩ := Out.bind_eq_ok.mp h
    obtain ⟨r1, h2, h⟩ := Out.bind_eq_ok.mp h
    simp only [Out.pure_eq, Out.ok.injEq, Prod.mk.injEq] at h
    obtain ⟨rfl, rfl⟩ := h
    obtain ⟨h3, h4, h5⟩ := ht b _ hb h1
    have := expect_eq_ok h2
    rw [h5] at this
    cases this
    exact ⟨h3, h4, rfl⟩
  unfold compileType at h
  cases hn : t.name with
  | none => rw [hn] at h; exact hcomp r b' h
  | some name =>
    rw [hn] at h
    simp only at h
    split at h
    · exact hcomp r b' h
    · split at h
      · rename_i hl
        rw [hb.1] at hl
        obtain ⟨⟨r1, b1⟩, h1, h⟩ := Out.bind_eq_ok.mp h
        obtain ⟨libId, h2, h⟩ := Out.bind_eq_ok.mp h
        simp only [Out.pure_eq, Out.ok.injEq, Prod.mk.injEq] at h
        obtain ⟨rfl, rfl⟩ := h
        obtain ⟨h3, h4, h5⟩ := hcomp r1 b1 h1
        subst h5
        rw [dependencyId_ok, h3.2] at h2
        exact ⟨h3, h4, by simp [RTy.ref, View.ref, hn, hl, hdep _ _ h2, TranspileRef.id]⟩
      · rename_i hl
        rw [hb.1] at hl
        have hl : t.lib = V.own := Decidable.byContradiction hl
        split at h
        · simp only [Out.ok.injEq, Prod.mk.injEq] at h
          obtain ⟨rfl, rfl⟩ := h
          exact ⟨hb, Keeps.refl _ _, by simp [RTy.ref, View.ref, hn, hl]⟩
        · exact hcomp r b' h

/-- The names of the library which some of the types declare. -/
def listNames (V : View) (ts : List RTy) (n : Name) : Prop := ∃ p ∈ ts, p.ownNames V n

theorem framed_fields (hdep : DepsOk V K) {debug : Bool} : ∀ (fs : List (Option Name × RTy))
    (b b' : Transpiler) (rs : List (Option Name × TranspileRef)),
    (∀ p ∈ fs.map Prod.snd, p.Framed V K debug) → BuilderOf V K b →
    RTy.encodeFields V.H debug fs b = .ok (rs, b') →
    BuilderOf V K b' ∧ Keeps (listNames V (fs.map Prod.snd)) b b' ∧ rs = RTy.tyFields V fs
  | [], b, b', rs, _, hb, h => by
    simp only [RTy.encodeFields, Out.ok.injEq, Prod.mk.injEq] at h
    obtain ⟨rfl, rfl⟩ := h
    exact ⟨hb, Keeps.refl _ _, rfl⟩
  | (n, t) :: fs, b, b', rs, hs, hb, h => by
    simp only [RTy.encodeFields] at h
    obtain ⟨⟨⟨n1, r1⟩, b1⟩, h1, h⟩ := Out.bind_eq_ok.mp h
    obtain ⟨⟨rs2, b2⟩, h2, h⟩ := Out.bind_eq_ok.mp h
    simp only [Out.pure_eq, Out.ok.injEq, Prod.mk.injEq] at h
    obtain ⟨rfl, rfl⟩ := h
    simp only [RTy.encodeField] at h1
    obtain ⟨⟨r3, b3⟩, h3, h1⟩ := Out.bind_eq_ok.mp h1
    simp only [Out.pure_eq, Out.ok.injEq, Prod.mk.injEq] at h1
    obtain ⟨⟨rfl, rfl⟩, rfl⟩ := h1
    obtain ⟨c1, g1, k1⟩ := framed_compileType hdep (hs t (by simp)) hb h3
    obtain ⟨c2, g2, k2⟩ := framed_fields hdep fs _ _ _ (fun p hp => hs p (by simp at hp ⊢; exact .inr hp)) c1 h2
    refine ⟨c2, ?_, by rw [k1, k2]; rfl⟩
    refine (g1.mono ?_).trans (g2.mono ?_)
    · intro m hm
      exact ⟨t, by simp, hm⟩
    · rintro m ⟨p, hp, hm⟩
      exact ⟨p, by simp at hp ⊢; exact .inr hp, hm⟩

theorem framed_variant {debug : Bool} {v : Variant × RTy} {b b' : Transpiler}
    {r : Variant × TranspileRef} (hs : v.2.Framed V K debug) (hb : BuilderOf V K b)
    (h : RTy.encodeVariant V.H debug v b = .ok (r, b')) :
    BuilderOf V K b' ∧ Keeps (v.2.ownNames V) b b' ∧ r = RTy.tyVariant V v := by
  obtain ⟨v, t⟩ := v
  simp only [RTy.encodeVariant] at h
  obtain ⟨b1, h1, h⟩ := Out.bind_eq_ok.mp h
  obtain ⟨r1, h2, h⟩ := Out.bind_eq_ok.mp h
  simp only [Out.pure_eq, Out.ok.injEq, Prod.mk.injEq] at h
  obtain ⟨rfl, rfl⟩ := h
  obtain ⟨c1, g1, k1⟩ := hs b _ hb h1
  have := expect_eq_ok h2
  rw [k1] at this
  cases this
  exact ⟨c1, g1, rfl⟩

theorem framed_variants {debug : Bool} : ∀ (fs : List (Variant × RTy)) (b b' : Transpiler)
    (rs : List (Variant × TranspileRef)), (∀ p ∈ fs.map Prod.snd, p.Framed V K debug) → BuilderOf V K b →
    RTy.encodeVariants V.H debug fs b = .ok (rs, b') →
    BuilderOf V K b' ∧ Keeps (listNames V (fs.map Prod.snd)) b b' ∧ rs = RTy.tyVariants V fs
  | [], b, b', rs, _, hb, h => by
    simp only [RTy.encodeVariants, Out.ok.injEq, Prod.mk.injEq] at h
    obtain ⟨rfl, rfl⟩ := h
    exact ⟨hb, Keeps.refl _ _, rfl⟩
  | v :: fs, b, b', rs, hs, hb, h => by
    simp only [RTy.encodeVariants] at h
    obtain ⟨⟨r1, b1⟩, h1, h⟩ := Out.bind_eq_ok.mp h
    obtain ⟨⟨rs2, b2⟩, h2, h⟩ := Out.bind_eq_ok.mp h
    simp only [Out.pure_eq, Out.ok.injEq, Prod.mk.injEq] at h
    obtain ⟨rfl, rfl⟩ := h
    obtain ⟨c1, g1, k1⟩ := framed_variant (hs v.2 (by simp)) hb h1
    obtain ⟨c2, g2, k2⟩ := framed_variants fs _ _ _ (fun p hp => hs p (by simp at hp ⊢; exact .inr hp)) c1 h2
    refine ⟨c2, ?_, by rw [k1, k2]; rfl⟩
    refine (g1.mono ?_).trans (g2.mono ?_)
    · intro m hm
      exact ⟨v.2, by simp, hm⟩
    · rintro m ⟨p, hp, hm⟩
      exact ⟨p, by simp at hp ⊢; exact .inr hp, hm⟩

theorem framed_nth {debug : Bool} : ∀ (fs : List (Variant × RTy)) (w : Nat) (b b' : Transpiler),
    (∀ p ∈ fs.map Prod.snd, p.Framed V K debug) → BuilderOf V K b →
    RTy.encodeNth V.H debug fs w b = .ok b' →
    BuilderOf V K b' ∧ Keeps (listNames V (fs.map Prod.snd)) b b'
  | [], w, b, b', _, _, h => by simp [RTy.encodeNth] at h
  | v :: fs, 0, b, b', hs, hb, h => by
    simp only [RTy.encodeNth] at h
    obtain ⟨⟨r1, b1⟩, h1, h⟩ := Out.bind_eq_ok.mp h
    simp only [Out.pure_eq, Out.ok.injEq] at h
    subst h
    obtain ⟨c1, g1, -⟩ := framed_variant (hs v.2 (by simp)) hb h1
    exact ⟨c1, g1.mono fun m hm => ⟨v.2, by simp, hm⟩⟩
  | v :: fs, w + 1, b, b', hs, hb, h => by
    simp only [RTy.encodeNth] at h
    obtain ⟨c1, g1⟩ := framed_nth fs w b b' (fun p hp => hs p (by simp at hp ⊢; exact .inr hp)) hb h
    refine ⟨c1, g1.mono ?_⟩
    rintro m ⟨p, hp, hm⟩
    exact ⟨p, by simp at hp ⊢; exact .inr hp, hm⟩

theorem buildEnum_eq {vs : List Variant} (hd : (vs.map Variant.tag).Nodup) {ty : Ty TranspileRef}
    (h : buildEnum vs = .ok ty) : ty = .enum (byTag Variant.tag vs) := by
  unfold buildEnum at h
  rw [(sortTags_eq hd).1] at h
  simp only at h
  split at h
  · simpa using h.symm
  · simp at h

theorem buildUnion_eq {vs : List (Variant × TranspileRef)} (hd : (vs.map fun v => v.1.tag).Nodup)
    {ty : Ty TranspileRef} (h : buildUnion vs = .ok ty) : ty = .union (byTag (fun v => v.1.tag) vs) := by
  unfold buildUnion at h
  rw [(sortTags_eq (tag := fun v : Variant × TranspileRef => v.1.tag) hd).1] at h
  simp only at h
  split at h
  · simpa using h.symm
  · simp at h

theorem RTy.framed_unnamed {t : RTy} (h : t.name = none) : some (.embedded (t.ty V)) = some (t.ref V) := by
  simp [RTy.ref, View.ref, h]

/-- Encoding, with what happens to the own name of the type: if nothing inside declares the name, the
type recorded before is equal to the type, which is recorded afterwards. -/
def RTy.FramedTop (V : View) (K : List (Dependency × Option (List SemId))) (debug : Bool) (t : RTy) : Prop :=
  ∀ b b' : Transpiler, BuilderOf V K b → t.encode V.H debug b = .ok b' →
    ∀ n, t.lib = V.own → t.name = some n → b'.HasType n (t.ty V) ∧
      (¬ listNames V t.parts n → ∀ old, b.HasType n old → TranspileRef.eqvTy old (t.ty V) = true)

theorem RTy.framed (hdep : DepsOk V K) {debug : Bool} (t : RTy) :
    (∀ s, t.Contains s → s.DistinctTags) → t.Framed V K debug ∧ t.FramedTop V K debug := by
  induction t using RTy.induct with | _ t ih
  intro htags
  have ihp : ∀ p ∈ t.parts, p.Framed V K debug := fun p hp =>
    (ih p hp fun s hs => htags s (.step hp hs)).1
  have main : ∀ b b' : Transpiler, BuilderOf V K b → t.encode V.H debug b = .ok b' →
      (BuilderOf V K b' ∧ Keeps (t.ownNames V) b b' ∧ b'.last = some (t.ref V)) ∧
      ∀ n, t.lib = V.own → t.name = some n → b'.HasType n (t.ty V) ∧
        (¬ listNames V t.parts n → ∀ old, b.HasType n old → TranspileRef.eqvTy old (t.ty V) = true) := by
    intro b b' hb h
    have sub : ∀ {b b' : Transpiler}, Keeps (listNames V t.parts) b b' → Keeps (t.ownNames V) b b' := by
      intro b b' hk
      refine hk.mono ?_
      rintro m ⟨p, hp, hm⟩
      exact RTy.ownNames_part hp m hm
    have unnamed : t.name = none → ∀ n, t.lib = V.own → t.name = some n → b'.HasType n (t.ty V) ∧
        (¬ listNames V t.parts n → ∀ old, b.HasType n old → TranspileRef.eqvTy old (t.ty V) = true) := by
      intro hn n _ hn'
      rw [hn] at hn'
      cases hn'
    have one : ∀ (p : RTy) (f : TranspileRef → Ty TranspileRef), p ∈ t.parts → f (p.ref V) = t.ty V →
        t.name = none → (do
          let b ← RTy.encode V.H debug p b
          let r ← Out.expect b.last
          Pure.pure { b with last := some (.embedded (f r)) } : Out Unit Transpiler) = .ok b' →
        BuilderOf V K b' ∧ Keeps (t.ownNames V) b b' ∧ b'.last = some (t.ref V) := by
      intro p f hp hf hn h
      obtain ⟨b1, h1, h⟩ := Out.bind_eq_ok.mp h
      obtain ⟨r, h2, h⟩ := Out.bind_eq_ok.mp h
      simp only [Out.pure_eq, Out.ok.injEq] at h
      subst h
      obtain ⟨c1, g1, k1⟩ := ihp p hp b b1 hb h1
      have := expect_eq_ok h2
      rw [k1] at this
      cases this
      refine ⟨c1, fun n hn => g1 n fun h => hn (RTy.ownNames_part hp n h), ?_⟩
      simp only [hf]
      exact RTy.framed_unnamed hn
    cases t with
    | prim c =>
      refine ⟨?_, unnamed rfl⟩
      simp only [RTy.encode, Out.ok.injEq] at h
      subst h
      exact ⟨hb, Keeps.refl _ _, by simp [RTy.ref, View.ref, RTy.name, RTy.ty]⟩
    | unicode sz =>
      refine ⟨?_, unnamed rfl⟩
      simp only [RTy.encode, Out.ok.injEq] at h
      subst h
      exact ⟨hb, Keeps.refl _ _, by simp [RTy.ref, View.ref, RTy.name, RTy.ty]⟩
    | array p len =>
      refine ⟨?_, unnamed rfl⟩
      exact one p (fun r => .array r len) (by simp [RTy.parts]) (by rw [RTy.ty]; rfl) rfl
        (by simpa [RTy.encode] using h)
    | list p len =>
      refine ⟨?_, unnamed rfl⟩
      exact one p (fun r => .list r len) (by simp [RTy.parts]) (by rw [RTy.ty]; rfl) rfl
        (by simpa [RTy.encode] using h)
    | set p len =>
      refine ⟨?_, unnamed rfl⟩
      exact one p (fun r => .set r len) (by simp [RTy.parts]) (by rw [RTy.ty]; rfl) rfl
        (by simpa [RTy.encode] using h)
    | map k p len =>
      refine ⟨?_, unnamed rfl⟩
      simp only [RTy.encode] at h
      obtain ⟨b1, h1, h⟩ := Out.bind_eq_ok.mp h
      obtain ⟨key, h2, h⟩ := Out.bind_eq_ok.mp h
      obtain ⟨b2, h3, h⟩ := Out.bind_eq_ok.mp h
      obtain ⟨r, h4, h⟩ := Out.bind_eq_ok.mp h
      simp only [Out.pure_eq, Out.ok.injEq] at h
      subst h
      obtain ⟨c1, g1, l1⟩ := ihp k (by simp [RTy.parts]) b b1 hb h1
      obtain ⟨c2, g2, l2⟩ := ihp p (by simp [RTy.parts]) b1 b2 c1 h3
      have e1 := expect_eq_ok h2
      rw [l1] at e1
      cases e1
      have e2 := expect_eq_ok h4
      rw [l2] at e2
      cases e2
      refine ⟨c2, ?_, ?_⟩
      · exact (g1.mono (RTy.ownNames_part (t := .map k p len) (by simp [RTy.parts]))).trans
          (g2.mono (RTy.ownNames_part (t := .map k p len) (by simp [RTy.parts])))
      · rw [← RTy.framed_unnamed (t := .map k p len) rfl, RTy.ty]; rfl
    | rstring c c1 sz =>
      refine ⟨?_, unnamed rfl⟩
      simp only [RTy.encode] at h
      obtain ⟨b1, h1, h⟩ := Out.bind_eq_ok.mp h
      obtain ⟨r1, h2, h⟩ := Out.bind_eq_ok.mp h
      obtain ⟨b2, h3, h⟩ := Out.bind_eq_ok.mp h
      obtain ⟨r2, h4, h⟩ := Out.bind_eq_ok.mp h
      obtain ⟨mn, h5, h⟩ := Out.bind_eq_ok.mp h
      obtain ⟨mx, h6, h⟩ := Out.bind_eq_ok.mp h
      simp only [Out.pure_eq, Out.ok.injEq] at h
      subst h
      obtain ⟨k1, g1, l1⟩ := ihp c1 (by simp [RTy.parts]) b b1 hb h1
      obtain ⟨k2, g2, l2⟩ := ihp c (by simp [RTy.parts]) b1 b2 k1 h3
      have e1 := expect_eq_ok h2
      rw [l1] at e1
      cases e1
      have e2 := expect_eq_ok h4
      rw [l2] at e2
      cases e2
      rw [← decrement_spec.1 _ h5, ← decrement_spec.1 _ h6]
      refine ⟨k2, ?_, ?_⟩
      · exact (g1.mono (RTy.ownNames_part (t := .rstring c c1 sz) (by simp [RTy.parts]))).trans
          (g2.mono (RTy.ownNames_part (t := .rstring c c1 sz) (by simp [RTy.parts])))
      · rw [← RTy.framed_unnamed (t := .rstring c c1 sz) rfl, RTy.ty]; rfl
    | record lib name isTuple fs =>
      simp only [RTy.encode] at h
      obtain ⟨⟨rs, b1⟩, h1, h⟩ := Out.bind_eq_ok.mp h
      obtain ⟨ty, h2, h⟩ := Out.bind_eq_ok.mp h
      obtain ⟨c1, g1, k1⟩ := framed_fields hdep fs b b1 rs ihp hb h1
      subst k1
      have := (buildStruct_spec (lib := lib) (name := name)).1 _ h2
      subst this
      obtain ⟨c2, g2, l2, t2⟩ := framed_report hdep (t := .record lib name isTuple fs) c1 h
      refine ⟨⟨c2, (sub g1).trans g2, l2⟩, ?_⟩
      intro n hl hn
      refine ⟨(t2 n hl hn).1, ?_⟩
      intro hno old ho
      refine (t2 n hl hn).2 old ?_
      rw [LibBuilder.HasType, g1 n hno]
      exact ho
    | enum lib name vs =>
      simp only [RTy.encode] at h
      obtain ⟨ty, h2, h⟩ := Out.bind_eq_ok.mp h
      obtain ⟨b1, h1, h⟩ := Out.bind_eq_ok.mp h
      have := buildEnum_eq (htags _ (.refl _)) h2
      subst this
      obtain ⟨c1, g1, -, t1⟩ := framed_report hdep (t := .enum lib name vs) hb (by rw [RTy.ty]; exact h1)
      obtain ⟨c2, g2, l2, t2⟩ := framed_report hdep (t := .enum lib name vs) c1 (by rw [RTy.ty]; exact h)
      refine ⟨⟨c2, g1.trans g2, l2⟩, ?_⟩
      intro n hl hn
      exact ⟨(t2 n hl hn).1, fun _ => (t1 n hl hn).2⟩
    | union lib name vs w =>
      simp only [RTy.encode] at h
      obtain ⟨⟨rs, b1⟩, h1, h⟩ := Out.bind_eq_ok.mp h
      obtain ⟨ty, h2, h⟩ := Out.bind_eq_ok.mp h
      obtain ⟨b2, h3, h⟩ := Out.bind_eq_ok.mp h
      obtain ⟨b3, h4, h5⟩ := Out.bind_eq_ok.mp h
      obtain ⟨c1, g1, k1⟩ := framed_variants vs b b1 rs ihp hb h1
      subst k1
      have := buildUnion_eq (by rw [tyVariants_tags]; exact htags _ (.refl _)) h2
      subst this
      obtain ⟨c2, g2, -, t2⟩ := framed_report hdep (t := .union lib name vs w) c1 (by rw [RTy.ty]; exact h3)
      obtain ⟨c3, g3⟩ := framed_nth vs w b2 b3 ihp c2 h4
      obtain ⟨c4, g4, l4, t4⟩ := framed_report hdep (t := .union lib name vs w) c3 (by rw [RTy.ty]; exact h5)
      refine ⟨⟨c4, (((sub g1).trans g2).trans (sub g3)).trans g4, l4⟩, ?_⟩
      intro n hl hn
      refine ⟨(t4 n hl hn).1, ?_⟩
      intro hno old ho
      refine (t2 n hl hn).2 old ?_
      rw [LibBuilder.HasType, g1 n hno]
      exact ho
  exact ⟨fun b b' hb h => (main b b' hb h).1, fun b b' hb h => (main b b' hb h).2⟩

end Verif
