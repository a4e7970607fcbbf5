import Verif.Lemmas.World
import Verif.Lemmas.TranspileClosed

/-!
# Crates depending on each other: builders
-/

namespace Verif

/-! ### What reporting preserves, encoding preserves -/

section
variable {H : Hash} {debug : Bool} {P : LibBuilder → Prop}

/-- Reporting a type keeps `P`. -/
def Reports (H : Hash) (P : LibBuilder → Prop) : Prop :=
  ∀ (b b' : Transpiler) lib name ty, P b.toLibBuilder → b.report H lib name ty = .ok b' → P b'.toLibBuilder

/-- Encoding the type keeps `P`. -/
def RTy.KeepsP (H : Hash) (debug : Bool) (P : LibBuilder → Prop) (t : RTy) : Prop :=
  ∀ b b' : Transpiler, P b.toLibBuilder → t.encode H debug b = .ok b' → P b'.toLibBuilder

theorem keeps_compileType {t : RTy} (ht : t.KeepsP H debug P) {b b' : Transpiler} {r : TranspileRef}
    (hb : P b.toLibBuilder) (h : compileType H t.lib t.name (t.encode H debug) b = .ok (r, b')) :
    P b'.toLibBuilder := by
  have hcomp : ∀ r b', (do
      let b ← t.encode H debug b
      let r ← Out.expect b.last
      Pure.pure (r, b) : Out Unit _) = .ok (r, b') → P b'.toLibBuilder := by
    intro r b' h
    obtain ⟨b1, h1, h⟩ := Out.bind_eq_ok.mp h
    obtain ⟨r1, h2, h⟩ := Out.bind_eq_ok.mp h
    simp only [Out.pure_eq, Out.ok.injEq, Prod.mk.injEq] at h
    obtain ⟨rfl, rfl⟩ := h
    exact ht b _ hb h1
  unfold compileType at h
  cases hn : t.name with
  | none => rw [hn] at h; exact hcomp r b' h
  | some name =>
    rw [hn] at h
    simp only at h
    split at h
    · exact hcomp r b' h
    · split at h
      · obtain ⟨⟨r1, b1⟩, h1, h⟩ := Out.bind_eq_ok.mp h
        obtain ⟨libId, h2, h⟩ := Out.bind_eq_ok.mp h
        simp only [Out.pure_eq, Out.ok.injEq, Prod.mk.injEq] at h
        obtain ⟨rfl, rfl⟩ := h
        exact hcomp r1 _ h1
      · split at h
        · simp only [Out.ok.injEq, Prod.mk.injEq] at h
          obtain ⟨rfl, rfl⟩ := h
          exact hb
        · exact hcomp r b' h

theorem keeps_fields : ∀ (fs : List (Option Name × RTy)) (b b' : Transpiler)
    (rs : List (Option Name × TranspileRef)), (∀ p ∈ fs.map Prod.snd, p.KeepsP H debug P) →
    P b.toLibBuilder → RTy.encodeFields H debug fs b = .ok (rs, b') → P b'.toLibBuilder
  | [], b, b', rs, _, hb, h => by
    simp only [RTy.encodeFields, Out.ok.injEq, Prod.mk.injEq] at h
    obtain ⟨rfl, rfl⟩ := h
    exact hb
  | (n, t) :: fs, b, b', rs, hs, hb, h => by
    simp only [RTy.encodeFields] at h
    obtain ⟨⟨⟨n1, r1⟩, b1⟩, h1, h⟩ := Out.bind_eq_ok.mp h
    obtain ⟨⟨rs2, b2⟩, h2, h⟩ := Out.bind_eq_ok.mp h
    simp only [Out.pure_eq, Out.ok.injEq, Prod.mk.injEq] at h
    obtain ⟨rfl, rfl⟩ := h
    simp only [RTy.encodeField] at h1
    obtain ⟨⟨r3, b3⟩, h3, h1⟩ := Out.bind_eq_ok.mp h1
    simp only [Out.pure_eq, Out.ok.injEq, Prod.mk.injEq] at h1
    obtain ⟨⟨rfl, rfl⟩, rfl⟩ := h1
    exact keeps_fields fs _ _ _ (fun p hp => hs p (by simp at hp ⊢; exact .inr hp))
      (keeps_compileType (hs t (by simp)) hb h3) h2

theorem keeps_variant {v : Variant × RTy} {b b' : Transpiler} {r : Variant × TranspileRef}
    (hs : v.2.KeepsP H debug P) (hb : P b.toLibBuilder) (h : RTy.encodeVariant H debug v b = .ok (r, b')) :
    P b'.toLibBuilder := by
  obtain ⟨v, t⟩ := v
  simp only [RTy.encodeVariant] at h
  obtain ⟨b1, h1, h⟩ := Out.bind_eq_ok.mp h
  obtain ⟨r1, h2, h⟩ := Out.bind_eq_ok.mp h
  simp only [Out.pure_eq, Out.ok.injEq, Prod.mk.injEq] at h
  obtain ⟨rfl, rfl⟩ := h
  exact hs b _ hb h1

theorem keeps_variants : ∀ (fs : List (Variant × RTy)) (b b' : Transpiler)
    (rs : List (Variant × TranspileRef)), (∀ p ∈ fs.map Prod.snd, p.KeepsP H debug P) →
    P b.toLibBuilder → RTy.encodeVariants H debug fs b = .ok (rs, b') → P b'.toLibBuilder
  | [], b, b', rs, _, hb, h => by
    simp only [RTy.encodeVariants, Out.ok.injEq, Prod.mk.injEq] at h
    obtain ⟨rfl, rfl⟩ := h
    exact hb
  | v :: fs, b, b', rs, hs, hb, h => by
    simp only [RTy.encodeVariants] at h
    obtain ⟨⟨r1, b1⟩, h1, h⟩ := Out.bind_eq_ok.mp h
    obtain ⟨⟨rs2, b2⟩, h2, h⟩ := Out.bind_eq_ok.mp h
    simp only [Out.pure_eq, Out.ok.injEq, Prod.mk.injEq] at h
    obtain ⟨rfl, rfl⟩ := h
    exact keeps_variants fs _ _ _ (fun p hp => hs p (by simp at hp ⊢; exact .inr hp))
      (keeps_variant (hs v.2 (by simp)) hb h1) h2

theorem keeps_nth : ∀ (fs : List (Variant × RTy)) (n : Nat) (b b' : Transpiler),
    (∀ p ∈ fs.map Prod.snd, p.KeepsP H debug P) →
    P b.toLibBuilder → RTy.encodeNth H debug fs n b = .ok b' → P b'.toLibBuilder
  | [], n, b, b', _, hb, h => by simp [RTy.encodeNth] at h
  | v :: fs, 0, b, b', hs, hb, h => by
    simp only [RTy.encodeNth] at h
    obtain ⟨⟨r1, b1⟩, h1, h⟩ := Out.bind_eq_ok.mp h
    simp only [Out.pure_eq, Out.ok.injEq] at h
    subst h
    exact keeps_variant (hs v.2 (by simp)) hb h1
  | v :: fs, n + 1, b, b', hs, hb, h => by
    simp only [RTy.encodeNth] at h
    exact keeps_nth fs n b b' (fun p hp => hs p (by simp at hp ⊢; exact .inr hp)) hb h

theorem RTy.keepsP (hP : Reports H P) (t : RTy) : t.KeepsP H debug P := by
  induction t using RTy.induct with | _ t ih
  intro b b' hb h
  have one : ∀ (p : RTy) (f : TranspileRef → Ty TranspileRef), p ∈ t.parts → (do
        let b ← RTy.encode H debug p b
        let r ← Out.expect b.last
        Pure.pure { b with last := some (.embedded (f r)) } : Out Unit Transpiler) = .ok b' →
      P b'.toLibBuilder := by
    intro p f hp h
    obtain ⟨b1, h1, h⟩ := Out.bind_eq_ok.mp h
    obtain ⟨r, h2, h⟩ := Out.bind_eq_ok.mp h
    simp only [Out.pure_eq, Out.ok.injEq] at h
    subst h
    exact ih p hp b b1 hb h1
  cases t with
  | prim c =>
    simp only [RTy.encode, Out.ok.injEq] at h
    subst h
    exact hb
  | unicode sz =>
    simp only [RTy.encode, Out.ok.injEq] at h
    subst h
    exact hb
  | array p len => exact one p (fun r => .array r len) (by simp [RTy.parts]) (by simpa [RTy.encode] using h)
  | list p len => exact one p (fun r => .list r len) (by simp [RTy.parts]) (by simpa [RTy.encode] using h)
  | set p len => exact one p (fun r => .set r len) (by simp [RTy.parts]) (by simpa [RTy.encode] using h)
  | map k p len =>
    simp only [RTy.encode] at h
    obtain ⟨b1, h1, h⟩ := Out.bind_eq_ok.mp h
    obtain ⟨key, h2, h⟩ := Out.bind_eq_ok.mp h
    obtain ⟨b2, h3, h⟩ := Out.bind_eq_ok.mp h
    obtain ⟨r, h4, h⟩ := Out.bind_eq_ok.mp h
    simp only [Out.pure_eq, Out.ok.injEq] at h
    subst h
    exact ih p (by simp [RTy.parts]) b1 b2 (ih k (by simp [RTy.parts]) b b1 hb h1) h3
  | rstring c c1 sz =>
    simp only [RTy.encode] at h
    obtain ⟨b1, h1, h⟩ := Out.bind_eq_ok.mp h
    obtain ⟨r1, h2, h⟩ := Out.bind_eq_ok.mp h
    obtain ⟨b2, h3, h⟩ := Out.bind_eq_ok.mp h
    obtain ⟨r2, h4, h⟩ := Out.bind_eq_ok.mp h
    obtain ⟨mn, -, h⟩ := Out.bind_eq_ok.mp h
    obtain ⟨mx, -, h⟩ := Out.bind_eq_ok.mp h
    simp only [Out.pure_eq, Out.ok.injEq] at h
    subst h
    exact ih c (by simp [RTy.parts]) b1 b2 (ih c1 (by simp [RTy.parts]) b b1 hb h1) h3
  | record lib name isTuple fs =>
    simp only [RTy.encode] at h
    obtain ⟨⟨rs, b1⟩, h1, h⟩ := Out.bind_eq_ok.mp h
    obtain ⟨ty, h2, h⟩ := Out.bind_eq_ok.mp h
    exact hP _ _ _ _ _ (keeps_fields fs b b1 rs ih hb h1) h
  | enum lib name vs =>
    simp only [RTy.encode] at h
    obtain ⟨ty, h2, h⟩ := Out.bind_eq_ok.mp h
    obtain ⟨b1, h1, h⟩ := Out.bind_eq_ok.mp h
    exact hP _ _ _ _ _ (hP _ _ _ _ _ hb h1) h
  | union lib name vs w =>
    simp only [RTy.encode] at h
    obtain ⟨⟨rs, b1⟩, h1, h⟩ := Out.bind_eq_ok.mp h
    obtain ⟨ty, h2, h⟩ := Out.bind_eq_ok.mp h
    obtain ⟨b2, h3, h⟩ := Out.bind_eq_ok.mp h
    obtain ⟨b3, h4, h⟩ := Out.bind_eq_ok.mp h
    exact hP _ _ _ _ _ (keeps_nth vs w b2 b3 ih
      (hP _ _ _ _ _ (keeps_variants vs b b1 rs ih hb h1) h3) h4) h

theorem transpile_keepsP (hP : Reports H P) : ∀ (ts : List RTy) (b b' : Transpiler), P b.toLibBuilder →
    Transpiler.transpile H debug ts b = .ok b' → P b'.toLibBuilder
  | [], b, b', hb, h => by
    simp only [Transpiler.transpile, Out.ok.injEq] at h
    subst h
    exact hb
  | t :: ts, b, b', hb, h => by
    simp only [Transpiler.transpile] at h
    obtain ⟨b1, h1, h⟩ := Out.bind_eq_ok.mp h
    exact transpile_keepsP hP ts b1 b' (RTy.keepsP hP t b b1 hb h1) h
end

/-! ### Hash maps of a builder -/

theorem mem_hmInsert {K W : Type} [DecidableEq K] {m : List (K × W)} {k : K} {v : W} {p : K × W} :
    p ∈ hmInsert m k v → p = (k, v) ∨ p ∈ m := by
  induction m with
  | nil => simp [hmInsert]
  | cons q m ih =>
    unfold hmInsert
    split
    · simp only [List.mem_cons]
      rintro (h | h)
      · exact .inl h
      · exact .inr (.inr h)
    · simp only [List.mem_cons]
      rintro (h | h)
      · exact .inr (.inl h)
      · exact (ih h).imp_right .inr

theorem hmInsert_nodup {K W : Type} [DecidableEq K] {m : List (K × W)} {k : K} {v : W}
    (h : (m.map Prod.fst).Nodup) : ((hmInsert m k v).map Prod.fst).Nodup := by
  induction m with
  | nil => simp [hmInsert]
  | cons q m ih =>
    simp only [List.map_cons, List.nodup_cons] at h
    unfold hmInsert
    split
    · rename_i e
      simp only [List.map_cons, List.nodup_cons]
      rw [← e]
      exact h
    · rename_i e
      simp only [List.map_cons, List.nodup_cons]
      refine ⟨?_, ih h.2⟩
      intro hm
      obtain ⟨p, hp, he⟩ := List.mem_map.mp hm
      rcases mem_hmInsert hp with rfl | hp
      · exact e he.symm
      · exact h.1 (List.mem_map.mpr ⟨p, hp, he⟩)

/-- Keys of the maps of a builder are distinct, and the types of every external library form a sorted
map which is not empty. -/
structure Keyed (b : LibBuilder) : Prop where
  types : (b.types.map Prod.fst).Nodup
  externs : (b.externTypes.map Prod.fst).Nodup
  sorted : ∀ p ∈ b.externTypes, OMap.Sorted p.2 ∧ p.2 ≠ []

theorem insert_ne_nil {K W : Type} [KeyOrd K] [DecidableEq K] (m : OMap K W) (k : K) (v : W) :
    OMap.insert m k v ≠ [] := by
  cases m with
  | nil => simp [OMap.insert]
  | cons p m =>
    simp only [OMap.insert]
    split
    · simp
    · split <;> simp

theorem keyed_reports (H : Hash) : Reports H Keyed := by
  intro b b' lib name ty hb h
  cases name with
  | none =>
    simp only [Transpiler.report, Out.ok.injEq] at h
    subst h
    exact hb
  | some name =>
    simp only [Transpiler.report] at h
    split at h
    · have h : { b with types := hmInsert b.types name ty, last := some (.named name) } = b' := by
        split at h <;> split at h <;> simp_all
      subst h
      exact ⟨hmInsert_nodup hb.types, hb.externs, hb.sorted⟩
    · obtain ⟨libId, -, h⟩ := Out.bind_eq_ok.mp h
      simp only [Out.pure_eq, Out.ok.injEq] at h
      subst h
      refine ⟨hb.types, hmInsert_nodup hb.externs, ?_⟩
      intro p hp
      rcases mem_hmInsert hp with rfl | hp
      · refine ⟨OMap.sorted_insert ?_ _ _, insert_ne_nil _ _ _⟩
        cases e : hmGet b.externTypes lib with
        | none => exact List.Pairwise.nil
        | some m => exact (hb.sorted _ (hmGet_mem e)).1
      · exact hb.sorted p hp

theorem keyed_transpile {H : Hash} {debug : Bool} {own : Name} {known : List (Dependency × Option (List SemId))}
    {ts : List RTy} {b : Transpiler} (h : Transpiler.transpile H debug ts (.new own known) = .ok b) :
    Keyed b.toLibBuilder :=
  transpile_keepsP (keyed_reports H) ts _ _ ⟨by simp [Transpiler.new], by simp [Transpiler.new],
    by simp [Transpiler.new]⟩ h

end Verif
