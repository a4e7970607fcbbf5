import Verif.Spec.Apart
import Verif.Lemmas.Reflect

/-! # Texts of ids -/

namespace Verif

/-- The bytes are the text with ids in the place of names. -/
inductive Fills (H : Hash) (D : Bytes → Prop) : List Piece → Bytes → Prop
  | nil : Fills H D [] []
  | byte {b : Byte} {l : List Piece} {bs : Bytes} : Fills H D l bs → Fills H D (.byte b :: l) (b :: bs)
  | id {n : Name} {x : Bytes} {l : List Piece} {bs : Bytes} : D (n.commit ++ x) → Fills H D l bs →
      Fills H D (.id n :: l) ((taggedHash H SEM_ID_TAG (n.commit ++ x)).bytes ++ bs)

theorem Fills.pieces {H : Hash} {D : Bytes → Prop} (bs : Bytes) : Fills H D (pieces bs) bs := by
  induction bs with
  | nil => exact .nil
  | cons b bs ih => exact .byte ih

theorem Fills.append {H : Hash} {D : Bytes → Prop} {l m : List Piece} {x y : Bytes} (h : Fills H D l x) (h' : Fills H D m y) :
    Fills H D (l ++ m) (x ++ y) := by
  induction h with
  | nil => exact h'
  | byte _ ih => exact .byte ih
  | id hx _ ih => rw [List.append_assoc]; exact .id hx ih

theorem Fills.length {H : Hash} {D : Bytes → Prop} {l : List Piece} {x : Bytes} (h : Fills H D l x) : x.length = width l := by
  induction h with
  | nil => rfl
  | byte _ ih => simp [width, ih]
  | id _ _ ih => simp [width, ih, Id32.len, Nat.add_comm]

theorem apart_ne {H : Hash} {D : Bytes → Prop} (hc : ¬ Collision H D) : ∀ {l m : List Piece} {x : Bytes},
    Fills H D l x → Fills H D m x → apart l m = false
  | [], [], _, _, _ => rfl
  | [], .byte _ :: _, _, h, h' => by cases h; cases h'
  | [], .id _ :: m, x, h, h' => by
    have h1 := h.length
    have h2 := h'.length
    simp [apart]; omega
  | .byte _ :: _, [], _, h, h' => by cases h'; cases h
  | .id _ :: m, [], x, h, h' => by
    have h1 := h.length
    have h2 := h'.length
    simp [apart]; omega
  | .byte a :: l, .byte b :: m, _, h, h' => by
    cases h with
    | byte h => cases h' with
      | byte h' => simp [apart, apart_ne hc h h']
  | .id a :: l, .id b :: m, x, h, h' => by
    generalize hx : x = y at h'
    cases h with
    | id hd h => cases h' with
      | id hd' h' =>
        obtain ⟨e, rfl⟩ := List.append_inj hx (by simp [Id32.len])
        have := semHash_inj hc hd hd' (Id32.ext e)
        obtain ⟨rfl, -⟩ := Name.commit_append_inj this
        simp [apart, apart_ne hc h h']
  | .byte a :: l, .id b :: m, x, h, h' => by
    have h1 := h.length
    have h2 := h'.length
    simp [apart]; omega
  | .id a :: l, .byte b :: m, x, h, h' => by
    have h1 := h.length
    have h2 := h'.length
    simp [apart]; omega

theorem outlineFields_eq : ∀ fs : List (Option Name × RTy),
    RTy.outlineFields fs = fs.map fun p => (p.1, mention p.2.name p.2.outline)
  | [] => by simp [RTy.outlineFields]
  | (n, t) :: fs => by simp [RTy.outlineFields, RTy.outlineField, outlineFields_eq fs]

theorem outlineVariants_eq : ∀ fs : List (Variant × RTy),
    RTy.outlineVariants fs = fs.map fun p => (p.1, mention p.2.name p.2.outline)
  | [] => by simp [RTy.outlineVariants]
  | (n, t) :: fs => by simp [RTy.outlineVariants, RTy.outlineVariant, outlineVariants_eq fs]

theorem Fills.flatMap {H : Hash} {D : Bytes → Prop} {α : Type} {f : α → List Piece} {g : α → Bytes} : ∀ {l : List α},
    (∀ a ∈ l, Fills H D (f a) (g a)) → Fills H D (l.flatMap f) (l.flatMap g)
  | [], _ => .nil
  | a :: l, h => by
    rw [List.flatMap_cons, List.flatMap_cons]
    exact (h a (by simp)).append (Fills.flatMap fun a ha => h a (by simp [ha]))

/-- The description of a Rust type is what its id commits to. -/
theorem RTy.outline_fills {H : Hash} {D : Bytes → Prop} : ∀ q : RTy, (∀ p, q.Contains p → D (p.text H)) →
    Fills H D q.outline (TranspileRef.commitTy (q.sem H)) := by
  refine RTy.induct fun q ih hD => ?_
  have hp : ∀ p ∈ q.parts, Fills H D (mention p.name p.outline)
      (TranspileRef.commit (absolute H p.lib p.name (p.tyWith (absolute H)))) := by
    intro p hp
    have := ih p hp fun s hs => hD s (.step hp hs)
    have hd := hD p (.step hp (.refl _))
    unfold RTy.text at hd
    change Fills H D (mention p.name p.outline) (TranspileRef.commit (absolute H p.lib p.name (p.sem H)))
    cases e : p.name with
    | none => simpa [TranspileRef.commit, mention, absolute] using this
    | some n =>
      rw [e] at hd
      have := Fills.id (H := H) hd .nil
      simpa [TranspileRef.commit, SemId.commit, TranspileRef.semIdNamed, mention, absolute] using this
  cases q with
  | prim c => exact Fills.pieces _
  | unicode sz =>
    simp only [RTy.sem, RTy.tyWith, TranspileRef.commitTy, TranspileRef.commit, RTy.outline]
    exact Fills.pieces _
  | rstring c c1 sz =>
    simp only [RTy.sem, RTy.tyWith, TranspileRef.commitTy, TranspileRef.commit, TranspileRef.commitRefs, RTy.outline,
      List.append_nil]
    exact .byte ((hp c1 (by simp [RTy.parts])).append (.byte ((hp c (by simp [RTy.parts])).append (.pieces _))))
  | array t len =>
    simp only [RTy.sem, RTy.tyWith, TranspileRef.commitTy, RTy.outline]
    exact .byte ((hp t (by simp [RTy.parts])).append (.pieces _))
  | list t len =>
    simp only [RTy.sem, RTy.tyWith, TranspileRef.commitTy, RTy.outline]
    exact .byte ((hp t (by simp [RTy.parts])).append (.pieces _))
  | set t len =>
    simp only [RTy.sem, RTy.tyWith, TranspileRef.commitTy, RTy.outline]
    exact .byte ((hp t (by simp [RTy.parts])).append (.pieces _))
  | map k t len =>
    simp only [RTy.sem, RTy.tyWith, TranspileRef.commitTy, RTy.outline]
    exact .byte (((hp k (by simp [RTy.parts])).append (hp t (by simp [RTy.parts]))).append (.pieces _))
  | enum lib name vs => 
    simp only [RTy.sem, RTy.tyWith, TranspileRef.commitTy, RTy.outline]
    exact Fills.pieces _
  | union lib name vs w =>
    simp only [RTy.sem, RTy.tyWith, TranspileRef.commitTy, RTy.outline, TranspileRef.commitVariants_eq,
      outlineVariants_eq, tyWithVariants_eq]
    rw [byTag_map (tag := fun v : Variant × RTy => v.1.tag) (tag' := fun v : Variant × List Piece => v.1.tag)
        (g := fun p => (p.1, mention p.2.name p.2.outline)) (fun _ => rfl),
      byTag_map (tag := fun v : Variant × RTy => v.1.tag) (tag' := fun v : Variant × TranspileRef => v.1.tag)
        (g := fun p => (p.1, absolute H p.2.lib p.2.name (p.2.tyWith (absolute H)))) (fun _ => rfl), List.flatMap_map, List.flatMap_map]
    refine .byte (.flatMap fun v hv => ?_)
    rw [mem_byTag] at hv
    exact (Fills.pieces _).append (hp v.2 (List.mem_map.mpr ⟨v, hv, rfl⟩))
  | record lib name isTuple fs =>
    simp only [RTy.sem, RTy.tyWith, RTy.outline]
    split
    · exact Fills.pieces _
    split
    · simp only [TranspileRef.commitTy, TranspileRef.commitRefs_eq, outlineFields_eq, tyWithFields_eq,
        List.map_map, List.flatMap_map]
      exact .byte (.flatMap fun f hf => hp f.2 (List.mem_map.mpr ⟨f, hf, rfl⟩))
    · simp only [TranspileRef.commitTy, TranspileRef.commitFields_eq, outlineFields_eq, tyWithFields_eq,
        List.filterMap_map, List.flatMap_map]
      refine .byte ?_
      have hp' : ∀ f ∈ fs, Fills H D (mention f.2.name f.2.outline)
        (TranspileRef.commit (absolute H f.2.lib f.2.name (f.2.tyWith (absolute H)))) :=
          fun f hf => hp f.2 (List.mem_map.mpr ⟨f, hf, rfl⟩)
      clear hp ih hD
      rename_i h1 h2
      clear h1 h2
      induction fs with
      | nil => exact .nil
      | cons f fs ihf =>
        have ihf := ihf fun f hf => hp' f (by simp [hf])
        have := hp' f (by simp)
        obtain ⟨n, t⟩ := f
        cases n with
        | none => simpa using ihf
        | some n =>
          simp only [List.flatMap_cons, List.filterMap_cons, Function.comp, Option.map_some]
          exact ((Fills.pieces _).append this).append ihf

end Verif
