import Verif.Lemmas.World

/-!
# Crates depending on each other: limits, depth and order of types
-/

namespace Verif

section
variable {f : Name → Option Name → Ty TranspileRef → TranspileRef}

theorem tyWithFields_mem : ∀ {fs : List (Option Name × RTy)} {q}, q ∈ RTy.tyWithFields f fs →
    ∃ p ∈ fs.map Prod.snd, q.2 = f p.lib p.name (p.tyWith f)
  | [], q, h => by simp [RTy.tyWithFields] at h
  | (n, t) :: fs, q, h => by
    simp only [RTy.tyWithFields, RTy.tyWithField, List.mem_cons] at h
    rcases h with rfl | h
    · exact ⟨t, by simp, rfl⟩
    · obtain ⟨p, hp, e⟩ := tyWithFields_mem h
      exact ⟨p, by simp at hp ⊢; exact .inr hp, e⟩

theorem tyWithVariants_mem : ∀ {fs : List (Variant × RTy)} {q}, q ∈ RTy.tyWithVariants f fs →
    ∃ p ∈ fs.map Prod.snd, q.2 = f p.lib p.name (p.tyWith f)
  | [], q, h => by simp [RTy.tyWithVariants] at h
  | (n, t) :: fs, q, h => by
    simp only [RTy.tyWithVariants, RTy.tyWithVariant, List.mem_cons] at h
    rcases h with rfl | h
    · exact ⟨t, by simp, rfl⟩
    · obtain ⟨p, hp, e⟩ := tyWithVariants_mem h
      exact ⟨p, by simp at hp ⊢; exact .inr hp, e⟩

/-- What a type refers to. -/
theorem RTy.tyWith_refs_exact {t : RTy} {r : TranspileRef} (h : r ∈ (t.tyWith f).refs) :
    (∃ p ∈ t.parts, r = f p.lib p.name (p.tyWith f)) ∨ (r = .embedded .unicodeChar ∧ ∃ sz, t = .unicode sz) ∨
    ∃ c c1 sz, t = .rstring c c1 sz ∧
      r = .embedded (.list (f c.lib c.name (c.tyWith f)) ⟨sz.min - 1, sz.max - 1⟩) := by
  cases t with
  | prim c => simp [RTy.tyWith, Ty.refs] at h
  | unicode sz =>
    simp only [RTy.tyWith, Ty.refs, List.mem_singleton] at h
    exact .inr (.inl ⟨h, sz, rfl⟩)
  | rstring c c1 sz =>
    simp only [RTy.tyWith, Ty.refs, List.mem_cons, List.not_mem_nil, or_false] at h
    rcases h with rfl | rfl
    · exact .inl ⟨c1, by simp [RTy.parts], rfl⟩
    · exact .inr (.inr ⟨c, c1, sz, rfl, rfl⟩)
  | array p len =>
    simp only [RTy.tyWith, Ty.refs, List.mem_singleton] at h
    exact .inl ⟨p, by simp [RTy.parts], h⟩
  | list p len =>
    simp only [RTy.tyWith, Ty.refs, List.mem_singleton] at h
    exact .inl ⟨p, by simp [RTy.parts], h⟩
  | set p len =>
    simp only [RTy.tyWith, Ty.refs, List.mem_singleton] at h
    exact .inl ⟨p, by simp [RTy.parts], h⟩
  | map k p len =>
    simp only [RTy.tyWith, Ty.refs, List.mem_cons, List.not_mem_nil, or_false] at h
    rcases h with rfl | rfl
    · exact .inl ⟨k, by simp [RTy.parts], rfl⟩
    · exact .inl ⟨p, by simp [RTy.parts], rfl⟩
  | record lib name isTuple fs =>
    simp only [RTy.tyWith] at h
    split at h
    · simp [Ty.refs] at h
    · split at h
      · simp only [Ty.refs, List.mem_map] at h
        obtain ⟨q, hq, rfl⟩ := h
        exact .inl (tyWithFields_mem hq)
      · simp only [Ty.refs, List.mem_map, List.mem_filterMap] at h
        obtain ⟨p, ⟨q, hq, e⟩, rfl⟩ := h
        obtain ⟨p', hp', e'⟩ := tyWithFields_mem hq
        rw [Option.map_eq_some_iff] at e
        obtain ⟨n, -, rfl⟩ := e
        exact .inl ⟨p', hp', e'⟩
  | enum lib name vs => simp [RTy.tyWith, Ty.refs] at h
  | union lib name vs w =>
    simp only [RTy.tyWith, Ty.refs, List.mem_map] at h
    obtain ⟨q, hq, rfl⟩ := h
    rw [mem_byTag] at hq
    exact .inl (tyWithVariants_mem hq)

theorem RTy.tyWith_refs {t : RTy} {r : TranspileRef} (h : r ∈ (t.tyWith f).refs) :
    (∃ p ∈ t.parts, r = f p.lib p.name (p.tyWith f)) ∨ r = .embedded .unicodeChar ∨
    ∃ p ∈ t.parts, ∃ sz, r = .embedded (.list (f p.lib p.name (p.tyWith f)) sz) := by
  rcases RTy.tyWith_refs_exact h with h | ⟨h, -⟩ | ⟨c, c1, sz, rfl, rfl⟩
  · exact .inl h
  · exact .inr (.inl h)
  · exact .inr (.inr ⟨c, by simp [RTy.parts], _, rfl⟩)

theorem tyWithFields_length : ∀ fs : List (Option Name × RTy), (RTy.tyWithFields f fs).length = fs.length
  | [] => by simp [RTy.tyWithFields]
  | p :: fs => by simp [RTy.tyWithFields, tyWithFields_length fs]

theorem tyWithFields_named : ∀ fs : List (Option Name × RTy), (∀ p ∈ fs, p.1 ≠ none) →
    ((RTy.tyWithFields f fs).filterMap fun p => p.1.map fun n => (n, p.2)).length = fs.length
  | [], _ => by simp [RTy.tyWithFields]
  | (n, t) :: fs, h => by
    cases n with
    | none => exact absurd rfl (h (none, t) (by simp))
    | some n =>
      simp only [RTy.tyWithFields, RTy.tyWithField]
      simp [tyWithFields_named fs fun p hp => h p (by simp [hp])]

theorem tyWithVariants_fst : ∀ vs : List (Variant × RTy),
    (RTy.tyWithVariants f vs).map Prod.fst = vs.map Prod.fst
  | [] => by simp [RTy.tyWithVariants]
  | (v, t) :: vs => by simp [RTy.tyWithVariants, RTy.tyWithVariant, tyWithVariants_fst vs]

theorem byTag_length {α : Type} {tag : α → Byte} {l : List α} (h : (l.map tag).Nodup) :
    (byTag tag l).length = l.length := by
  have := sortTags_eq h
  rw [← this.1, this.2]

theorem variantsWF_byTag {α : Type} {v : α → Variant} {l : List α} (h1 : 1 ≤ l.length)
    (h2 : l.length ≤ 255) (ht : (l.map fun x => (v x).tag).Nodup) (hn : (l.map fun x => (v x).name).Nodup) :
    VariantsWF ((byTag (fun x => (v x).tag) l).map v) := by
  have hs := pairwise_byTag ht
  have hinj : ∀ x ∈ l, ∀ y ∈ l, (v x).name = (v y).name → (v x).tag = (v y).tag := by
    clear hs h1 h2 ht
    induction l with
    | nil => simp
    | cons a l ih =>
      simp only [List.map_cons, List.nodup_cons, List.mem_map, not_exists, not_and] at hn
      intro x hx y hy e
      rcases List.mem_cons.mp hx with h1 | h1 <;> rcases List.mem_cons.mp hy with h2 | h2
      · rw [h1, h2]
      · rw [h1] at e; exact absurd e.symm (hn.1 y h2)
      · rw [h2] at e; exact absurd e (hn.1 x h1)
      · exact ih hn.2 x h1 y h2 e
  refine ⟨by simpa [byTag_length ht] using h1, by simpa [byTag_length ht] using h2, ?_, ?_⟩
  · rw [List.pairwise_map]; exact hs
  · rw [List.pairwise_map]
    refine (List.pairwise_iff_forall_sublist.mpr fun {a b} hab => ?_)
    intro e
    have hm := hab.subset
    have ha := mem_byTag.mp (hm (by simp : a ∈ [a, b]))
    have hb := mem_byTag.mp (hm (by simp : b ∈ [a, b]))
    have hlt := List.pairwise_iff_forall_sublist.mp hs hab
    rw [hinj a ha b hb e] at hlt
    omega

/-- The type is within the limits of the containers. -/
theorem RTy.tyWith_wf {debug : Bool} {own : Name} {known : Name → Prop} {t : RTy} (hv : t.DistinctVariants)
    (hn : t.NodeOk debug own known) : (t.tyWith f).WF := by
  cases t with
  | prim | unicode | array | list | set | map => simp [RTy.tyWith, Ty.WF]
  | rstring c c1 sz => simp [RTy.tyWith, Ty.WF]
  | record lib name isTuple fs =>
    obtain ⟨-, h1, h2⟩ := hn
    simp only [RTy.tyWith]
    split
    · trivial
    · rename_i he
      have he : 1 ≤ fs.length := by
        cases fs with
        | nil => simp at he
        | cons => simp
      split
      · simpa [Ty.WF, tyWithFields_length] using ⟨he, h1⟩
      · rename_i ht
        have ht : isTuple = false := by simpa using ht
        simp only [Ty.WF, tyWithFields_named fs (h2 ht)]
        exact ⟨he, h1⟩
  | enum lib name vs =>
    have := variantsWF_byTag (v := id) hn.2.1 hn.2.2 hv.1 hv.2
    simpa [RTy.tyWith, Ty.WF] using this
  | union lib name vs w =>
    have e : ∀ {β : Type} (g : Variant → β), (RTy.tyWithVariants f vs).map (fun x => g x.1) = vs.map fun x => g x.1 := by
      intro β g
      have := congrArg (List.map g) (tyWithVariants_fst (f := f) vs)
      simpa [Function.comp_def] using this
    have el : (RTy.tyWithVariants f vs).length = vs.length := by
      have := congrArg List.length (tyWithVariants_fst (f := f) vs)
      simpa using this
    have := variantsWF_byTag (v := Prod.fst) (l := RTy.tyWithVariants f vs) (by rw [el]; exact hn.2.1)
      (by rw [el]; exact hn.2.2.1) (by rw [e Variant.tag]; exact hv.1) (by rw [e Variant.name]; exact hv.2)
    simp only [RTy.tyWith, Ty.WF]
    exact this
end

variable {V : View}

/-- A type whose parts are within the limits is within the limits at every level. -/
theorem RTy.ty_deep {debug : Bool} {own : Name} {known : Name → Prop} (t : RTy) :
    (∀ s, t.Contains s → s.DistinctVariants ∧ s.NodeOk debug own known) → (t.ty V).Deep := by
  induction t using RTy.induct with
  | h t ih =>
    intro h
    rw [RTy.ty_eq]
    have hp : ∀ p ∈ t.parts, (V.ref p.lib p.name (p.tyWith V.ref)).Deep := by
      intro p hp
      have := ih p hp fun s hs => h s (.step hp hs)
      rw [RTy.ty_eq] at this
      unfold View.ref
      split
      · exact .embedded this.1 this.2
      · split
        · exact .named _
        · exact .extern _
    refine ⟨RTy.tyWith_wf (h t (.refl t)).1 (h t (.refl t)).2, fun r hr => ?_⟩
    rcases RTy.tyWith_refs hr with ⟨p, hp', rfl⟩ | rfl | ⟨p, hp', sz, rfl⟩
    · exact hp p hp'
    · exact .embedded trivial (by simp [Ty.refs])
    · refine .embedded trivial fun r hr => ?_
      simp only [Ty.refs, List.mem_singleton] at hr
      subst hr
      exact hp p hp'

theorem all2_forall {α β : Type} {R : α → β → Prop} {P : α → Prop} {Q : β → Prop} {l : List α} {m : List β}
    (h : All2 R l m) (hi : ∀ a b, R a b → (P a ↔ Q b)) : (∀ a ∈ l, P a) ↔ ∀ b ∈ m, Q b := by
  induction l generalizing m with
  | nil => cases m with
    | nil => simp
    | cons => exact h.elim
  | cons a l ih => cases m with
    | nil => exact h.elim
    | cons b m => simp only [List.mem_cons, forall_eq_or_imp, ih h.2, hi a b h.1]

/-- Types embed each other equally deep in every view and for every hash. -/
theorem RTy.depth_iff {H : Hash} (t : RTy) (k : Nat) : (t.ty V).DepthLe k ↔ (t.sem H).DepthLe k := by
  have main : ∀ t : RTy, Ty.Rel (fun r r' : TranspileRef => ∀ k, r.DepthLe k ↔ r'.DepthLe k) (t.ty V) (t.sem H) := by
    intro t
    induction t using RTy.induct with
    | h t ih =>
      have hE : ∀ a b : Ty TranspileRef, Ty.Rel (fun r r' : TranspileRef => ∀ k, r.DepthLe k ↔ r'.DepthLe k) a b →
          ∀ k, (TranspileRef.embedded a).DepthLe k ↔ (TranspileRef.embedded b).DepthLe k := by
        intro a b h k
        cases k with
        | zero => simp [TranspileRef.DepthLe]
        | succ k => exact all2_forall (Ty.rel_refs h) fun a b h => h k
      refine RTy.sem_rel hE t fun p hp k => ?_
      unfold RTy.ref RTy.absRef View.ref absolute
      cases e : p.name with
      | none => exact hE _ _ (ih p hp) k
      | some n =>
        simp only
        split <;> simp [TranspileRef.DepthLe]
  exact all2_forall (Ty.rel_refs (main t)) fun a b h => h k

/-- Types of the library mentioned by a type are those of the Rust types mentioned. -/
theorem RTy.ty_mentions (t : RTy) : ∀ n, (t.ty V).Mentions n →
    ∃ p ∈ t.parts, ∃ s, p.Contains s ∧ s.lib = V.own ∧ s.name = some n := by
  induction t using RTy.induct with
  | h t ih =>
    intro n hm
    rw [RTy.ty_eq] at hm
    have hp : ∀ p ∈ t.parts, (V.ref p.lib p.name (p.tyWith V.ref)).Mentions n →
        ∃ p ∈ t.parts, ∃ s, p.Contains s ∧ s.lib = V.own ∧ s.name = some n := by
      intro p hp hm
      unfold View.ref at hm
      split at hm
      · cases hm with
        | embedded hr hm =>
          obtain ⟨q, hq, s, hs, h⟩ := ih p hp n (by rw [RTy.ty_eq]; exact ⟨_, hr, hm⟩)
          exact ⟨p, hp, s, .step hq hs, h⟩
      · split at hm
        · rename_i e1 e2
          cases hm
          exact ⟨p, hp, p, .refl p, e2, e1⟩
        · cases hm
    obtain ⟨r, hr, hm⟩ := hm
    rcases RTy.tyWith_refs hr with ⟨p, hp', rfl⟩ | rfl | ⟨p, hp', sz, rfl⟩
    · exact hp p hp' hm
    · cases hm with
      | embedded hr _ => simp [Ty.refs] at hr
    · cases hm with
      | embedded hr hm =>
        simp only [Ty.refs, List.mem_singleton] at hr
        subst hr
        exact hp p hp' hm

/-- Parts are smaller. -/
theorem RTy.parts_lt {t p : RTy} (h : p ∈ t.parts) : sizeOf p < sizeOf t := by
  cases t with
  | prim | unicode | enum => simp [RTy.parts] at h
  | rstring c c1 sz =>
    simp only [RTy.parts, List.mem_cons, List.not_mem_nil, or_false] at h
    rcases h with rfl | rfl <;> simp <;> omega
  | array t len => simp only [RTy.parts, List.mem_singleton] at h; subst h; simp; omega
  | list t len => simp only [RTy.parts, List.mem_singleton] at h; subst h; simp; omega
  | set t len => simp only [RTy.parts, List.mem_singleton] at h; subst h; simp; omega
  | map k t len =>
    simp only [RTy.parts, List.mem_cons, List.not_mem_nil, or_false] at h
    rcases h with rfl | rfl <;> simp <;> omega
  | record lib name isTuple fs =>
    simp only [RTy.parts, List.mem_map] at h
    obtain ⟨q, hq, rfl⟩ := h
    have h1 := List.sizeOf_lt_of_mem hq
    obtain ⟨n, q⟩ := q
    simp at h1 ⊢
    omega
  | union lib name vs w =>
    simp only [RTy.parts, List.mem_map] at h
    obtain ⟨q, hq, rfl⟩ := h
    have h1 := List.sizeOf_lt_of_mem hq
    obtain ⟨n, q⟩ := q
    simp at h1 ⊢
    omega

theorem RTy.Contains.le {t s : RTy} (h : t.Contains s) : sizeOf s ≤ sizeOf t := by
  induction h with
  | refl => exact Nat.le_refl _
  | step hp _ ih => exact Nat.le_of_lt (Nat.lt_of_le_of_lt ih (RTy.parts_lt hp))

end Verif
