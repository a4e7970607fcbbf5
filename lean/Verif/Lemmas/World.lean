import Verif.Spec.World
import Verif.Lemmas.Transpile
import Verif.Lemmas.TranspileClosed
import Verif.Lemmas.Builder
import Verif.Lemmas.Symbolic

/-!
# Crates depending on each other: what the types mean
-/

namespace Verif

/-! ### Lists -/

theorem all2_append {α β : Type} {R : α → β → Prop} {l l' : List α} {m m' : List β} (h : All2 R l m)
    (h' : All2 R l' m') : All2 R (l ++ l') (m ++ m') := by
  induction l generalizing m with
  | nil => cases m with
    | nil => exact h'
    | cons => exact h.elim
  | cons a l ih => cases m with
    | nil => exact h.elim
    | cons b m => exact ⟨h.1, ih h.2⟩

theorem all2_filter {α β : Type} {R : α → β → Prop} {p : α → Bool} {q : β → Bool} {l : List α} {m : List β}
    (h : All2 R l m) (hpq : ∀ a b, R a b → p a = q b) : All2 R (l.filter p) (m.filter q) := by
  induction l generalizing m with
  | nil => cases m with
    | nil => trivial
    | cons => exact h.elim
  | cons a l ih => cases m with
    | nil => exact h.elim
    | cons b m =>
      have e := hpq a b h.1
      by_cases hp : p a = true
      · rw [List.filter_cons_of_pos hp, List.filter_cons_of_pos (e ▸ hp)]
        exact ⟨h.1, ih h.2⟩
      · rw [List.filter_cons_of_neg hp, List.filter_cons_of_neg (e ▸ hp)]
        exact ih h.2

theorem all2_flatMap {α β γ : Type} {R : α → β → Prop} {f : γ → List α} {g : γ → List β} (l : List γ)
    (h : ∀ c ∈ l, All2 R (f c) (g c)) : All2 R (l.flatMap f) (l.flatMap g) := by
  induction l with
  | nil => trivial
  | cons c l ih =>
    simp only [List.flatMap_cons]
    exact all2_append (h c (by simp)) (ih fun c hc => h c (by simp [hc]))

theorem all2_byTag {α β : Type} {R : α → β → Prop} {tag : α → Byte} {tag' : β → Byte} {l : List α}
    {m : List β} (h : All2 R l m) (ht : ∀ a b, R a b → tag a = tag' b) :
    All2 R (byTag tag l) (byTag tag' m) :=
  all2_flatMap _ fun k _ => all2_filter h fun a b hr => by rw [ht a b hr]

theorem all2_map {α β α' β' : Type} {R : α → β → Prop} {S : α' → β' → Prop} {f : α → α'} {g : β → β'}
    {l : List α} {m : List β} (h : All2 R l m) (hi : ∀ a b, R a b → S (f a) (g b)) :
    All2 S (l.map f) (m.map g) := by
  induction l generalizing m with
  | nil => cases m with
    | nil => trivial
    | cons => exact h.elim
  | cons a l ih => cases m with
    | nil => exact h.elim
    | cons b m => exact ⟨hi _ _ h.1, ih h.2⟩

/-! ### The same type with different references -/

section
variable {f g : Name → Option Name → Ty TranspileRef → TranspileRef} {R : TranspileRef → TranspileRef → Prop}

theorem tyWithFields_rel : ∀ {fs : List (Option Name × RTy)},
    (∀ p ∈ fs, R (f p.2.lib p.2.name (p.2.tyWith f)) (g p.2.lib p.2.name (p.2.tyWith g))) →
    All2 (fun p q => p.1 = q.1 ∧ R p.2 q.2) (RTy.tyWithFields f fs) (RTy.tyWithFields g fs)
  | [], _ => trivial
  | (n, t) :: fs, h => ⟨⟨rfl, h (n, t) (by simp)⟩, tyWithFields_rel (fs := fs) fun p hp => h p (by simp [hp])⟩

theorem tyWithVariants_rel : ∀ {vs : List (Variant × RTy)},
    (∀ p ∈ vs, R (f p.2.lib p.2.name (p.2.tyWith f)) (g p.2.lib p.2.name (p.2.tyWith g))) →
    All2 (fun p q => p.1 = q.1 ∧ R p.2 q.2) (RTy.tyWithVariants f vs) (RTy.tyWithVariants g vs)
  | [], _ => trivial
  | (v, t) :: vs, h => ⟨⟨rfl, h (v, t) (by simp)⟩, tyWithVariants_rel (vs := vs) fun p hp => h p (by simp [hp])⟩

theorem all2_named {l m : List (Option Name × TranspileRef)}
    (h : All2 (fun p q => p.1 = q.1 ∧ R p.2 q.2) l m) :
    All2 (fun p q => p.1 = q.1 ∧ R p.2 q.2)
      (l.filterMap fun p => p.1.map fun n => (n, p.2)) (m.filterMap fun p => p.1.map fun n => (n, p.2)) := by
  induction l generalizing m with
  | nil => cases m with
    | nil => trivial
    | cons => exact h.elim
  | cons a l ih => cases m with
    | nil => exact h.elim
    | cons b m =>
      obtain ⟨a, r⟩ := a
      obtain ⟨b, s⟩ := b
      obtain ⟨⟨h1, h2⟩, h3⟩ := h
      simp only at h1
      subst h1
      cases a with
      | none => simpa using ih h3
      | some n => simpa using ⟨⟨rfl, h2⟩, ih h3⟩

/-- Two ways of making references which agree up to `R` on the types mentioned directly result in types
which agree up to `R`. -/
theorem RTy.tyWith_rel (hE : ∀ a b, Ty.Rel R a b → R (.embedded a) (.embedded b)) (t : RTy)
    (hp : ∀ p ∈ t.parts, R (f p.lib p.name (p.tyWith f)) (g p.lib p.name (p.tyWith g))) :
    Ty.Rel R (t.tyWith f) (t.tyWith g) := by
  cases t with
  | prim c => simp [RTy.tyWith, Ty.Rel]
  | unicode sz => simp only [RTy.tyWith, Ty.Rel]; exact ⟨hE _ _ trivial, trivial⟩
  | rstring c c1 sz =>
    simp only [RTy.tyWith, Ty.Rel, All2]
    exact ⟨hp _ (by simp [RTy.parts]), hE _ _ ⟨hp _ (by simp [RTy.parts]), rfl⟩, trivial⟩
  | array t len => exact ⟨hp _ (by simp [RTy.parts]), rfl⟩
  | list t len => exact ⟨hp _ (by simp [RTy.parts]), rfl⟩
  | set t len => exact ⟨hp _ (by simp [RTy.parts]), rfl⟩
  | map k t len => exact ⟨hp _ (by simp [RTy.parts]), hp _ (by simp [RTy.parts]), rfl⟩
  | record lib name isTuple fs =>
    have h := tyWithFields_rel (f := f) (g := g) (R := R) (fs := fs) fun p hp' =>
      hp p.2 (List.mem_map_of_mem (f := Prod.snd) hp')
    simp only [RTy.tyWith]
    split
    · simp [Ty.Rel]
    · split
      · exact all2_map h fun _ _ h => h.2
      · exact all2_named h
  | enum lib name vs => simp [RTy.tyWith, Ty.Rel]
  | union lib name vs w =>
    have h := tyWithVariants_rel (f := f) (g := g) (R := R) (vs := vs) fun p hp' =>
      hp p.2 (List.mem_map_of_mem (f := Prod.snd) hp')
    simp only [RTy.tyWith]
    exact all2_byTag h fun _ _ h => by rw [h.1]
end

/-! ### Views -/

mutual
theorem RTy.ty_eq (V : View) : ∀ t : RTy, t.ty V = t.tyWith V.ref
  | .prim c => by rw [RTy.ty, RTy.tyWith]
  | .unicode sz => by rw [RTy.ty, RTy.tyWith]
  | .rstring c c1 sz => by rw [RTy.ty, RTy.tyWith, RTy.ty_eq V c, RTy.ty_eq V c1]
  | .array t len => by rw [RTy.ty, RTy.tyWith, RTy.ty_eq V t]
  | .list t sz => by rw [RTy.ty, RTy.tyWith, RTy.ty_eq V t]
  | .set t sz => by rw [RTy.ty, RTy.tyWith, RTy.ty_eq V t]
  | .map k t sz => by rw [RTy.ty, RTy.tyWith, RTy.ty_eq V k, RTy.ty_eq V t]
  | .record lib name isTuple fs => by rw [RTy.ty, RTy.tyWith, RTy.tyFields_eq V fs]
  | .enum lib name vs => by rw [RTy.ty, RTy.tyWith]
  | .union lib name vs w => by rw [RTy.ty, RTy.tyWith, RTy.tyVariants_eq V vs]
termination_by structural t => t
theorem RTy.tyFields_eq (V : View) : ∀ fs : List (Option Name × RTy),
    RTy.tyFields V fs = RTy.tyWithFields V.ref fs
  | [] => by rw [RTy.tyFields, RTy.tyWithFields]
  | f :: fs => by rw [RTy.tyFields, RTy.tyWithFields, RTy.tyField_eq V f, RTy.tyFields_eq V fs]
termination_by structural l => l
theorem RTy.tyField_eq (V : View) : ∀ f : Option Name × RTy, RTy.tyField V f = RTy.tyWithField V.ref f
  | (n, t) => by rw [RTy.tyField, RTy.tyWithField, RTy.ty_eq V t]
termination_by structural p => p
theorem RTy.tyVariants_eq (V : View) : ∀ vs : List (Variant × RTy),
    RTy.tyVariants V vs = RTy.tyWithVariants V.ref vs
  | [] => by rw [RTy.tyVariants, RTy.tyWithVariants]
  | v :: vs => by rw [RTy.tyVariants, RTy.tyWithVariants, RTy.tyVariant_eq V v, RTy.tyVariants_eq V vs]
termination_by structural l => l
theorem RTy.tyVariant_eq (V : View) : ∀ v : Variant × RTy, RTy.tyVariant V v = RTy.tyWithVariant V.ref v
  | (v, t) => by rw [RTy.tyVariant, RTy.tyWithVariant, RTy.ty_eq V t]
termination_by structural p => p
end

/-- The reference which means the same everywhere. -/
def RTy.absRef (H : Hash) (t : RTy) : TranspileRef := absolute H t.lib t.name (t.sem H)

/-- Comparing a view with the meaning. -/
theorem RTy.sem_rel {V : View} {H : Hash} {R : TranspileRef → TranspileRef → Prop}
    (hE : ∀ a b, Ty.Rel R a b → R (.embedded a) (.embedded b)) (t : RTy)
    (hp : ∀ p ∈ t.parts, R (p.ref V) (p.absRef H)) : Ty.Rel R (t.ty V) (t.sem H) := by
  rw [RTy.ty_eq]
  refine RTy.tyWith_rel hE t fun p hp' => ?_
  have := hp p hp'
  rw [RTy.ref, RTy.ty_eq] at this
  exact this

theorem RTy.Foreign.part {own : Name} {t p : RTy} (h : t.Foreign own) (hp : p ∈ t.parts) : p.Foreign own :=
  fun s hs => h s (.step hp hs)

theorem TranspileRef.commit_rel {a b : Ty TranspileRef}
    (h : Ty.Rel (fun r r' : TranspileRef => r.commit = r'.commit) a b) :
    TranspileRef.commitTy a = TranspileRef.commitTy b := by
  rw [TranspileRef.commitTy_eq, TranspileRef.commitTy_eq]
  exact Ty.commit_congr h fun _ _ _ h => h

/-- Seen from a library it has nothing to do with, a type has the commitment of its meaning. -/
theorem RTy.commit_foreign {V : View} (t : RTy) : t.Foreign V.own →
    TranspileRef.commitTy (t.ty V) = TranspileRef.commitTy (t.sem V.H) := by
  induction t using RTy.induct with
  | h t ih =>
    intro hf
    apply TranspileRef.commit_rel
    refine RTy.sem_rel (fun a b h => ?_) t fun p hp => ?_
    · simp only [TranspileRef.commit]
      exact TranspileRef.commit_rel h
    · have ih := ih p hp (hf.part hp)
      unfold RTy.ref RTy.absRef View.ref absolute
      cases e : p.name with
      | none => simp only [TranspileRef.commit]; exact ih
      | some n =>
        have := hf p (.step hp (.refl p)) (by simp [e])
        simp only [this, if_false, TranspileRef.commit, TranspileRef.semIdNamed, ih]

theorem RTy.semIdNamed_foreign {V : View} {t : RTy} {n : Name} (hn : t.name = some n) (hf : t.Foreign V.own) :
    TranspileRef.semIdNamed V.H (t.ty V) n = t.semId V.H := by
  simp only [RTy.semId, hn, TranspileRef.semIdNamed, t.commit_foreign hf]

theorem RTy.semId_text (H : Hash) (q : RTy) : q.semId H = taggedHash H SEM_ID_TAG (q.text H) := by
  unfold RTy.semId RTy.text
  cases q.name <;> rfl

theorem mem_described (s : RTy) : s ∈ s.described := by cases s <;> simp [RTy.described]

theorem Crate.Mentions.text {H : Hash} {cs : List Crate} {c : Crate} (hc : c ∈ cs) {s : RTy} (h : c.Mentions s) :
    crateTexts H cs (s.text H) := .inl ⟨s, ⟨c, hc, s, h, mem_described s⟩, rfl⟩

/-! ### Compiled types -/

theorem all2_comp {α β γ : Type} {R : α → β → Prop} {S : α → γ → Prop} {l : List α} {m : List β} {k : List γ}
    (h : All2 R l m) (h' : All2 S l k) : All2 (fun z y => ∃ x, S x z ∧ R x y) k m := by
  induction l generalizing m k with
  | nil => cases m with
    | nil => cases k with
      | nil => trivial
      | cons => exact h'.elim
    | cons => exact h.elim
  | cons a l ih => cases m with
    | nil => exact h.elim
    | cons b m => cases k with
      | nil => exact h'.elim
      | cons c k => exact ⟨⟨a, h'.1, h.1⟩, ih h.2 h'.2⟩

theorem Ty.rel_comp {α β γ : Type} {R : α → β → Prop} {S : α → γ → Prop} {t : Ty α} {u : Ty β} {v : Ty γ}
    (h : Ty.Rel R t u) (h' : Ty.Rel S t v) : Ty.Rel (fun z y => ∃ x, S x z ∧ R x y) v u := by
  have hp : ∀ {κ : Type} {l : List (κ × α)} {m : List (κ × β)} {k : List (κ × γ)},
      All2 (fun p q => p.1 = q.1 ∧ R p.2 q.2) l m → All2 (fun p q => p.1 = q.1 ∧ S p.2 q.2) l k →
      All2 (fun p q => p.1 = q.1 ∧ ∃ x, S x p.2 ∧ R x q.2) k m := fun h h' =>
    all2_imp (fun p _ q _ ⟨x, h1, h2⟩ => ⟨h1.1.symm.trans h2.1, x.2, h1.2, h2.2⟩) (all2_comp h h')
  cases t <;> cases u <;> simp only [Ty.Rel] at h <;> try exact h.elim
  all_goals cases v <;> simp only [Ty.Rel] at h' <;> try exact h'.elim
  case primitive => exact h'.symm.trans h
  case unicodeChar => trivial
  case enum => exact h'.symm.trans h
  case union => exact hp h h'
  case tuple => exact all2_comp h h'
  case struct => exact hp h h'
  case array => exact ⟨⟨_, h'.1, h.1⟩, h'.2.symm.trans h.2⟩
  case list => exact ⟨⟨_, h'.1, h.1⟩, h'.2.symm.trans h.2⟩
  case set => exact ⟨⟨_, h'.1, h.1⟩, h'.2.symm.trans h.2⟩
  case map => exact ⟨⟨_, h'.1, h.1⟩, ⟨_, h'.2.1, h.2.1⟩, h'.2.2.symm.trans h.2.2⟩

theorem Ty.mapRefs_congr {α β γ : Type} {f : α → γ} {g : β → γ} {R : α → β → Prop} {t : Ty α} {u : Ty β}
    (h : Ty.Rel R t u) (hR : ∀ a b, R a b → f a = g b) : t.mapRefs f = u.mapRefs g := by
  have hl : ∀ {l : List α} {m : List β}, All2 R l m → l.map f = m.map g := fun h =>
    all2_eq (all2_map h fun a b h => hR a b h)
  have hp : ∀ {κ : Type} {l : List (κ × α)} {m : List (κ × β)},
      All2 (fun p q => p.1 = q.1 ∧ R p.2 q.2) l m →
      l.map (fun p => (p.1, f p.2)) = m.map fun p => (p.1, g p.2) := fun h =>
    all2_eq (all2_map h fun a b h => by rw [h.1, hR _ _ h.2])
  cases t <;> cases u <;> simp only [Ty.Rel] at h <;> try exact h.elim
  all_goals simp only [Ty.mapRefs]
  case primitive => rw [h]
  case enum => rw [h]
  case union => rw [hp h]
  case tuple => rw [hl h]
  case struct => rw [hp h]
  case array => rw [hR _ _ h.1, h.2]
  case list => rw [hR _ _ h.1, h.2]
  case set => rw [hR _ _ h.1, h.2]
  case map => rw [hR _ _ h.1, hR _ _ h.2.1, h.2.2]

/-- The type is embedded in the reference, at any depth. -/
inductive TranspileRef.Nests : TranspileRef → Ty TranspileRef → Prop
  | here (t : Ty TranspileRef) : Nests (.embedded t) t
  | deep {t u : Ty TranspileRef} {r : TranspileRef} : r ∈ t.refs → Nests r u → Nests (.embedded t) u

/-- The definition of an unnamed type. -/
def unnamedDef (H : Hash) (t : Ty TranspileRef) : SemId × SymTy :=
  ((TranspileRef.embedded t).id H, ⟨none, t.mapRefs (TranspileRef.id H)⟩)

theorem TranspileRef.nests_embedded {H : Hash} {t : Ty TranspileRef} {p : SemId × SymTy} :
    (∃ u, (TranspileRef.embedded t).Nests u ∧ p = unnamedDef H u) ↔
      (∃ r ∈ t.refs, ∃ u, r.Nests u ∧ p = unnamedDef H u) ∨ p = unnamedDef H t := by
  constructor
  · rintro ⟨u, hu, rfl⟩
    cases hu with
    | here => exact .inr rfl
    | deep hr hn => exact .inl ⟨_, hr, u, hn, rfl⟩
  · rintro (⟨r, hr, u, hu, rfl⟩ | rfl)
    · exact ⟨u, .deep hr hu, rfl⟩
    · exact ⟨t, .here t, rfl⟩

/-- Whatever the first reference is compiled to, at any level, has the commitment and id of the
second, and defines the types embedded in it. -/
structure Same (H : Hash) (idx : Name → Option SemId) (r r' : TranspileRef) : Prop where
  lib : ∀ l, LibRef.Compiled idx r l → l.commit = r'.commit ∧ l.semId H = r'.id H
  inline : ∀ l, InlineRef.Compiled idx r l → l.commit = r'.commit ∧ l.semId H = r'.id H
  inline1 : ∀ l, InlineRef1.Compiled idx r l → l.commit = r'.commit ∧ l.semId H = r'.id H
  inline2 : ∀ l, InlineRef2.Compiled idx r l → l.commit = r'.commit ∧ l.semId = r'.id H
  libDefs : ∀ l, LibRef.Compiled idx r l → ∀ p, p ∈ l.defs H ↔ ∃ t, r'.Nests t ∧ p = unnamedDef H t
  inlineDefs : ∀ l, InlineRef.Compiled idx r l → ∀ p, p ∈ l.defs H ↔ ∃ t, r'.Nests t ∧ p = unnamedDef H t
  inline1Defs : ∀ l, InlineRef1.Compiled idx r l → ∀ p, p ∈ l.defs H ↔ ∃ t, r'.Nests t ∧ p = unnamedDef H t
  inline2Defs : ∀ l, InlineRef2.Compiled idx r l → ∀ t, ¬ r'.Nests t

theorem Same.commitTy {H : Hash} {idx : Name → Option SemId} {β : Type} {g : β → Bytes}
    {C : TranspileRef → β → Prop} {a b : Ty TranspileRef} {u : Ty β} (h : Ty.Rel (Same H idx) a b)
    (hc : Ty.Rel C a u) (hC : ∀ r r' l, Same H idx r r' → C r l → g l = r'.commit) :
    u.commit g = TranspileRef.commitTy b := by
  rw [TranspileRef.commitTy_eq]
  refine Ty.commit_congr (Ty.rel_comp h hc) fun l _ r' hr => ?_
  obtain ⟨r, h1, h2⟩ := hr
  exact hC r r' l h2 h1

/-- The references of two types, one compiled from the other. -/
theorem Same.refs {H : Hash} {idx : Name → Option SemId} {β : Type} {C : TranspileRef → β → Prop}
    {a b : Ty TranspileRef} {u : Ty β} (h : Ty.Rel (Same H idx) a b) (hc : Ty.Rel C a u) :
    ∀ r' ∈ b.refs, ∃ l ∈ u.refs, ∃ r, C r l ∧ Same H idx r r' :=
  fun _ hr => all2_right (Ty.rel_refs (Ty.rel_comp h hc)) hr

theorem Same.embedded {H : Hash} {idx : Name → Option SemId} {a b : Ty TranspileRef}
    (h : Ty.Rel (Same H idx) a b) : Same H idx (.embedded a) (.embedded b) := by
  constructor
  · intro l hl
    cases l <;> simp only [LibRef.Compiled] at hl
    rename_i u
    have e := Same.commitTy h hl fun r r' l h hc => (h.inline l hc).1
    refine ⟨by simp only [LibRef.commit, TranspileRef.commit, e], ?_⟩
    simp only [LibRef.semId, TranspileRef.id, TranspileRef.commit, Ty.semIdUnnamed_eq, e]
  · intro l hl
    cases l <;> simp only [InlineRef.Compiled] at hl
    rename_i u
    have e := Same.commitTy h hl fun r r' l h hc => (h.inline1 l hc).1
    refine ⟨by simp only [InlineRef.commit, TranspileRef.commit, e], ?_⟩
    simp only [InlineRef.semId, TranspileRef.id, TranspileRef.commit, Ty.semIdUnnamed_eq, e]
  · intro l hl
    cases l <;> simp only [InlineRef1.Compiled] at hl
    rename_i u
    have e := Same.commitTy h hl fun r r' l h hc => (h.inline2 l hc).1
    refine ⟨by simp only [InlineRef1.commit, TranspileRef.commit, e], ?_⟩
    simp only [InlineRef1.semId, TranspileRef.id, TranspileRef.commit, Ty.semIdUnnamed_eq, e]
  · intro l hl
    cases l <;> simp only [InlineRef2.Compiled] at hl
  · intro l hl p
    cases l <;> simp only [LibRef.Compiled] at hl
    rename_i u
    have e := Same.commitTy h hl fun r r' l h hc => (h.inline l hc).1
    have e' : unnamedDef H b = (u.semIdUnnamed H InlineRef.commit, ⟨none, u.mapRefs (InlineRef.semId H)⟩) := by
      simp only [unnamedDef, TranspileRef.id, TranspileRef.commit, Ty.semIdUnnamed_eq, e]
      rw [Ty.mapRefs_congr (Ty.rel_comp h hl) fun a b ⟨r, h1, h2⟩ => (h2.inline a h1).2]
    rw [LibRef.defs, List.mem_append, TranspileRef.nests_embedded, List.mem_flatMap, List.mem_singleton, e']
    refine or_congr_left ⟨?_, ?_⟩
    · rintro ⟨l, hlm, hp⟩
      obtain ⟨r', hr', r, h1, h2⟩ := all2_left (Ty.rel_refs (Ty.rel_comp h hl)) hlm
      obtain ⟨t, ht, rfl⟩ := (h2.inlineDefs l h1 p).mp hp
      exact ⟨r', hr', t, ht, rfl⟩
    · rintro ⟨r', hr', t, ht, rfl⟩
      obtain ⟨l, hlm, r, h1, h2⟩ := Same.refs h hl r' hr'
      exact ⟨l, hlm, (h2.inlineDefs l h1 _).mpr ⟨t, ht, rfl⟩⟩
  · intro l hl p
    cases l <;> simp only [InlineRef.Compiled] at hl
    rename_i u
    have e := Same.commitTy h hl fun r r' l h hc => (h.inline1 l hc).1
    have e' : unnamedDef H b = (u.semIdUnnamed H InlineRef1.commit, ⟨none, u.mapRefs (InlineRef1.semId H)⟩) := by
      simp only [unnamedDef, TranspileRef.id, TranspileRef.commit, Ty.semIdUnnamed_eq, e]
      rw [Ty.mapRefs_congr (Ty.rel_comp h hl) fun a b ⟨r, h1, h2⟩ => (h2.inline1 a h1).2]
    rw [InlineRef.defs, List.mem_append, TranspileRef.nests_embedded, List.mem_flatMap, List.mem_singleton, e']
    refine or_congr_left ⟨?_, ?_⟩
    · rintro ⟨l, hlm, hp⟩
      obtain ⟨r', hr', r, h1, h2⟩ := all2_left (Ty.rel_refs (Ty.rel_comp h hl)) hlm
      obtain ⟨t, ht, rfl⟩ := (h2.inline1Defs l h1 p).mp hp
      exact ⟨r', hr', t, ht, rfl⟩
    · rintro ⟨r', hr', t, ht, rfl⟩
      obtain ⟨l, hlm, r, h1, h2⟩ := Same.refs h hl r' hr'
      exact ⟨l, hlm, (h2.inline1Defs l h1 _).mpr ⟨t, ht, rfl⟩⟩
  · intro l hl p
    cases l <;> simp only [InlineRef1.Compiled] at hl
    rename_i u
    have e := Same.commitTy h hl fun r r' l h hc => (h.inline2 l hc).1
    have e' : unnamedDef H b = (u.semIdUnnamed H InlineRef2.commit, ⟨none, u.mapRefs InlineRef2.semId⟩) := by
      simp only [unnamedDef, TranspileRef.id, TranspileRef.commit, Ty.semIdUnnamed_eq, e]
      rw [Ty.mapRefs_congr (Ty.rel_comp h hl) fun a b ⟨r, h1, h2⟩ => (h2.inline2 a h1).2]
    rw [InlineRef1.defs, TranspileRef.nests_embedded, List.mem_singleton, e']
    refine ⟨.inr, ?_⟩
    rintro (⟨r', hr', t, ht, rfl⟩ | h')
    · obtain ⟨l, hlm, r, h1, h2⟩ := Same.refs h hl r' hr'
      exact absurd ht (h2.inline2Defs l h1 t)
    · exact h'
  · intro l hl
    cases l <;> simp only [InlineRef2.Compiled] at hl

theorem TranspileRef.not_nests_extern {s : SymbolRef} {t : Ty TranspileRef} :
    ¬ (TranspileRef.extern s).Nests t := by
  intro h
  cases h

theorem Same.named {H : Hash} {idx : Name → Option SemId} {n : Name} {s : SymbolRef}
    (h : idx n = some s.semId) : Same H idx (.named n) (.extern s) := by
  constructor <;> intro l hl
  iterate 4
    · cases l <;> simp only [LibRef.Compiled, InlineRef.Compiled, InlineRef1.Compiled, InlineRef2.Compiled] at hl <;>
        rw [h, Option.some.injEq] at hl <;> subst hl <;> exact ⟨by
          simp [LibRef.commit, InlineRef.commit, InlineRef1.commit, InlineRef2.commit, TranspileRef.commit], rfl⟩
  iterate 3
    · intro p
      cases l <;> simp only [LibRef.Compiled, InlineRef.Compiled, InlineRef1.Compiled] at hl <;>
        exact ⟨fun h => (by cases h), fun ⟨t, ht, _⟩ => absurd ht TranspileRef.not_nests_extern⟩
  · exact fun t => TranspileRef.not_nests_extern

theorem Same.extern {H : Hash} {idx : Name → Option SemId} {s s' : SymbolRef}
    (h : s.semId = s'.semId) : Same H idx (.extern s) (.extern s') := by
  constructor <;> intro l hl
  iterate 4
    · cases l <;> simp only [LibRef.Compiled, InlineRef.Compiled, InlineRef1.Compiled, InlineRef2.Compiled] at hl <;>
        rw [h] at hl <;> exact ⟨by
          simp [LibRef.commit, InlineRef.commit, InlineRef1.commit, InlineRef2.commit, TranspileRef.commit,
            ExternRef.commit, hl.2], hl.2⟩
  iterate 3
    · intro p
      cases l <;> simp only [LibRef.Compiled, InlineRef.Compiled, InlineRef1.Compiled] at hl <;>
        exact ⟨fun h => (by cases h), fun ⟨t, ht, _⟩ => absurd ht TranspileRef.not_nests_extern⟩
  · exact fun t => TranspileRef.not_nests_extern

section
variable {V : View} {U : RTy → Prop} {l : TypeLib}

/-- The types of a compiled library mean what the Rust types mean. -/
theorem compiled_same
    (hlib : ∀ s n, U s → s.lib = V.own → s.name = some n →
      ∃ u, l.types.get n = some u ∧ (s.ty V).CompiledTo (l.idOf V.H) u)
    (hU : ∀ t, U t → ∀ p ∈ t.parts, U p)
    (hlay : ∀ s, U s → s.name ≠ none → s.lib ≠ V.own → s.Foreign V.own) (t : RTy) :
    U t → Ty.Rel (Same V.H (l.idOf V.H)) (t.ty V) (t.sem V.H) := by
  induction t using RTy.induct with
  | h t ih =>
    intro ht
    refine RTy.sem_rel (fun a b h => Same.embedded h) t fun p hp => ?_
    have hUp := hU t ht p hp
    have ih := ih p hp hUp
    unfold RTy.ref RTy.absRef View.ref absolute
    cases e : p.name with
    | none => exact Same.embedded ih
    | some n =>
      by_cases hown : p.lib = V.own
      · simp only [hown, if_true]
        apply Same.named
        obtain ⟨u, hu, hc⟩ := hlib p n hUp hown e
        simp only [TypeLib.idOf, hu, Option.map_some, Option.some.injEq]
        rw [Ty.semIdNamed_eq, Same.commitTy ih hc fun r r' l h hc => (h.lib l hc).1]
        rfl
      · simp only [hown, if_false]
        apply Same.extern
        have := RTy.semIdNamed_foreign e (hlay p hUp (by simp [e]) hown)
        simpa only [RTy.semId, e] using this

theorem compiled_id
    (hlib : ∀ s n, U s → s.lib = V.own → s.name = some n →
      ∃ u, l.types.get n = some u ∧ (s.ty V).CompiledTo (l.idOf V.H) u)
    (hU : ∀ t, U t → ∀ p ∈ t.parts, U p)
    (hlay : ∀ s, U s → s.name ≠ none → s.lib ≠ V.own → s.Foreign V.own) {s : RTy} {n : Name} (hs : U s)
    (hl : s.lib = V.own) (hn : s.name = some n) :
    ∃ u, l.types.get n = some u ∧ n.commit ++ u.commit LibRef.commit = s.text V.H ∧
      u.mapRefs (LibRef.semId V.H) = (s.sem V.H).mapRefs (TranspileRef.id V.H) ∧
      ∀ p, p ∈ u.inlineDefs V.H ↔ ∃ r ∈ (s.sem V.H).refs, ∃ t, r.Nests t ∧ p = unnamedDef V.H t := by
  obtain ⟨u, hu, hc⟩ := hlib s n hs hl hn
  have h := compiled_same hlib hU hlay s hs
  refine ⟨u, hu, ?_, ?_, ?_⟩
  · rw [Same.commitTy h hc fun r r' l h hc => (h.lib l hc).1]
    simp only [RTy.text, hn]
  · exact Ty.mapRefs_congr (Ty.rel_comp h hc) fun a b ⟨r, h1, h2⟩ => (h2.lib a h1).2
  · intro p
    rw [Ty.inlineDefs, List.mem_flatMap]
    constructor
    · rintro ⟨l, hlm, hp⟩
      obtain ⟨r', hr', r, h1, h2⟩ := all2_left (Ty.rel_refs (Ty.rel_comp h hc)) hlm
      obtain ⟨t, ht, rfl⟩ := (h2.libDefs l h1 p).mp hp
      exact ⟨r', hr', t, ht, rfl⟩
    · rintro ⟨r', hr', t, ht, rfl⟩
      obtain ⟨l, hlm, r, h1, h2⟩ := Same.refs h hc r' hr'
      exact ⟨l, hlm, (h2.libDefs l h1 _).mpr ⟨t, ht, rfl⟩⟩
end

end Verif
