import Verif.Lemmas.Basic
import Verif.Spec.Hash
import Verif.Spec.Ty

/-! Injectivity of the byte strings fed to the hash function. -/

namespace Verif

/-! ## Prefix codes -/

theorem Name.commit_append_inj {a b : Name} {x y : Bytes} (h : a.commit ++ x = b.commit ++ y) :
    a = b ∧ x = y := by
  simp only [Name.commit, List.cons_append, List.cons.injEq] at h
  have hl : a.bytes.length = b.bytes.length := by
    have := congrArg BitVec.toNat h.1
    simp only [BitVec.toNat_ofNat] at this
    have ha := a.length_le
    have hb := b.length_le
    omega
  obtain ⟨h1, h2⟩ := append_inj_of_length h.2 hl
  exact ⟨Name.ext h1, h2⟩

theorem Name.commit_ne_nil (a : Name) : a.commit ≠ [] := by simp [Name.commit]

theorem Variant.commit_append_inj {a b : Variant} {x y : Bytes}
    (h : a.commit ++ x = b.commit ++ y) : a = b ∧ x = y := by
  simp only [Variant.commit, List.append_assoc] at h
  obtain ⟨h1, h2⟩ := Name.commit_append_inj h
  simp only [List.cons_append, List.nil_append, List.cons.injEq] at h2
  cases a; cases b
  simp_all

theorem Variant.commit_ne_nil (a : Variant) : a.commit ≠ [] := by simp [Variant.commit, Name.commit]

theorem Id32.append_inj {a b : Id32} {x y : Bytes} (h : a.bytes ++ x = b.bytes ++ y) :
    a = b ∧ x = y := by
  obtain ⟨h1, h2⟩ := append_inj_of_length h (by rw [a.len, b.len])
  exact ⟨Id32.ext h1, h2⟩

theorem Id32.bytes_ne_nil (a : Id32) : a.bytes ≠ [] := by
  intro h; have := a.len; rw [h] at this; simp at this

theorem Sizing.commit_append_inj {a b : Sizing} {x y : Bytes}
    (h : a.commit ++ x = b.commit ++ y) : a = b ∧ x = y := by
  obtain ⟨h1, h2⟩ := append_inj_of_length h (by simp [Sizing.commit])
  obtain ⟨h3, h4⟩ := append_inj_of_length h1 (by simp)
  have e1 := le_inj (by have := a.min.isLt; simpa using this)
    (by have := b.min.isLt; simpa using this) h3
  have e2 := le_inj (by have := a.max.isLt; simpa using this)
    (by have := b.max.isLt; simpa using this) h4
  cases a; cases b
  simp only [Sizing.mk.injEq]
  exact ⟨⟨BitVec.eq_of_toNat_eq e1, BitVec.eq_of_toNat_eq e2⟩, h2⟩

theorem le2_append_inj {a b : BitVec 16} {x y : Bytes}
    (h : le 2 a.toNat ++ x = le 2 b.toNat ++ y) : a = b ∧ x = y := by
  obtain ⟨h1, h2⟩ := append_inj_of_length h (by simp)
  exact ⟨BitVec.eq_of_toNat_eq (le_inj (by have := a.isLt; simpa using this)
    (by have := b.isLt; simpa using this) h1), h2⟩

/-- Concatenations of elements of a prefix code that run to the end of the data determine the list. -/
theorem flatMap_rel {α β : Type} {f : α → Bytes} {g : β → Bytes} {R : α → β → Prop}
    {l : List α} {m : List β}
    (hne : ∀ a ∈ l, f a ≠ []) (hne' : ∀ b ∈ m, g b ≠ [])
    (hp : ∀ a ∈ l, ∀ b ∈ m, ∀ x y, f a ++ x = g b ++ y → R a b ∧ x = y)
    (h : l.flatMap f = m.flatMap g) : All2 R l m := by
  induction l generalizing m with
  | nil =>
    cases m with
    | nil => trivial
    | cons b m =>
      simp only [List.flatMap_nil, List.flatMap_cons] at h
      exact absurd (List.append_eq_nil_iff.mp h.symm).1 (hne' b (by simp))
  | cons a l ih =>
    cases m with
    | nil =>
      simp only [List.flatMap_nil, List.flatMap_cons] at h
      exact absurd (List.append_eq_nil_iff.mp h).1 (hne a (by simp))
    | cons b m =>
      simp only [List.flatMap_cons] at h
      obtain ⟨h1, h2⟩ := hp a (by simp) b (by simp) _ _ h
      exact ⟨h1, ih (fun a ha => hne a (by simp [ha])) (fun b hb => hne' b (by simp [hb]))
        (fun a ha b hb => hp a (by simp [ha]) b (by simp [hb])) h2⟩

/-- Concatenations of the same number of elements of a prefix code determine the list and the rest. -/
theorem flatMap_rel_append {α β : Type} {f : α → Bytes} {g : β → Bytes} {R S : α → β → Prop}
    {l : List α} {m : List β} {x y : Bytes}
    (hp : ∀ a b x y, S a b → f a ++ x = g b ++ y → R a b ∧ x = y)
    (hs : All2 S l m) (h : l.flatMap f ++ x = m.flatMap g ++ y) : All2 R l m ∧ x = y := by
  induction l generalizing m with
  | nil =>
    cases m with
    | nil => exact ⟨trivial, by simpa using h⟩
    | cons b m => exact hs.elim
  | cons a l ih =>
    cases m with
    | nil => exact hs.elim
    | cons b m =>
      simp only [List.flatMap_cons, List.append_assoc] at h
      obtain ⟨h1, h2⟩ := hp a b _ _ hs.1 h
      obtain ⟨h3, h4⟩ := ih hs.2 h2
      exact ⟨⟨h1, h3⟩, h4⟩

theorem all2_eq {α : Type} {l m : List α} (h : All2 (· = ·) l m) : l = m := by
  induction l generalizing m with
  | nil => cases m with
    | nil => rfl
    | cons => exact h.elim
  | cons a l ih => cases m with
    | nil => exact h.elim
    | cons b m => rw [h.1, ih h.2]

theorem all2_length {α β : Type} {R : α → β → Prop} {l : List α} {m : List β} (h : All2 R l m) :
    l.length = m.length := by
  induction l generalizing m with
  | nil =>
    cases m with
    | nil => rfl
    | cons _ _ => exact absurd h (by simp [All2])
  | cons a l ih =>
    cases m with
    | nil => exact absurd h (by simp [All2])
    | cons b m => simp [ih h.2]

theorem all2_refl {α : Type} {R : α → α → Prop} {l : List α} (h : ∀ a ∈ l, R a a) :
    All2 R l l := by
  induction l with
  | nil => trivial
  | cons a l ih => exact ⟨h a (by simp), ih fun a ha => h a (by simp [ha])⟩

theorem all2_of_length {α β : Type} {l : List α} {m : List β} (h : l.length = m.length) :
    All2 (fun _ _ => True) l m := by
  induction l generalizing m with
  | nil => cases m with
    | nil => trivial
    | cons => simp at h
  | cons a l ih => cases m with
    | nil => simp at h
    | cons b m => exact ⟨trivial, ih (by simpa using h)⟩

theorem all2_imp {α β : Type} {R S : α → β → Prop} {l : List α} {m : List β}
    (h : ∀ a ∈ l, ∀ b ∈ m, R a b → S a b) (hr : All2 R l m) : All2 S l m := by
  induction l generalizing m with
  | nil => cases m with
    | nil => trivial
    | cons => exact hr.elim
  | cons a l ih => cases m with
    | nil => exact hr.elim
    | cons b m =>
      exact ⟨h a (by simp) b (by simp) hr.1,
        ih (fun a ha b hb => h a (by simp [ha]) b (by simp [hb])) hr.2⟩

theorem Ty.rel_eq {α : Type} {t u : Ty α} (h : Ty.Rel (· = ·) t u) : t = u := by
  have hp : ∀ {κ : Type} {l m : List (κ × α)},
      All2 (fun p q => p.1 = q.1 ∧ p.2 = q.2) l m → l = m := fun h =>
    all2_eq (all2_imp (fun a _ b _ h => Prod.ext h.1 h.2) h)
  cases t <;> cases u <;> simp only [Ty.Rel] at h <;>
    first
    | exact h.elim
    | (obtain ⟨h1, h2, h3⟩ := h; subst h1 h2 h3; rfl)
    | (obtain ⟨h1, h2⟩ := h; subst h1 h2; rfl)
    | (have := hp h; subst this; rfl)
    | (have := all2_eq h; subst this; rfl)
    | (subst h; rfl)
    | rfl

theorem Ty.rel_refl {α : Type} {R : α → α → Prop} {t : Ty α} (h : ∀ r ∈ t.refs, R r r) :
    Ty.Rel R t t := by
  cases t <;> simp only [Ty.Rel, Ty.refs] at h ⊢
  · exact all2_refl fun p hp => ⟨rfl, h _ (List.mem_map_of_mem hp)⟩
  · exact all2_refl h
  · exact all2_refl fun p hp => ⟨rfl, h _ (List.mem_map_of_mem hp)⟩
  all_goals simp_all

theorem Cls.code_inj {a b : Cls} (h : a.code = b.code) : a = b := by
  cases a <;> cases b <;> first | rfl | (exact absurd h (by decide))

/-- The commitment of a type whose references are committed by a prefix code determines the type up
to the relation on references. -/
theorem Ty.commit_rel {α β : Type} {f : α → Bytes} {g : β → Bytes} {R : α → β → Prop}
    {t : Ty α} {u : Ty β}
    (hne : ∀ a ∈ t.refs, f a ≠ []) (hne' : ∀ b ∈ u.refs, g b ≠ [])
    (hp : ∀ a ∈ t.refs, ∀ b ∈ u.refs, ∀ x y, f a ++ x = g b ++ y → R a b ∧ x = y)
    (h : t.commit f = u.commit g) : Ty.Rel R t u := by
  unfold Ty.commit at h
  rw [List.cons.injEq] at h
  have hc := Cls.code_inj h.1
  replace h := h.2
  cases t <;> cases u <;> simp only [Ty.cls, reduceCtorEq] at hc <;>
    simp only [Ty.Rel, Ty.refs] at *
  case primitive => simpa using h
  case enum vs ws =>
    exact all2_eq (flatMap_rel (fun a _ => a.commit_ne_nil) (fun a _ => a.commit_ne_nil)
      (fun a _ b _ x y => Variant.commit_append_inj) h)
  case union vs ws =>
    refine flatMap_rel (fun a _ => by simp [Variant.commit, Name.commit])
      (fun a _ => by simp [Variant.commit, Name.commit]) (fun a ha b hb x y e => ?_) h
    simp only [List.append_assoc] at e
    obtain ⟨e1, e2⟩ := Variant.commit_append_inj e
    obtain ⟨e3, e4⟩ := hp a.2 (List.mem_map_of_mem ha) b.2 (List.mem_map_of_mem hb) _ _ e2
    exact ⟨⟨e1, e3⟩, e4⟩
  case tuple fs gs => exact flatMap_rel hne hne' hp h
  case struct fs gs =>
    refine flatMap_rel (fun a _ => by simp [Name.commit])
      (fun a _ => by simp [Name.commit]) (fun a ha b hb x y e => ?_) h
    simp only [List.append_assoc] at e
    obtain ⟨e1, e2⟩ := Name.commit_append_inj e
    obtain ⟨e3, e4⟩ := hp a.2 (List.mem_map_of_mem ha) b.2 (List.mem_map_of_mem hb) _ _ e2
    exact ⟨⟨e1, e3⟩, e4⟩
  case array t n u m =>
    obtain ⟨e1, e2⟩ := hp t (by simp) u (by simp) _ _ h
    have := le2_append_inj (x := []) (y := []) (by simpa using e2)
    exact ⟨e1, this.1⟩
  case list t n u m =>
    obtain ⟨e1, e2⟩ := hp t (by simp) u (by simp) _ _ h
    have := Sizing.commit_append_inj (x := []) (y := []) (by simpa using e2)
    exact ⟨e1, this.1⟩
  case set t n u m =>
    obtain ⟨e1, e2⟩ := hp t (by simp) u (by simp) _ _ h
    have := Sizing.commit_append_inj (x := []) (y := []) (by simpa using e2)
    exact ⟨e1, this.1⟩
  case map k t n l u m =>
    simp only [List.append_assoc] at h
    obtain ⟨e1, e2⟩ := hp k (by simp) l (by simp) _ _ h
    obtain ⟨e3, e4⟩ := hp t (by simp) u (by simp) _ _ e2
    have := Sizing.commit_append_inj (x := []) (y := []) (by simpa using e4)
    exact ⟨e1, e3, this.1⟩

/-- For types with the same skeleton the commitment is a prefix code. -/
theorem Ty.commit_skel {α β : Type} {f : α → Bytes} {g : β → Bytes} {R S : α → β → Prop}
    {t : Ty α} {u : Ty β} {x y : Bytes}
    (hp : ∀ a b x y, S a b → f a ++ x = g b ++ y → R a b ∧ x = y)
    (hs : Ty.Skel S t u) (h : t.commit f ++ x = u.commit g ++ y) : Ty.Rel R t u ∧ x = y := by
  unfold Ty.commit at h
  rw [List.cons_append, List.cons_append, List.cons.injEq] at h
  have hc := Cls.code_inj h.1
  replace h := h.2
  cases t <;> cases u <;> simp only [Ty.cls, reduceCtorEq] at hc <;>
    simp only [Ty.Rel, Ty.Skel] at *
  case primitive => simpa using h
  case unicodeChar => simpa using h
  case enum vs ws =>
    have := flatMap_rel_append (R := (· = ·)) (fun a b x y _ => Variant.commit_append_inj)
      (all2_of_length hs) h
    exact ⟨all2_eq this.1, this.2⟩
  case union vs ws =>
    refine flatMap_rel_append (fun a b x y s e => ?_) hs h
    simp only [List.append_assoc] at e
    obtain ⟨e1, e2⟩ := Variant.commit_append_inj e
    obtain ⟨e3, e4⟩ := hp a.2 b.2 _ _ s e2
    exact ⟨⟨e1, e3⟩, e4⟩
  case tuple fs gs => exact flatMap_rel_append hp hs h
  case struct fs gs =>
    refine flatMap_rel_append (fun a b x y s e => ?_) hs h
    simp only [List.append_assoc] at e
    obtain ⟨e1, e2⟩ := Name.commit_append_inj e
    obtain ⟨e3, e4⟩ := hp a.2 b.2 _ _ s e2
    exact ⟨⟨e1, e3⟩, e4⟩
  case array t n u m =>
    simp only [List.append_assoc] at h
    obtain ⟨e1, e2⟩ := hp t u _ _ hs h
    have := le2_append_inj e2
    exact ⟨⟨e1, this.1⟩, this.2⟩
  case list t n u m =>
    simp only [List.append_assoc] at h
    obtain ⟨e1, e2⟩ := hp t u _ _ hs h
    have := Sizing.commit_append_inj e2
    exact ⟨⟨e1, this.1⟩, this.2⟩
  case set t n u m =>
    simp only [List.append_assoc] at h
    obtain ⟨e1, e2⟩ := hp t u _ _ hs h
    have := Sizing.commit_append_inj e2
    exact ⟨⟨e1, this.1⟩, this.2⟩
  case map k t n l u m =>
    simp only [List.append_assoc] at h
    obtain ⟨e1, e2⟩ := hp k l _ _ hs.1 h
    obtain ⟨e3, e4⟩ := hp t u _ _ hs.2 e2
    have := Sizing.commit_append_inj e4
    exact ⟨⟨e1, e3, this.1⟩, this.2⟩

/-! ## Tagged hash -/

theorem Clash.symm {H : Hash} {tag x y : Bytes} (h : Clash H tag x y) : Clash H tag y x := ⟨h.1.symm, h.2.symm⟩

theorem taggedHash_inj {H : Hash} {tag x y : Bytes} (h : taggedHash H tag x = taggedHash H tag y) :
    x = y ∨ Clash H tag x y := by
  by_cases hxy : x = y
  · exact .inl hxy
  · exact .inr ⟨hxy, h⟩

theorem taggedHash_meets {H : Hash} {tag tag' x y : Bytes} (ht : tag ≠ tag') (h : taggedHash H tag x = taggedHash H tag' y) :
    Meets H tag x tag' y := by
  by_cases he : H tag = H tag'
  · exact .inl ⟨ht, he⟩
  · refine .inr ⟨fun hm => he ?_, h⟩
    unfold tagged at hm
    rw [List.append_assoc, List.append_assoc] at hm
    exact (Id32.append_inj hm).1

theorem Collision.mono {H : Hash} {D D' : Bytes → Prop} (h : ∀ x, D x → D' x) : Collision H D → Collision H D' := by
  rintro ⟨x, y, hx, hy, hc⟩
  exact ⟨x, y, h x hx, h y hy, hc⟩

/-- Texts of a set without collisions are determined by their ids. -/
theorem semHash_inj {H : Hash} {D : Bytes → Prop} (hc : ¬ Collision H D) {x y : Bytes} (hx : D x) (hy : D y)
    (h : taggedHash H SEM_ID_TAG x = taggedHash H SEM_ID_TAG y) : x = y :=
  (taggedHash_inj h).resolve_right fun h => hc ⟨x, y, hx, hy, h⟩

@[simp] theorem Ty.asWrappedTy_default {Ref : Type} (t : Ty Ref) :
    t.asWrappedTy asTyDefault = none := by
  unfold Ty.asWrappedTy
  split <;> rfl

theorem Ty.semIdUnnamed_eq {Ref : Type} (H : Hash) (f : Ref → Bytes) (t : Ty Ref) :
    t.semIdUnnamed H f = taggedHash H SEM_ID_TAG (t.commit f) := by
  simp [Ty.semIdUnnamed, Ty.semIdUnnamedN, Ty.semIdInner]

theorem Ty.semIdNamed_eq {Ref : Type} (H : Hash) (f : Ref → Bytes) (t : Ty Ref) (n : Name) :
    t.semIdNamed H f n = taggedHash H SEM_ID_TAG (n.commit ++ t.commit f) := rfl

/-! ## Commitments of references -/

theorem LibRef.commit_target {r : LibRef} {id : SemId} (h : r.target = some id) :
    r.commit = id.bytes := by
  cases r <;> simp_all [LibRef.target, LibRef.commit, ExternRef.commit, SemId.commit]

theorem InlineRef2.commit_skel {a b : InlineRef2} {x y : Bytes} (_ : InlineRef2.Skel a b)
    (h : a.commit ++ x = b.commit ++ y) : InlineRef2.Same a b ∧ x = y := by
  cases a <;> cases b <;> exact Id32.append_inj h

theorem InlineRef1.commit_skel {a b : InlineRef1} {x y : Bytes} (hs : InlineRef1.Skel a b)
    (h : a.commit ++ x = b.commit ++ y) : InlineRef1.Same a b ∧ x = y := by
  cases a <;> cases b <;>
    first
    | exact hs.elim
    | exact Id32.append_inj h
    | exact Ty.commit_skel (fun _ _ _ _ => InlineRef2.commit_skel) hs h

theorem InlineRef.commit_skel {a b : InlineRef} {x y : Bytes} (hs : InlineRef.Skel a b)
    (h : a.commit ++ x = b.commit ++ y) : InlineRef.Same a b ∧ x = y := by
  cases a <;> cases b <;>
    first
    | exact hs.elim
    | exact Id32.append_inj h
    | exact Ty.commit_skel (fun _ _ _ _ => InlineRef1.commit_skel) hs h

theorem LibRef.commit_skel {a b : LibRef} {x y : Bytes} (hs : LibRef.Skel a b)
    (h : a.commit ++ x = b.commit ++ y) : LibRef.Same a b ∧ x = y := by
  cases a <;> cases b <;>
    first
    | exact hs.elim
    | exact Id32.append_inj h
    | exact Ty.commit_skel (fun _ _ _ _ => InlineRef.commit_skel) hs h

end Verif
