import Verif.Lemmas.CompileLib

/-! Helper lemmas about `Ty.Rel` and the compiled forms of references: inverse, uniqueness, change
of the index. -/

namespace Verif

section
variable {α β : Type}

theorem all2_flip {R : α → β → Prop} {l : List α} {m : List β} :
    All2 R l m ↔ All2 (fun b a => R a b) m l := by
  induction l generalizing m with
  | nil => cases m <;> simp [All2]
  | cons a l ih => cases m with
    | nil => simp [All2]
    | cons b m => simp [All2, ih]

theorem all2_congr {R S : α → β → Prop} (h : ∀ a b, R a b ↔ S a b) {l : List α} {m : List β} :
    All2 R l m ↔ All2 S l m := by
  have : R = S := by funext a b; exact propext (h a b)
  rw [this]

theorem Ty.rel_flip {R : α → β → Prop} {t : Ty α} {u : Ty β} :
    Ty.Rel R t u ↔ Ty.Rel (fun b a => R a b) u t := by
  cases t <;> cases u <;> simp only [Ty.Rel, eq_comm] <;>
    (try rw [all2_flip]) <;> (try (apply all2_congr; intro a b; simp [eq_comm]))

theorem all2_right_unique {R : α → β → Prop} {l : List α} {m m' : List β} (h : All2 R l m)
    (h' : All2 R l m') (hu : ∀ a ∈ l, ∀ b b', R a b → R a b' → b = b') : m = m' := by
  induction l generalizing m m' with
  | nil => rw [all2_nil.mp h, all2_nil.mp h']
  | cons a l ih =>
    cases m with
    | nil => exact h.elim
    | cons b m => cases m' with
      | nil => exact h'.elim
      | cons b' m' =>
        rw [hu a (by simp) b b' h.1 h'.1, ih h.2 h'.2 fun a ha => hu a (by simp [ha])]

theorem Ty.replaced_unique {t : Ty α} {bs : List β} {u u' : Ty β} (h : t.Replaced bs u)
    (h' : t.Replaced bs u') : u = u' := by
  cases t with
  | primitive | unicodeChar | enum => cases bs <;> simp_all [Replaced]
  | union | struct | tuple =>
    simp only [Replaced] at h h'
    rw [h.2, h'.2]
  | array | list | set =>
    rcases bs with _ | ⟨b, _ | _⟩ <;> simp [Replaced] at h h'
    rw [h, h']
  | map =>
    rcases bs with _ | ⟨b, _ | ⟨c, _ | _⟩⟩ <;> simp [Replaced] at h h'
    rw [h, h']

/-- The references determine the related type. -/
theorem Ty.rel_right_unique {R : α → β → Prop} {t : Ty α} {u u' : Ty β} (h : Ty.Rel R t u)
    (h' : Ty.Rel R t u') (hu : ∀ a ∈ t.refs, ∀ b b', R a b → R a b' → b = b') : u = u' := by
  obtain ⟨bs, h1, h2⟩ := Ty.rel_iff_replaced.mp h
  obtain ⟨bs', h1', h2'⟩ := Ty.rel_iff_replaced.mp h'
  rw [all2_right_unique h1 h1' hu] at h2
  exact Ty.replaced_unique h2 h2'

theorem all2_map_fst {κ : Type} {R : α → β → Prop} {l : List (κ × α)} {m : List (κ × β)}
    (h : All2 (fun p q => p.1 = q.1 ∧ R p.2 q.2) l m) : l.map Prod.fst = m.map Prod.fst := by
  induction l generalizing m with
  | nil => rw [all2_nil.mp h]; rfl
  | cons a l ih => cases m with
    | nil => exact h.elim
    | cons b m => simp [h.1.1, ih h.2]

/-- Related types obey the same limits. -/
theorem Ty.rel_wf {R : α → β → Prop} {t : Ty α} {u : Ty β} (h : Ty.Rel R t u) (hw : t.WF) :
    u.WF := by
  cases t <;> cases u <;> simp only [Ty.Rel] at h <;> try exact h.elim
  case enum => subst h; exact hw
  case union => simp only [Ty.WF] at hw ⊢; rw [← all2_map_fst h]; exact hw
  case tuple => simp only [Ty.WF] at hw ⊢; rw [← all2_length h]; exact hw
  case struct => simp only [Ty.WF] at hw ⊢; rw [← all2_length h]; exact hw
  all_goals exact trivial

theorem all2_right {R : α → β → Prop} {l : List α} {m : List β} (h : All2 R l m) {b : β}
    (hb : b ∈ m) : ∃ a ∈ l, R a b := all2_left (all2_flip.mp h) hb

end

/-! ### Compiled forms -/

variable {idx idx' : Name → Option SemId}

theorem ExternRef.ext' {a b : ExternRef} (h1 : a.libId = b.libId) (h2 : a.semId = b.semId) :
    a = b := by
  cases a; cases b; simp_all

theorem InlineRef2.Compiled.right_unique {r : TranspileRef} {l l' : InlineRef2}
    (h : InlineRef2.Compiled idx r l) (h' : InlineRef2.Compiled idx r l') : l = l' := by
  cases r <;> cases l <;> cases l' <;> simp only [InlineRef2.Compiled] at h h'
  · have := h.symm.trans h'; cases this; rfl
  · rw [ExternRef.ext' (h.1.trans h'.1.symm) (h.2.trans h'.2.symm)]

theorem InlineRef1.Compiled.right_unique {r : TranspileRef} {l l' : InlineRef1}
    (h : InlineRef1.Compiled idx r l) (h' : InlineRef1.Compiled idx r l') : l = l' := by
  cases r <;> cases l <;> cases l' <;> simp only [InlineRef1.Compiled] at h h'
  · rw [Ty.rel_right_unique h h' fun _ _ _ _ => InlineRef2.Compiled.right_unique]
  · have := h.symm.trans h'; cases this; rfl
  · rw [ExternRef.ext' (h.1.trans h'.1.symm) (h.2.trans h'.2.symm)]

theorem InlineRef.Compiled.right_unique {r : TranspileRef} {l l' : InlineRef}
    (h : InlineRef.Compiled idx r l) (h' : InlineRef.Compiled idx r l') : l = l' := by
  cases r <;> cases l <;> cases l' <;> simp only [InlineRef.Compiled] at h h'
  · rw [Ty.rel_right_unique h h' fun _ _ _ _ => InlineRef1.Compiled.right_unique]
  · have := h.symm.trans h'; cases this; rfl
  · rw [ExternRef.ext' (h.1.trans h'.1.symm) (h.2.trans h'.2.symm)]

theorem LibRef.Compiled.right_unique {r : TranspileRef} {l l' : LibRef}
    (h : LibRef.Compiled idx r l) (h' : LibRef.Compiled idx r l') : l = l' := by
  cases r <;> cases l <;> cases l' <;> simp only [LibRef.Compiled] at h h'
  · rw [Ty.rel_right_unique h h' fun _ _ _ _ => InlineRef.Compiled.right_unique]
  · have := h.symm.trans h'; cases this; rfl
  · rw [ExternRef.ext' (h.1.trans h'.1.symm) (h.2.trans h'.2.symm)]

theorem Ty.CompiledTo.right_unique {t : Ty TranspileRef} {u u' : Ty LibRef}
    (h : t.CompiledTo idx u) (h' : t.CompiledTo idx u') : u = u' :=
  Ty.rel_right_unique h h' fun _ _ _ _ => LibRef.Compiled.right_unique

theorem InlineRef2.Compiled.congr {r : TranspileRef} {l : InlineRef2}
    (hi : ∀ n, r.Mentions n → idx n = idx' n)
    (h : InlineRef2.Compiled idx r l) : InlineRef2.Compiled idx' r l := by
  cases r <;> cases l <;> first
    | exact (hi _ (.named _)).symm.trans h
    | exact h

theorem InlineRef1.Compiled.congr {r : TranspileRef} {l : InlineRef1}
    (hi : ∀ n, r.Mentions n → idx n = idx' n)
    (h : InlineRef1.Compiled idx r l) : InlineRef1.Compiled idx' r l := by
  cases r <;> cases l <;> first
    | exact (hi _ (.named _)).symm.trans h
    | exact Ty.rel_imp h fun a ha _ => InlineRef2.Compiled.congr fun n hn => hi n (.embedded ha hn)
    | exact h

theorem InlineRef.Compiled.congr {r : TranspileRef} {l : InlineRef}
    (hi : ∀ n, r.Mentions n → idx n = idx' n)
    (h : InlineRef.Compiled idx r l) : InlineRef.Compiled idx' r l := by
  cases r <;> cases l <;> first
    | exact (hi _ (.named _)).symm.trans h
    | exact Ty.rel_imp h fun a ha _ => InlineRef1.Compiled.congr fun n hn => hi n (.embedded ha hn)
    | exact h

theorem LibRef.Compiled.congr {r : TranspileRef} {l : LibRef}
    (hi : ∀ n, r.Mentions n → idx n = idx' n)
    (h : LibRef.Compiled idx r l) : LibRef.Compiled idx' r l := by
  cases r <;> cases l <;> first
    | exact (hi _ (.named _)).symm.trans h
    | exact Ty.rel_imp h fun a ha _ => InlineRef.Compiled.congr fun n hn => hi n (.embedded ha hn)
    | exact h

theorem Ty.CompiledTo.congr {t : Ty TranspileRef} {u : Ty LibRef}
    (hi : ∀ n, t.Mentions n → idx n = idx' n) (h : t.CompiledTo idx u) : t.CompiledTo idx' u :=
  Ty.rel_imp h fun a ha _ => LibRef.Compiled.congr fun n hn => hi n ⟨a, ha, hn⟩

/-! ### The symbolic form is determined by the compiled one -/

section
variable {P : SymbolRef → Prop}

/-- Left uniqueness for one level, given the next. -/
theorem embedded_unique {β : Type} {R : TranspileRef → β → Prop} {t t' : Ty TranspileRef}
    {u : Ty β} (h : Ty.Rel R t u) (h' : Ty.Rel R t' u)
    (hP : ∀ s, (TranspileRef.embedded t).Uses s → P s)
    (hP' : ∀ s, (TranspileRef.embedded t').Uses s → P s)
    (hR : ∀ a a' b, R a b → R a' b → (∀ s, a.Uses s → P s) → (∀ s, a'.Uses s → P s) → a = a') :
    t = t' := by
  have key : ∀ b ∈ u.refs, ∀ a a', (R a b ∧ a ∈ t.refs ∨ R a b ∧ a ∈ t'.refs) →
      (R a' b ∧ a' ∈ t.refs ∨ R a' b ∧ a' ∈ t'.refs) → a = a' := by
    intro b _ a a' h1 h2
    have hu : ∀ x, (R x b ∧ x ∈ t.refs ∨ R x b ∧ x ∈ t'.refs) → ∀ s, x.Uses s → P s := by
      rintro x (⟨-, hx⟩ | ⟨-, hx⟩) s hs
      · exact hP s (.embedded hx hs)
      · exact hP' s (.embedded hx hs)
    exact hR a a' b (by rcases h1 with h | h <;> exact h.1) (by rcases h2 with h | h <;> exact h.1)
      (hu a h1) (hu a' h2)
  have g : Ty.Rel (fun b a => R a b ∧ a ∈ t.refs ∨ R a b ∧ a ∈ t'.refs) u t := by
    rw [← Ty.rel_flip (R := fun a b => R a b ∧ a ∈ t.refs ∨ R a b ∧ a ∈ t'.refs)]
    exact Ty.rel_imp h fun a ha b hb => Or.inl ⟨hb, ha⟩
  have g' : Ty.Rel (fun b a => R a b ∧ a ∈ t.refs ∨ R a b ∧ a ∈ t'.refs) u t' := by
    rw [← Ty.rel_flip (R := fun a b => R a b ∧ a ∈ t.refs ∨ R a b ∧ a ∈ t'.refs)]
    exact Ty.rel_imp h' fun a ha b hb => Or.inr ⟨hb, ha⟩
  exact Ty.rel_right_unique g g' fun b hb a a' => key b hb a a'

variable (hinj : ∀ n n' id, idx n = some id → idx n' = some id → n = n')
  (hsym : ∀ s s', P s → P s' → s.libId = s'.libId → s.semId = s'.semId → s = s')
include hinj hsym

theorem InlineRef2.Compiled.left_unique {r r' : TranspileRef} {l : InlineRef2}
    (h : InlineRef2.Compiled idx r l) (h' : InlineRef2.Compiled idx r' l)
    (hP : ∀ s, r.Uses s → P s) (hP' : ∀ s, r'.Uses s → P s) : r = r' := by
  cases r <;> cases r' <;> cases l <;> simp only [InlineRef2.Compiled] at h h'
  · rw [hinj _ _ _ h h']
  · rw [hsym _ _ (hP _ (.extern _)) (hP' _ (.extern _)) (h.1.symm.trans h'.1)
      (h.2.symm.trans h'.2)]

theorem InlineRef1.Compiled.left_unique {r r' : TranspileRef} {l : InlineRef1}
    (h : InlineRef1.Compiled idx r l) (h' : InlineRef1.Compiled idx r' l)
    (hP : ∀ s, r.Uses s → P s) (hP' : ∀ s, r'.Uses s → P s) : r = r' := by
  cases r <;> cases r' <;> cases l <;> simp only [InlineRef1.Compiled] at h h'
  · rw [embedded_unique h h' hP hP' fun a a' b => InlineRef2.Compiled.left_unique hinj hsym]
  · rw [hinj _ _ _ h h']
  · rw [hsym _ _ (hP _ (.extern _)) (hP' _ (.extern _)) (h.1.symm.trans h'.1)
      (h.2.symm.trans h'.2)]

theorem InlineRef.Compiled.left_unique {r r' : TranspileRef} {l : InlineRef}
    (h : InlineRef.Compiled idx r l) (h' : InlineRef.Compiled idx r' l)
    (hP : ∀ s, r.Uses s → P s) (hP' : ∀ s, r'.Uses s → P s) : r = r' := by
  cases r <;> cases r' <;> cases l <;> simp only [InlineRef.Compiled] at h h'
  · rw [embedded_unique h h' hP hP' fun a a' b => InlineRef1.Compiled.left_unique hinj hsym]
  · rw [hinj _ _ _ h h']
  · rw [hsym _ _ (hP _ (.extern _)) (hP' _ (.extern _)) (h.1.symm.trans h'.1)
      (h.2.symm.trans h'.2)]

theorem LibRef.Compiled.left_unique {r r' : TranspileRef} {l : LibRef}
    (h : LibRef.Compiled idx r l) (h' : LibRef.Compiled idx r' l)
    (hP : ∀ s, r.Uses s → P s) (hP' : ∀ s, r'.Uses s → P s) : r = r' := by
  cases r <;> cases r' <;> cases l <;> simp only [LibRef.Compiled] at h h'
  · rw [embedded_unique h h' hP hP' fun a a' b => InlineRef.Compiled.left_unique hinj hsym]
  · rw [hinj _ _ _ h h']
  · rw [hsym _ _ (hP _ (.extern _)) (hP' _ (.extern _)) (h.1.symm.trans h'.1)
      (h.2.symm.trans h'.2)]

theorem Ty.CompiledTo.left_unique {t t' : Ty TranspileRef} {u : Ty LibRef}
    (h : t.CompiledTo idx u) (h' : t'.CompiledTo idx u)
    (hP : ∀ s, t.Uses s → P s) (hP' : ∀ s, t'.Uses s → P s) : t = t' := by
  refine embedded_unique h h' (P := P) ?_ ?_ fun a a' b =>
    LibRef.Compiled.left_unique hinj hsym
  · intro s hs
    cases hs with
    | embedded hr hs => exact hP s ⟨_, hr, hs⟩
  · intro s hs
    cases hs with
    | embedded hr hs => exact hP' s ⟨_, hr, hs⟩

end

end Verif
