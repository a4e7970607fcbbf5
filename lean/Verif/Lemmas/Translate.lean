import Verif.Lemmas.Ast
import Verif.Lemmas.Commit

/-! Helper lemmas about translating types with a function that leaves the builder unchanged. -/

namespace Verif
variable {α β γ σ ε : Type}

theorem all2_map_snd {κ : Type} {R : α → β → Prop} {l : List (κ × α)} {m : List (κ × β)} :
    All2 (fun p q => p.1 = q.1 ∧ R p.2 q.2) l m ↔
      ∃ bs, All2 R (l.map Prod.snd) bs ∧ m = (l.map Prod.fst).zip bs := by
  induction l generalizing m with
  | nil =>
    cases m with
    | nil => exact ⟨fun _ => ⟨[], trivial, rfl⟩, fun _ => trivial⟩
    | cons q m =>
      refine ⟨fun h => h.elim, fun ⟨bs, h, e⟩ => ?_⟩
      simp at e
  | cons p l ih =>
    cases m with
    | nil =>
      refine ⟨fun h => h.elim, fun ⟨bs, h, e⟩ => ?_⟩
      cases bs with
      | nil => exact h.elim
      | cons => simp at e
    | cons q m =>
      obtain ⟨k, a⟩ := p
      obtain ⟨k', b⟩ := q
      constructor
      · rintro ⟨⟨rfl, hr⟩, h⟩
        obtain ⟨bs, hbs, e⟩ := ih.mp h
        exact ⟨b :: bs, ⟨hr, hbs⟩, by simp [e]⟩
      · rintro ⟨bs, hbs, e⟩
        cases bs with
        | nil => exact hbs.elim
        | cons c bs =>
          simp only [List.map_cons, List.zip_cons_cons, List.cons.injEq, Prod.mk.injEq] at e
          obtain ⟨⟨rfl, rfl⟩, e⟩ := e
          exact ⟨⟨rfl, hbs.1⟩, ih.mpr ⟨bs, hbs.2, e⟩⟩

theorem all2_one {R : α → β → Prop} {a : α} {bs : List β} :
    All2 R [a] bs ↔ ∃ b, bs = [b] ∧ R a b := by
  rcases bs with _ | ⟨b, _ | ⟨c, bs⟩⟩ <;> simp [All2]

theorem all2_two {R : α → β → Prop} {a a' : α} {bs : List β} :
    All2 R [a, a'] bs ↔ ∃ b b', bs = [b, b'] ∧ R a b ∧ R a' b' := by
  rcases bs with _ | ⟨b, _ | ⟨c, _ | ⟨d, bs⟩⟩⟩
  · simp [All2]
  · simp [All2]
  · constructor
    · rintro ⟨h1, h2, -⟩; exact ⟨b, c, rfl, h1, h2⟩
    · rintro ⟨_, _, e, h1, h2⟩; cases e; exact ⟨h1, h2, trivial⟩
  · simp [All2]

theorem all2_nil {R : α → β → Prop} {bs : List β} : All2 R [] bs ↔ bs = [] := by
  cases bs <;> simp [All2]

/-- Being the same up to `R` is having the references replaced by `R`-related ones. -/
theorem Ty.rel_iff_replaced {R : α → β → Prop} {t : Ty α} {u : Ty β} :
    Ty.Rel R t u ↔ ∃ bs, All2 R t.refs bs ∧ t.Replaced bs u := by
  cases t with
  | primitive c =>
    cases u <;> simp [Rel, refs, all2_nil, Replaced, eq_comm]
  | unicodeChar => cases u <;> simp [Rel, refs, all2_nil, Replaced]
  | enum vs => cases u <;> simp [Rel, refs, all2_nil, Replaced, eq_comm]
  | union vs =>
    cases u with
    | union ws =>
      simp only [Rel, refs, Replaced, all2_map_snd]
      constructor
      · rintro ⟨bs, h, rfl⟩
        exact ⟨bs, h, by simpa using (all2_length h).symm, rfl⟩
      · rintro ⟨bs, h, _, e⟩
        exact ⟨bs, h, by simpa using e⟩
    | _ => simp [Rel, Replaced]
  | struct fs =>
    cases u with
    | struct ws =>
      simp only [Rel, refs, Replaced, all2_map_snd]
      constructor
      · rintro ⟨bs, h, rfl⟩
        exact ⟨bs, h, by simpa using (all2_length h).symm, rfl⟩
      · rintro ⟨bs, h, _, e⟩
        exact ⟨bs, h, by simpa using e⟩
    | _ => simp [Rel, Replaced]
  | tuple fs =>
    cases u with
    | tuple gs =>
      simp only [Rel, refs, Replaced]
      constructor
      · intro h
        exact ⟨gs, h, (all2_length h).symm, rfl⟩
      · rintro ⟨bs, h, _, e⟩
        cases e
        exact h
    | _ => simp [Rel, Replaced]
  | array a n =>
    cases u with
    | array b m =>
      simp only [Rel, refs, all2_one]
      constructor
      · rintro ⟨h, rfl⟩; exact ⟨[b], ⟨b, rfl, h⟩, rfl⟩
      · rintro ⟨_, ⟨c, rfl, h⟩, e⟩; cases e; exact ⟨h, rfl⟩
    | _ =>
      simp only [Rel, refs, all2_one, false_iff]
      rintro ⟨_, ⟨c, rfl, -⟩, e⟩
      simp [Replaced] at e
  | list a n =>
    cases u with
    | list b m =>
      simp only [Rel, refs, all2_one]
      constructor
      · rintro ⟨h, rfl⟩; exact ⟨[b], ⟨b, rfl, h⟩, rfl⟩
      · rintro ⟨_, ⟨c, rfl, h⟩, e⟩; cases e; exact ⟨h, rfl⟩
    | _ =>
      simp only [Rel, refs, all2_one, false_iff]
      rintro ⟨_, ⟨c, rfl, -⟩, e⟩
      simp [Replaced] at e
  | set a n =>
    cases u with
    | set b m =>
      simp only [Rel, refs, all2_one]
      constructor
      · rintro ⟨h, rfl⟩; exact ⟨[b], ⟨b, rfl, h⟩, rfl⟩
      · rintro ⟨_, ⟨c, rfl, h⟩, e⟩; cases e; exact ⟨h, rfl⟩
    | _ =>
      simp only [Rel, refs, all2_one, false_iff]
      rintro ⟨_, ⟨c, rfl, -⟩, e⟩
      simp [Replaced] at e
  | map k a n =>
    cases u with
    | map l b m =>
      simp only [Rel, refs, all2_two]
      constructor
      · rintro ⟨h, h', rfl⟩; exact ⟨[l, b], ⟨l, b, rfl, h, h'⟩, rfl⟩
      · rintro ⟨_, ⟨c, d, rfl, h, h'⟩, e⟩; cases e; exact ⟨h, h', rfl⟩
    | _ =>
      simp only [Rel, refs, all2_two, false_iff]
      rintro ⟨_, ⟨c, d, rfl, -, -⟩, e⟩
      simp [Replaced] at e

theorem traverseList_ro_ok {f : α → σ → Out ε (β × σ)} {R : α → β → Prop} {l : List α} {s s' : σ}
    {bs : List β} (hf : ∀ a ∈ l, ∀ b s', f a s = .ok (b, s') ↔ R a b ∧ s' = s) :
    traverseList f l s = .ok (bs, s') ↔ All2 R l bs ∧ s' = s := by
  induction l generalizing bs with
  | nil => simp [traverseList, all2_nil, eq_comm]
  | cons a l ih =>
    simp only [traverseList, Out.bind_eq_ok, Prod.exists]
    constructor
    · rintro ⟨b, s1, h1, cs, s2, h2, e⟩
      obtain ⟨hr, rfl⟩ := (hf a (by simp) b s1).mp h1
      cases e
      obtain ⟨ha, rfl⟩ := (ih fun a ha => hf a (by simp [ha])).mp h2
      exact ⟨⟨hr, ha⟩, rfl⟩
    · rintro ⟨h, rfl⟩
      cases bs with
      | nil => exact h.elim
      | cons b bs =>
        exact ⟨b, _, (hf a (by simp) b _).mpr ⟨h.1, rfl⟩, bs, _,
          (ih fun a ha => hf a (by simp [ha])).mpr ⟨h.2, rfl⟩, rfl⟩

/-- Successful translations with an unchanged builder. -/
theorem Ty.translate_ro_ok {f : α → σ → Out ε (β × σ)} {R : α → β → Prop} {t : Ty α} (h : t.WF)
    {s s' : σ} {u : Ty β} (hf : ∀ a ∈ t.refs, ∀ b s', f a s = .ok (b, s') ↔ R a b ∧ s' = s) :
    t.translate f s = .ok (u, s') ↔ Ty.Rel R t u ∧ s' = s := by
  rw [Ty.translate_eq h, Ty.rel_iff_replaced]
  simp only [Out.bind_eq_ok, Prod.exists]
  constructor
  · rintro ⟨bs, s1, h1, v, h2, e⟩
    obtain ⟨ha, rfl⟩ := (traverseList_ro_ok hf).mp h1
    cases e
    refine ⟨⟨bs, ha, (Ty.withRefs_replaced (all2_length ha).symm _).mp ?_⟩, rfl⟩
    revert h2
    cases t.withRefs bs <;> simp [Out.expect]
  · rintro ⟨⟨bs, ha, hr⟩, rfl⟩
    refine ⟨bs, _, (traverseList_ro_ok hf).mpr ⟨ha, rfl⟩, u, ?_, rfl⟩
    rw [(Ty.withRefs_replaced (all2_length ha).symm _).mpr hr]
    rfl

theorem traverseList_fail {f : α → σ → Out ε (β × σ)} {l : List α} {s : σ}
    (hf : ∀ a ∈ l, ∀ b s', f a s = .ok (b, s') → s' = s) :
    (∃ r, traverseList f l s = .ok r) ∨
    ∃ pre a post, l = pre ++ a :: post ∧ (∀ x ∈ pre, ∃ b, f x s = .ok (b, s)) ∧
      ((∃ e, f a s = .err e ∧ traverseList f l s = .err e) ∨
       (f a s = .panic ∧ traverseList f l s = .panic) ∨
       (f a s = .diverge ∧ traverseList f l s = .diverge)) := by
  induction l with
  | nil => exact Or.inl ⟨_, rfl⟩
  | cons a l ih =>
    simp only [traverseList]
    cases h : f a s with
    | ok r =>
      obtain ⟨b, s1⟩ := r
      obtain rfl := hf a (by simp) b s1 h
      simp only [Out.bind_ok]
      rcases ih fun a ha => hf a (by simp [ha]) with ⟨r, hr⟩ | ⟨pre, x, post, e, hp, hx⟩
      · left; exact ⟨_, by rw [hr]; rfl⟩
      · right
        refine ⟨a :: pre, x, post, by simp [e], ?_, ?_⟩
        · intro y hy
          rcases List.mem_cons.mp hy with rfl | hy
          · exact ⟨b, h⟩
          · exact hp y hy
        · rcases hx with ⟨e', hx, ht⟩ | ⟨hx, ht⟩ | ⟨hx, ht⟩ <;> rw [ht] <;> simp [hx]
    | err e => exact Or.inr ⟨[], a, l, rfl, by simp, Or.inl ⟨e, h, rfl⟩⟩
    | panic => exact Or.inr ⟨[], a, l, rfl, by simp, Or.inr (Or.inl ⟨h, rfl⟩)⟩
    | diverge => exact Or.inr ⟨[], a, l, rfl, by simp, Or.inr (Or.inr ⟨h, rfl⟩)⟩

/-- A translation that leaves the builder unchanged either succeeds or fails as its first failing
reference. -/
theorem Ty.translate_fail {f : α → σ → Out ε (β × σ)} {t : Ty α} (h : t.WF) {s : σ}
    (hf : ∀ a ∈ t.refs, ∀ b s', f a s = .ok (b, s') → s' = s) :
    (∃ r, t.translate f s = .ok r) ∨
    ∃ pre a post, t.refs = pre ++ a :: post ∧ (∀ x ∈ pre, ∃ b, f x s = .ok (b, s)) ∧
      ((∃ e, f a s = .err e ∧ t.translate f s = .err e) ∨
       (f a s = .panic ∧ t.translate f s = .panic) ∨
       (f a s = .diverge ∧ t.translate f s = .diverge)) := by
  rw [Ty.translate_eq h]
  rcases traverseList_fail hf with ⟨r, hr⟩ | ⟨pre, x, post, e, hp, hx⟩
  · left
    have hl := (traverseList_runs.mp hr).length
    obtain ⟨u, hu⟩ := Ty.withRefs_some (t := t) (bs := r.1) (by omega)
    rw [hr]
    exact ⟨(u, r.2), by simp [hu, Out.expect]⟩
  · right
    refine ⟨pre, x, post, e, hp, ?_⟩
    rcases hx with ⟨e', hx, ht⟩ | ⟨hx, ht⟩ | ⟨hx, ht⟩ <;> rw [ht] <;> simp [hx]

end Verif
