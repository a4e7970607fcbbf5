import Verif.Spec.SysText
import Verif.Spec.Reach
import Verif.Lemmas.TextLib

/-!
# The text of a type system determines it
-/

namespace Verif

/-! ## Types as syntax trees -/

/-- The syntax tree of a type, given those of keys of maps and of other references. -/
def Ty.shape {Ref : Type} (key f : Ref → Sty) (t : Ty Ref) : Sty :=
  match t with
  | .primitive p => .prim p
  | .unicodeChar => .unicode
  | .enum vs => .enum vs
  | .union vs =>
    match t.asSome with
    | some r => .opt (f r)
    | none => .union (vs.map fun v => (v.1, false, f v.2))
  | .tuple [r] => f r
  | .tuple fs => .tuple (fs.map f)
  | .struct fs => .struct (fs.map fun p => (p.1, f p.2))
  | .array r len => .array (f r) len
  | .list r sz => .list (f r) sz
  | .set r sz => .set (f r) sz
  | .map k r sz => .map (key k) (f r) sz

theorem Ty.textShort_eq {Ref : Type} (G : Glyphs) {key f : Ref → Bytes} {key' f' : Ref → Sty}
    (hk : ∀ r, (key' r).render G = key r) (hf : ∀ r, (f' r).render G = f r) (t : Ty Ref) :
    t.textShort G key f = (t.shape key' f').render G := by
  cases t with
  | union vs =>
    simp only [Ty.textShort, Ty.text, Ty.shape]
    cases (Ty.union vs).asSome with
    | none => simp [Sty.render, Sty.renderVariants_eq, Function.comp_def, hf]
    | some r => simp [Sty.render, hf]
  | tuple fs =>
    match fs with
    | [] => simp [Ty.textShort, Ty.text, Ty.shape, Sty.render, Sty.renders_eq]
    | [r] => simp [Ty.textShort, Ty.text, Ty.shape, sepBy, hf]
    | r :: r' :: fs => simp [Ty.textShort, Ty.text, Ty.shape, Sty.render, Sty.renders_eq, hf, Function.comp_def]
  | struct fs => simp [Ty.textShort, Ty.text, Ty.shape, Sty.render, Sty.renderFields_eq, hf, Function.comp_def]
  | _ => simp [Ty.textShort, Ty.text, Ty.shape, Sty.render, hf, hk]

/-- References as syntax trees: names or ids. -/
inductive Sty.IsRef : Sty → Prop
  | ext {l n : Name} : Sty.IsRef (.ext l n)
  | mark {t : Bytes} : idText t = true → Sty.IsRef (.mark t)

theorem Sty.IsRef.plain {G : Glyphs} {P : Byte → Prop} {s : Sty} (h : s.IsRef) : s.Plain G P true := by
  cases h with
  | ext => exact .ext
  | mark h => exact .mark h

theorem Ty.shape_plain {Ref : Type} {G : Glyphs} {P : Byte → Prop} {key f : Ref → Sty} (hk : ∀ r, (key r).IsRef)
    (hf : ∀ r, (f r).IsRef) {t : Ty Ref} (hw : t.WF) (hp : ∀ p, t = .primitive p → P p) :
    (t.shape key f).Plain G P false := by
  cases t with
  | primitive p => exact .atom (.prim (hp p rfl))
  | unicodeChar => exact .atom .unicode
  | enum vs => exact .enum (by rintro rfl; simp [Ty.WF, VariantsWF] at hw)
  | union vs =>
    simp only [Ty.shape]
    cases (Ty.union vs).asSome with
    | some r => exact .atom (.opt (hf r).plain)
    | none =>
      refine .union ?_ ?_
      · intro h
        rw [List.map_eq_nil_iff] at h
        subst h
        simp [Ty.WF, VariantsWF] at hw
      · intro v hv
        obtain ⟨w, -, rfl⟩ := List.mem_map.1 hv
        exact (hf w.2).plain
  | tuple fs =>
    match fs, hw with
    | [r], _ => exact .atom (hf r).plain
    | r :: r' :: fs, _ =>
      refine .tuple (by simp) ?_
      intro s hs
      obtain ⟨w, -, rfl⟩ := List.mem_map.1 hs
      exact (hf w).plain
  | struct fs =>
    refine .struct ?_ ?_
    · intro h
      rw [List.map_eq_nil_iff] at h
      subst h
      simp [Ty.WF] at hw
    · intro v hv
      obtain ⟨w, -, rfl⟩ := List.mem_map.1 hv
      exact (hf w.2).plain
  | array => exact .atom (.array (.atom (hf _).plain))
  | list => exact .atom (.list (.atom (hf _).plain))
  | set => exact .atom (.set (.atom (hf _).plain))
  | map => exact .atom (.map (.atom (hk _).plain) (.atom (hf _).plain))

theorem asSome_inv {Ref : Type} {vs : List (Variant × Ref)} {r : Ref} (h : (Ty.union vs).asSome = some r) :
    ∃ u, vs = [(⟨n!"none", 0⟩, u), (⟨n!"some", 1⟩, r)] := by
  match vs, h with
  | [(⟨n, t⟩, u), (⟨m, t'⟩, w)], h =>
    simp only [Ty.asSome, List.length_cons, List.length_nil, List.head?_cons, List.getLast?_cons_cons,
      List.getLast?_singleton, if_true] at h
    split at h
    · rename_i hc
      obtain ⟨rfl, rfl, rfl, rfl⟩ := hc
      cases h
      exact ⟨u, rfl⟩
    · cases h

theorem map_eq_inj {α β : Type} {f g : α → β} : ∀ {l m : List α}, (∀ a ∈ l, ∀ b ∈ m, f a = g b → a = b) →
    l.map f = m.map g → l = m
  | [], [], _, _ => rfl
  | [], _ :: _, _, h => by simp at h
  | _ :: _, [], _, h => by simp at h
  | a :: l, b :: m, hi, h => by
    simp only [List.map_cons, List.cons.injEq] at h
    rw [hi a (by simp) b (by simp) h.1,
      map_eq_inj (fun a ha b hb => hi a (List.mem_cons_of_mem _ ha) b (List.mem_cons_of_mem _ hb)) h.2]

theorem map_eq_map {α β γ δ : Type} {f : α → γ} {g : β → γ} {f' : α → δ} {g' : β → δ} : ∀ {l : List α} {m : List β},
    (∀ a ∈ l, ∀ b ∈ m, f a = g b → f' a = g' b) → l.map f = m.map g → l.map f' = m.map g'
  | [], [], _, _ => rfl
  | [], _ :: _, _, h => by simp at h
  | _ :: _, [], _, h => by simp at h
  | a :: l, b :: m, hi, h => by
    simp only [List.map_cons, List.cons.injEq] at h
    rw [List.map_cons, List.map_cons, hi a (by simp) b (by simp) h.1,
      map_eq_map (fun a ha b hb => hi a (List.mem_cons_of_mem _ ha) b (List.mem_cons_of_mem _ hb)) h.2]

/-- The syntax tree determines the type, if those of the references do. -/
theorem Ty.shape_inj {Ref : Type} {key f key' f' : Ref → Sty} {unit : Ref} {t u : Ty Ref} (hf : ∀ r, (f r).IsRef)
    (hf' : ∀ r, (f' r).IsRef) (hi : ∀ r ∈ t.refs, ∀ q ∈ u.refs, f r = f' q → r = q)
    (hik : ∀ r ∈ t.refs, ∀ q ∈ u.refs, key r = key' q → r = q)
    (ht : ∀ a r, t = .union [(⟨n!"none", 0⟩, a), (⟨n!"some", 1⟩, r)] → a = unit)
    (hu : ∀ a r, u = .union [(⟨n!"none", 0⟩, a), (⟨n!"some", 1⟩, r)] → a = unit)
    (h : t.shape key f = u.shape key' f') : t = u := by
  have wrap : ∀ {f g : Ref → Sty}, (∀ r, (f r).IsRef) → ∀ {r : Ref} {t : Ty Ref} {key : Ref → Sty},
      t.shape key g = f r → ∃ q, t = .tuple [q] ∧ g q = f r := by
    intro f g hf r t key h
    have hr := hf r
    cases t with
    | union vs =>
      simp only [Ty.shape] at h
      cases hs : (Ty.union vs).asSome with
      | none => rw [hs] at h; simp only at h; rw [← h] at hr; cases hr
      | some r => rw [hs] at h; simp only at h; rw [← h] at hr; cases hr
    | tuple fs =>
      match fs with
      | [] => simp only [Ty.shape] at h; rw [← h] at hr; cases hr
      | [q] => exact ⟨q, rfl, h⟩
      | a :: b :: fs => simp only [Ty.shape] at h; rw [← h] at hr; cases hr
    | _ => simp only [Ty.shape] at h; rw [← h] at hr; cases hr
  have uni : ∀ {key f : Ref → Sty} {vs : List (Variant × Ref)},
      ((∃ u r, vs = [(⟨n!"none", 0⟩, u), (⟨n!"some", 1⟩, r)] ∧ (Ty.union vs).shape key f = .opt (f r)) ∨
        (Ty.union vs).shape key f = .union (vs.map fun v => (v.1, false, f v.2))) := by
    intro key f vs
    simp only [Ty.shape]
    cases hs : (Ty.union vs).asSome with
    | none => exact .inr rfl
    | some r =>
      obtain ⟨u, rfl⟩ := asSome_inv hs
      exact .inl ⟨u, r, rfl, rfl⟩
  have tup : ∀ {key f : Ref → Sty} {fs : List Ref}, (∃ r, fs = [r]) ∨ (Ty.tuple fs).shape key f = .tuple (fs.map f) := by
    intro key f fs
    match fs with
    | [] => exact .inr rfl
    | [r] => exact .inl ⟨r, rfl⟩
    | _ :: _ :: _ => exact .inr rfl
  -- the type of an item
  have single : ∀ {r : Ref}, t = .tuple [r] → t = u := by
    rintro r rfl
    obtain ⟨q, rfl, hq⟩ := wrap hf h.symm
    rw [hi r (by simp [Ty.refs]) q (by simp [Ty.refs]) hq.symm]
  have single' : ∀ {r : Ref}, u = .tuple [r] → t = u := by
    rintro r rfl
    obtain ⟨q, rfl, hq⟩ := wrap hf' h
    rw [hi q (by simp [Ty.refs]) r (by simp [Ty.refs]) hq]
  cases t with
  | union vs =>
    cases u with
    | union ws =>
      rcases uni (key := key) (f := f) (vs := vs) with ⟨a, r, rfl, e⟩ | e <;>
        rcases uni (key := key') (f := f') (vs := ws) with ⟨b, q, rfl, e'⟩ | e'
      · rw [e, e'] at h
        injection h with h
        have h1 := ht a r rfl
        have h2 := hu b q rfl
        rw [h1, h2, hi r (by simp [Ty.refs]) q (by simp [Ty.refs]) h]
      · rw [e, e'] at h; cases h
      · rw [e, e'] at h; cases h
      · rw [e, e'] at h
        injection h with h
        congr 1
        refine map_eq_inj ?_ h
        intro v hv w hw e
        simp only [Prod.mk.injEq, true_and] at e
        exact Prod.ext e.1 (hi v.2 (List.mem_map_of_mem hv) w.2 (List.mem_map_of_mem hw) e.2)
    | tuple fs =>
      rcases tup (key := key') (f := f') (fs := fs) with ⟨r, rfl⟩ | e'
      · exact single' rfl
      · rcases uni (key := key) (f := f) (vs := vs) with ⟨a, r, rfl, e⟩ | e <;> rw [e, e'] at h <;> cases h
    | _ => rcases uni (key := key) (f := f) (vs := vs) with ⟨a, r, rfl, e⟩ | e <;> rw [e] at h <;> cases h
  | tuple fs =>
    rcases tup (key := key) (f := f) (fs := fs) with ⟨r, rfl⟩ | e
    · exact single rfl
    · cases u with
      | union ws => rcases uni (key := key') (f := f') (vs := ws) with ⟨a, r, rfl, e'⟩ | e' <;> rw [e, e'] at h <;> cases h
      | tuple gs =>
        rcases tup (key := key') (f := f') (fs := gs) with ⟨r, rfl⟩ | e'
        · exact single' rfl
        · rw [e, e'] at h
          injection h with h
          rw [map_eq_inj (l := fs) (m := gs) hi h]
      | _ => rw [e] at h; cases h
  | struct fs =>
    cases u with
    | union ws => rcases uni (key := key') (f := f') (vs := ws) with ⟨a, r, rfl, e'⟩ | e' <;> rw [e'] at h <;> cases h
    | tuple gs =>
      rcases tup (key := key') (f := f') (fs := gs) with ⟨r, rfl⟩ | e'
      · exact single' rfl
      · rw [e'] at h; cases h
    | struct gs =>
      simp only [Ty.shape, Sty.struct.injEq] at h
      congr 1
      refine map_eq_inj ?_ h
      intro v hv w hw e
      simp only [Prod.mk.injEq] at e
      exact Prod.ext e.1 (hi v.2 (List.mem_map_of_mem hv) w.2 (List.mem_map_of_mem hw) e.2)
    | _ => cases h
  | _ =>
    cases u with
    | union ws => rcases uni (key := key') (f := f') (vs := ws) with ⟨a, r, rfl, e'⟩ | e' <;> rw [e'] at h <;> cases h
    | tuple gs =>
      rcases tup (key := key') (f := f') (fs := gs) with ⟨r, rfl⟩ | e'
      · exact single' rfl
      · rw [e'] at h; cases h
    | _ =>
      simp [Ty.shape, Ty.refs] at h hi hik ⊢ <;> first
        | exact h
        | (obtain ⟨h1, h2⟩ := h; exact ⟨hi h1, h2⟩)
        | (obtain ⟨h1, h2, h3⟩ := h; exact ⟨hik.1.1 h1, hi.2.2 h2, h3⟩)

/-! ## Lists of groups with keys -/

theorem keyed_inj {β : Type} {p : β → Bool} : ∀ {l m : List (List β × β × List β)},
    (∀ x ∈ l ++ m, p x.2.1 = true ∧ ∀ y ∈ x.1 ++ x.2.2, p y = false) →
    (∀ a ∈ l ++ m, ∀ b ∈ l ++ m, ∀ c ∈ l ++ m, ∀ d ∈ l ++ m, a.2.2 ++ c.1 = b.2.2 ++ d.1 → a.2.2 = b.2.2 ∧ c.1 = d.1) →
    (l.flatMap fun x => x.1 ++ x.2.1 :: x.2.2) = (m.flatMap fun x => x.1 ++ x.2.1 :: x.2.2) → l = m
  | [], [], _, _, _ => rfl
  | [], _ :: _, _, _, e => by simp at e
  | _ :: _, [], _, _, e => by simp at e
  | (pa, ka, ba) :: l, (pc, kc, bc) :: m, hp, hs, e => by
    have quiet : ∀ {x : List β × β × List β}, x ∈ (pa, ka, ba) :: l ++ (pc, kc, bc) :: m →
        ∀ y ∈ x.1 ++ x.2.2, (!p y) = true := by
      intro x hx y hy
      rw [(hp x hx).2 y hy]; rfl
    have loud : ∀ {x : List β × β × List β}, x ∈ (pa, ka, ba) :: l ++ (pc, kc, bc) :: m →
        ∀ r, ∀ y ∈ (x.2.1 :: r).head?, (!p y) = false := by
      intro x hx r y hy
      simp at hy
      rw [← hy, (hp x hx).1]; rfl
    have ha : (pa, ka, ba) ∈ (pa, ka, ba) :: l ++ (pc, kc, bc) :: m := by simp
    have hc : (pc, kc, bc) ∈ (pa, ka, ba) :: l ++ (pc, kc, bc) :: m := by simp
    simp only [List.flatMap_cons, List.append_assoc, List.cons_append] at e
    obtain ⟨h1, h2⟩ := append_span (p := fun y => !p y) (fun y hy => quiet ha y (by simp [hy]))
      (fun y hy => quiet hc y (by simp [hy])) (loud ha _) (loud hc _) e
    simp only [List.cons.injEq] at h2
    obtain ⟨h2, h3⟩ := h2
    have rest : ba = bc ∧ (l.flatMap fun x => x.1 ++ x.2.1 :: x.2.2) = (m.flatMap fun x => x.1 ++ x.2.1 :: x.2.2) := by
      have absent : ∀ {a c : List β} {x : List β × β × List β} {r : List β}, x ∈ (pa, ka, ba) :: l ++ (pc, kc, bc) :: m →
          (∀ y ∈ a, p y = false) → a = c ++ (x.1 ++ x.2.1 :: r) → False := by
        intro a c x r hx hq e
        have := hq x.2.1 (by rw [e]; simp)
        rw [(hp x hx).1] at this
        cases this
      match l, m with
      | [], [] => simpa using h3
      | [], x :: m =>
        simp only [List.flatMap_nil, List.append_nil, List.flatMap_cons, List.append_assoc, List.cons_append] at h3
        exact (absent (x := x) (by simp) (fun y hy => (hp _ ha).2 y (by simp [hy])) h3).elim
      | x :: l, [] =>
        simp only [List.flatMap_nil, List.append_nil, List.flatMap_cons, List.append_assoc, List.cons_append] at h3
        exact (absent (x := x) (by simp) (fun y hy => (hp _ hc).2 y (by simp [hy])) h3.symm).elim
      | x :: l, y :: m =>
        have hx : x ∈ (pa, ka, ba) :: (x :: l) ++ (pc, kc, bc) :: (y :: m) := by simp
        have hy : y ∈ (pa, ka, ba) :: (x :: l) ++ (pc, kc, bc) :: (y :: m) := by simp
        simp only [List.flatMap_cons, List.append_assoc, List.cons_append] at h3 ⊢
        rw [← List.append_assoc, ← List.append_assoc bc] at h3
        have q : ∀ {b : List β} {z w : List β × β × List β}, z ∈ (pa, ka, ba) :: (x :: l) ++ (pc, kc, bc) :: (y :: m) →
            w ∈ (pa, ka, ba) :: (x :: l) ++ (pc, kc, bc) :: (y :: m) → z.2.2 = b → ∀ i ∈ b ++ w.1, (!p i) = true := by
          rintro b z w hz hw rfl i hi
          rcases List.mem_append.1 hi with hi | hi
          · exact quiet hz i (by simp [hi])
          · exact quiet hw i (by simp [hi])
        obtain ⟨h4, h5⟩ := append_span (p := fun y => !p y) (q ha hx rfl) (q hc hy rfl) (loud hx _) (loud hy _) h3
        obtain ⟨h6, h7⟩ := hs _ ha _ hc _ hx _ hy h4
        exact ⟨h6, by rw [h7, h5]⟩
    have sub : ∀ {x : List β × β × List β}, x ∈ l ++ m → x ∈ (pa, ka, ba) :: l ++ (pc, kc, bc) :: m := by
      intro x hx
      simp only [List.mem_append, List.mem_cons] at hx ⊢
      rcases hx with hx | hx
      · exact .inl (.inr hx)
      · exact .inr (.inr hx)
    rw [h1, h2, rest.1, keyed_inj (fun x hx => hp x (sub hx))
      (fun a ha b hb c hc d hd => hs a (sub ha) b (sub hb) c (sub hc) d (sub hd)) rest.2]

/-! ## Entries of systems -/

/-- What is true of the texts of all items. -/
theorem Sty.Plain.toks_all {G : Glyphs} {P : Byte → Prop} {Q : Bytes → Prop} (hG : G.Clear P)
    (hatom : ∀ s : Sty, s.Plain G P true → Q (s.render G)) (hname : ∀ n : Name, Q n.bytes)
    (hvar : ∀ last v, Q (variantMark last v)) (hpar : ∀ t, Q (parens true t)) (hbar : Q b!"|") (hend : Q b!"(|)")
    {b : Bool} {s : Sty} (h : s.Plain G P b) : ∀ i ∈ s.toks G, Q i := by
  have vt : ∀ {l : List (List Bytes)}, (∀ g ∈ l, ∀ i ∈ g, Q i) → ∀ i ∈ variantToks l, Q i := by
    intro l h
    match l with
    | [] => simp [variantToks]
    | [a] =>
      intro i hi
      simp only [variantToks, List.mem_append, List.mem_cons, List.not_mem_nil, or_false] at hi
      rcases hi with hi | rfl | rfl
      · exact h a (by simp) i hi
      · exact hbar
      · exact hend
    | a :: b :: l =>
      intro i hi
      simp only [variantToks, List.mem_append, barred, List.mem_flatMap, List.mem_cons] at hi
      rcases hi with hi | ⟨g, hg, rfl | hi⟩
      · exact h a (by simp) i hi
      · exact hbar
      · exact h g (List.mem_cons_of_mem _ (by simpa using hg)) i hi
  have atomic : ∀ {s : Sty}, s.Plain G P true → ∀ i ∈ s.toks G, Q i := by
    intro s h i hi
    obtain ⟨-, h2, -⟩ := (h.good hG).atom rfl
    rw [h2, List.mem_singleton] at hi
    rw [hi]
    exact hatom s h
  have enumQ : ∀ (last : Byte) (l : List Variant), ∀ x ∈ enumItems last l, Q x := by
    intro last l
    induction l generalizing last with
    | nil => intro x hx; cases hx
    | cons v l ih =>
      intro x hx
      rcases List.mem_cons.1 hx with rfl | hx
      · exact hvar last v
      · exact ih _ x hx
  have unionQ : ∀ (last : Byte) (l : List (Variant × Bytes × Bool)), (∀ v ∈ l, Q (parens v.2.2 v.2.1)) →
      ∀ x ∈ unionPairs last l, Q x.1 ∧ Q x.2 := by
    intro last l
    induction l generalizing last with
    | nil => intro _ x hx; cases hx
    | cons v l ih =>
      intro hl x hx
      obtain ⟨v, t, c⟩ := v
      rcases List.mem_cons.1 hx with rfl | hx
      · exact ⟨hvar last v, hl (v, t, c) (by simp)⟩
      · exact ih _ (fun v hv => hl v (List.mem_cons_of_mem _ hv)) x hx
  by_cases hg : s.firstGap = []
  · exact atomic (h.atom_of hg)
  cases h with
  | atom h => exact atomic h
  | tuple _ h =>
    intro i hi
    obtain ⟨s, hs, rfl⟩ := List.mem_map.1 hi
    exact hatom s (h s hs)
  | struct _ h =>
    intro i hi
    simp only [Sty.toks, List.mem_flatMap, List.mem_cons, List.not_mem_nil, or_false] at hi
    obtain ⟨f, hf, rfl | rfl⟩ := hi
    · exact hname f.1
    · exact hatom _ (h f hf)
  | enum =>
    refine vt ?_
    intro g hg i hi
    obtain ⟨a, ha, rfl⟩ := List.mem_map.1 hg
    rw [List.mem_singleton.1 hi]
    exact enumQ _ _ a ha
  | @union l _ h =>
    refine vt ?_
    intro g hg i hi
    obtain ⟨a, ha, rfl⟩ := List.mem_map.1 hg
    have hp : ∀ v ∈ Sty.renderVariants G l, Q (parens v.2.2 v.2.1) := by
      rw [Sty.renderVariants_eq]
      intro v hv
      obtain ⟨⟨w, c, s⟩, hw, rfl⟩ := List.mem_map.1 hv
      cases c with
      | false => exact hatom s (h _ hw)
      | true => exact hpar _
    obtain ⟨h1, h2⟩ := unionQ _ _ hp a ha
    simp only [List.mem_cons, List.not_mem_nil, or_false] at hi
    rcases hi with rfl | rfl
    · exact h1
    · exact h2
  | _ => exact absurd rfl hg

/-- Keys of entries end with a colon. -/
def isKey (i : Bytes) : Bool := i.getLast? == some 58

theorem not_isKey {i : Bytes} (h : (58 : Byte) ∉ i) : isKey i = false := by
  simp only [isKey, beq_eq_false_iff_ne, ne_eq]
  exact fun e => h (List.mem_of_getLast? e)

theorem append_not_isKey {i j : Bytes} (hn : j ≠ []) (h : isKey j = false) : isKey (i ++ j) = false := by
  simp only [isKey, beq_eq_false_iff_ne, ne_eq] at h ⊢
  rw [List.getLast?_append, List.getLast?_eq_some_getLast hn, Option.some_or, ← List.getLast?_eq_some_getLast hn]
  exact h

theorem IsWord.not_isKey {i : Bytes} (h : IsWord i) : isKey i = false := Verif.not_isKey (h.not_mem (by decide))

theorem idText_not_isKey {i : Bytes} (h : idText i = true) : isKey i = false := by
  simp only [idText, Bool.and_eq_true] at h
  simpa [isKey] using h.2

section
variable {G : Glyphs} {P : Byte → Prop} (hG : G.Clear P)
include hG

theorem Sty.Plain.atom_not_isKey {s : Sty} (h : s.Plain G P true) : isKey (s.render G) = false := by
  have br : ∀ (a : Byte) (s : Bytes) (b : Byte), b ≠ 58 → isKey ([a] ++ s ++ [b]) = false := by
    intro a s b hb
    refine append_not_isKey (by simp) ?_
    simpa [isKey] using hb
  cases h with
  | prim hp =>
    rcases hG.prim _ hp with h | h
    · exact IsWord.not_isKey h
    · simp only [Sty.render, h]; decide
  | unicode => simp only [Sty.render]; decide
  | name => exact IsWord.not_isKey (Name.isWord _)
  | @ext l n =>
    simp only [Sty.render]
    exact append_not_isKey n.isWord.1 (IsWord.not_isKey n.isWord)
  | mark h => exact idText_not_isKey h
  | link _ h =>
    simp only [Sty.render]
    refine append_not_isKey ?_ (idText_not_isKey h)
    rintro rfl
    simp [idText] at h
  | opt => simp only [Sty.render]; exact append_not_isKey (by simp) (by decide)
  | array => rw [array_text]; exact br _ _ _ (by decide)
  | list => rw [list_text hG]; exact br _ _ _ (by decide)
  | set => rw [set_text hG]; exact br _ _ _ (by decide)
  | map _ h2 =>
    obtain ⟨L, hL⟩ := (h2.good hG).lex
    rw [map_text hG _ _ _ hL]; exact br _ _ _ (by decide)

theorem Sty.Plain.toks_not_isKey {b : Bool} {s : Sty} (h : s.Plain G P b) : ∀ i ∈ s.toks G, isKey i = false := by
  refine h.toks_all hG (Q := fun i => isKey i = false) (fun s hs => hs.atom_not_isKey hG) (fun n => IsWord.not_isKey n.isWord) ?_ ?_
    (by decide) (by decide)
  · intro last v
    unfold variantMark tagMark
    split
    · rw [List.append_nil]; exact IsWord.not_isKey v.name.isWord
    · rw [← List.append_assoc]
      exact append_not_isKey (decimal_isWord _).1 (IsWord.not_isKey (decimal_isWord _))
  · intro t
    simp only [parens, if_true]
    exact append_not_isKey (by decide) (by decide)

theorem Sty.Plain.toks_not_dashes {b : Bool} {s : Sty} (h : s.Plain G P b) : b!"--" ∉ s.toks G := by
  intro hm
  have := h.toks_all hG (Q := fun i => i ≠ b!"--") (fun s hs => ((hs.good hG).atom rfl).1.ne (by decide))
    (fun n => (Atom.word n.isWord).ne (by decide)) (fun last v => (variantMark_atom last v).ne (by decide))
    (fun t => by simp [parens]) (by decide) (by decide) _ hm
  exact this rfl

end

/-- References as shown: the name of the type, or else the id. -/
def refSty (look : SemId → Option TypeFqn) (id : Id32 → Bytes) (r : SemId) : Sty :=
  match look r with
  | some fqn => .ext fqn.lib fqn.name
  | none => .mark (id r)

theorem refSty_isRef {look : SemId → Option TypeFqn} {id : Id32 → Bytes} (h : ∀ i, idText (id i) = true) (r : SemId) :
    (refSty look id r).IsRef := by
  unfold refSty
  split
  · exact .ext
  · exact .mark (h r)

/-- The type of an entry as shown. -/
def entrySty (G : Glyphs) (K : IdGlyphs) (look : SemId → Option TypeFqn) (t : Ty SemId) : Sty :=
  t.shape (refSty look G.id) (refSty look K.short)

def entryPre (K : IdGlyphs) (look : SemId → Option TypeFqn) (id : SemId) : List (Bytes × Bytes) :=
  match look id with
  | some _ => [(b!"--", [32]), (K.short id, [10]), (b!"data", [32])]
  | none => [(b!"data", [32])]

def entryKey (K : IdGlyphs) (look : SemId → Option TypeFqn) (id : SemId) : Bytes × Bytes :=
  match look id with
  | some fqn => (fqn.text ++ b!":", [32])
  | none => (K.short id ++ b!":", [32])

noncomputable def entryBody (G : Glyphs) (K : IdGlyphs) (look : SemId → Option TypeFqn) (t : Ty SemId) : List (Bytes × Bytes) :=
  addGap [10] ((entrySty G K look t).lexing G)

noncomputable def entryParts (G : Glyphs) (K : IdGlyphs) (look : SemId → Option TypeFqn) (e : SemId × Ty SemId) :
    List (Bytes × Bytes) × (Bytes × Bytes) × List (Bytes × Bytes) :=
  (entryPre K look e.1, entryKey K look e.1, entryBody G K look e.2)

/-- The text of an entry. -/
def entryText (G : Glyphs) (K : IdGlyphs) (look : SemId → Option TypeFqn) (e : SemId × Ty SemId) : Bytes :=
  (match look e.1 with
    | some fqn => b!"-- " ++ K.short e.1 ++ [10] ++ b!"data " ++ fqn.text
    | none => b!"data " ++ K.short e.1) ++ b!": " ++ (entrySty G K look e.2).render G ++ [10]

theorem refSty_render (G : Glyphs) (look : SemId → Option TypeFqn) (id : Id32 → Bytes) (r : SemId) :
    (refSty look id r).render G = match look r with
      | some fqn => fqn.text
      | none => id r := by
  unfold refSty
  split <;> rename_i h <;> simp only [Sty.render, TypeFqn.text]

theorem SymbolicSys.dataText_eq (G : Glyphs) (K : IdGlyphs) (s : SymbolicSys) (e : SemId × Ty SemId) :
    s.dataText G K e = entryText G K s.lookup e := by
  have hr : ∀ id r, (refSty s.lookup id r).render G = (s.toSymbol r).text id := by
    intro id r
    rw [refSty_render, SymbolicSys.toSymbol, TypeSymbol.text]
    cases s.lookup r <;> rfl
  unfold SymbolicSys.dataText entryText entrySty
  rw [Ty.textShort_eq G (hr G.id) (hr K.short)]
  cases s.lookup e.1 <;> simp

theorem TypeSystem.text_eq (G : Glyphs) (K : IdGlyphs) (H : Hash) (s : TypeSystem) : s.text G K H =
    b!"typesys -- " ++ K.sys (s.id H) ++ [10, 10] ++ s.flatMap (entryText G K fun _ => none) := by
  have hr : ∀ id r, (refSty (fun _ => none) id r).render G = id r := fun id r => by rw [refSty_render]
  unfold TypeSystem.text
  congr 2
  funext e
  rw [entryText, entrySty, Ty.textShort_eq G (hr G.id) (hr K.short)]

section
variable {G : Glyphs} {K : IdGlyphs} {P : Byte → Prop} (hG : G.Clear P) (hK : K.Clear G)
include hG hK

omit hG in
theorem entrySty_plain {look : SemId → Option TypeFqn} {t : Ty SemId} (hw : t.WF) (hp : ∀ p, t = .primitive p → P p) :
    (entrySty G K look t).Plain G P false :=
  Ty.shape_plain (refSty_isRef hK.id) (refSty_isRef hK.short) hw hp

omit hK in
theorem entryText_eq {look : SemId → Option TypeFqn} {e : SemId × Ty SemId} (h : (entrySty G K look e.2).Plain G P false) :
    entryText G K look e = flat (entryPre K look e.1 ++ entryKey K look e.1 :: entryBody G K look e.2) := by
  have g := h.good hG
  rw [flat_append, flat_cons, entryBody, flat_addGap (g.lexing.ne g.ne), g.lexing.text]
  unfold entryText entryPre entryKey
  cases look e.1 <;> simp [flat]

theorem entry_spaced {look : SemId → Option TypeFqn} {e : SemId × Ty SemId} (h : (entrySty G K look e.2).Plain G P false) :
    Spaced (entryPre K look e.1 ++ entryKey K look e.1 :: entryBody G K look e.2) := by
  have g := h.good hG
  have hb : Spaced (entryBody G K look e.2) := g.lexing.lexed.spaced (by simp) (by decide)
  have hs : Item (K.short e.1) := (Atom.mark (hK.short _)).item
  intro p hp
  rcases List.mem_append.1 hp with hp | hp
  · unfold entryPre at hp
    split at hp
    · simp only [List.mem_cons, List.not_mem_nil, or_false] at hp
      rcases hp with rfl | rfl | rfl
      · exact ⟨⟨by decide, .inert (by decide)⟩, by decide, by decide⟩
      · exact ⟨hs, by simp, by simp only; decide⟩
      · exact ⟨⟨by decide, .inert (by decide)⟩, by decide, by decide⟩
    · simp only [List.mem_singleton] at hp
      subst hp
      exact ⟨⟨by decide, .inert (by decide)⟩, by decide, by decide⟩
  · rcases List.mem_cons.1 hp with rfl | hp
    · unfold entryKey
      split
      · rename_i fqn _
        refine ⟨?_, by simp, by simp only; decide⟩
        have : Atom fqn.text := ((Atom.word fqn.lib.isWord).append (.inert (by decide))).append (Atom.word fqn.name.isWord).bal
        exact (this.append (.inert (by decide))).item
      · refine ⟨((Atom.mark (hK.short _)).append (.inert (by decide))).item, by simp, by simp only; decide⟩
    · exact hb p hp

theorem entry_keys {look : SemId → Option TypeFqn} {e : SemId × Ty SemId} (h : (entrySty G K look e.2).Plain G P false) :
    isKey (entryParts G K look e).2.1.1 = true ∧
    ∀ y ∈ (entryParts G K look e).1 ++ (entryParts G K look e).2.2, isKey y.1 = false := by
  refine ⟨?_, ?_⟩
  · simp only [entryParts, entryKey]
    split <;> simp [isKey]
  · intro y hy
    rcases List.mem_append.1 hy with hy | hy
    · simp only [entryParts, entryPre] at hy
      split at hy
      · simp only [List.mem_cons, List.not_mem_nil, or_false] at hy
        rcases hy with rfl | rfl | rfl
        · simp only; decide
        · exact idText_not_isKey (hK.short _)
        · simp only; decide
      · simp only [List.mem_singleton] at hy
        subst hy
        simp only; decide
    · refine h.toks_not_isKey hG y.1 ?_
      rw [← (h.good hG).lexing.toks, ← items_addGap (g := [10])]
      exact List.mem_map_of_mem hy

omit hK in
theorem body_not_dashes {look : SemId → Option TypeFqn} {t : Ty SemId} (h : (entrySty G K look t).Plain G P false) (g : Bytes) :
    (b!"--", g) ∉ entryBody G K look t := by
  intro hm
  refine h.toks_not_dashes hG ?_
  rw [← (h.good hG).lexing.toks, ← items_addGap (g := [10])]
  exact List.mem_map_of_mem (f := Prod.fst) hm

omit hK in
theorem body_split {look look' : SemId → Option TypeFqn} {t u : Ty SemId} {i j : SemId}
    (ht : (entrySty G K look t).Plain G P false) (hu : (entrySty G K look' u).Plain G P false)
    {l1 l2 : SemId → Option TypeFqn}
    (h : entryBody G K look t ++ entryPre K l1 i = entryBody G K look' u ++ entryPre K l2 j) :
    entryBody G K look t = entryBody G K look' u ∧ entryPre K l1 i = entryPre K l2 j := by
  have mixed : ∀ {a b : List (Bytes × Bytes)} {s : Bytes}, (b!"--", [32]) ∉ b →
      a ++ [(b!"--", [32]), (s, [10]), (b!"data", [32])] ≠ b ++ [(b!"data", [32])] := by
    intro a b s hb h
    have h : (a ++ [(b!"--", [32]), (s, [10])]) ++ [(b!"data", [32])] = b ++ [(b!"data", [32])] := by simpa using h
    refine hb ?_
    rw [← List.append_cancel_right h]
    simp
  unfold entryPre at h ⊢
  cases h1 : l1 i <;> cases h2 : l2 j <;> rw [h1, h2] at h <;> simp only at h ⊢
  · exact ⟨List.append_cancel_right h, trivial⟩
  · exact absurd h.symm (mixed (body_not_dashes hG ht _))
  · exact absurd h (mixed (body_not_dashes hG hu _))
  · have := List.append_inj' h rfl
    exact this

/-- What is shown of the types of a system. -/
theorem entries_inj {look look' : SemId → Option TypeFqn} {l m : List (SemId × Ty SemId)} {i j : Bytes}
    (hi : idText i = true) (hj : idText j = true) (hl : ∀ e ∈ l, (entrySty G K look e.2).Plain G P false)
    (hm : ∀ e ∈ m, (entrySty G K look' e.2).Plain G P false)
    (h : b!"typesys -- " ++ i ++ [10, 10] ++ l.flatMap (entryText G K look) =
      b!"typesys -- " ++ j ++ [10, 10] ++ m.flatMap (entryText G K look')) :
    (l.map fun e => (e.1, look e.1, entrySty G K look e.2)) = m.map fun e => (e.1, look' e.1, entrySty G K look' e.2) := by
  have texts : ∀ {look : SemId → Option TypeFqn} {l : List (SemId × Ty SemId)}, (∀ e ∈ l, (entrySty G K look e.2).Plain G P false) →
      l.flatMap (entryText G K look) = flat ((l.map (entryParts G K look)).flatMap fun x => x.1 ++ x.2.1 :: x.2.2) ∧
      Spaced ((l.map (entryParts G K look)).flatMap fun x => x.1 ++ x.2.1 :: x.2.2) := by
    intro look l hl
    induction l with
    | nil => exact ⟨rfl, fun p hp => by cases hp⟩
    | cons e l ih =>
      obtain ⟨h1, h2⟩ := ih fun e he => hl e (List.mem_cons_of_mem _ he)
      have he := hl e (by simp)
      rw [List.flatMap_cons, List.map_cons, List.flatMap_cons, flat_append, h1, entryText_eq hG he]
      exact ⟨rfl, (entry_spaced hG hK he).append h2⟩
  have head : ∀ {i : Bytes}, idText i = true →
      b!"typesys -- " ++ i ++ [10, 10] = flat [(b!"typesys", [32]), (b!"--", [32]), (i, [10, 10])] ∧
      Spaced [(b!"typesys", [32]), (b!"--", [32]), (i, [10, 10])] := by
    intro i hi
    refine ⟨by simp [flat], ?_⟩
    intro p hp
    simp only [List.mem_cons, List.not_mem_nil, or_false] at hp
    rcases hp with rfl | rfl | rfl
    · exact ⟨⟨by decide, .inert (by decide)⟩, by decide, by decide⟩
    · exact ⟨⟨by decide, .inert (by decide)⟩, by decide, by decide⟩
    · exact ⟨(Atom.mark hi).item, by simp, by simp only; decide⟩
  obtain ⟨t1, s1⟩ := texts hl
  obtain ⟨t2, s2⟩ := texts hm
  rw [(head hi).1, (head hj).1, t1, t2, ← flat_append, ← flat_append] at h
  have h := ((head hi).2.append s1).lexed.unique ((head hj).2.append s2).lexed h
  simp only [List.cons_append, List.nil_append, List.cons.injEq] at h
  have h := h.2.2.2
  have part : ∀ {x}, x ∈ l.map (entryParts G K look) ++ m.map (entryParts G K look') →
      ∃ (look : SemId → Option TypeFqn) (e : SemId × Ty SemId), x = entryParts G K look e ∧ (entrySty G K look e.2).Plain G P false := by
    intro x hx
    rcases List.mem_append.1 hx with hx | hx <;> obtain ⟨e, he, rfl⟩ := List.mem_map.1 hx
    · exact ⟨look, e, rfl, hl e he⟩
    · exact ⟨look', e, rfl, hm e he⟩
  have h := keyed_inj (p := fun y : Bytes × Bytes => isKey y.1) (by
      intro x hx
      obtain ⟨lk, e, rfl, he⟩ := part hx
      exact entry_keys hG hK he) (by
      intro a ha b hb c hc d hd e
      obtain ⟨_, _, rfl, he1⟩ := part ha
      obtain ⟨_, _, rfl, he2⟩ := part hb
      obtain ⟨_, _, rfl, -⟩ := part hc
      obtain ⟨_, _, rfl, -⟩ := part hd
      exact body_split hG he1 he2 e) h
  have one : ∀ {e f : SemId × Ty SemId}, (entrySty G K look e.2).Plain G P false → (entrySty G K look' f.2).Plain G P false →
      entryParts G K look e = entryParts G K look' f →
      (e.1, look e.1, entrySty G K look e.2) = (f.1, look' f.1, entrySty G K look' f.2) := by
    intro e f he hf h
    simp only [entryParts, Prod.mk.injEq] at h
    obtain ⟨h1, h2, h3⟩ := h
    have h3 := addGap_inj h3
    have h4 : entrySty G K look e.2 = entrySty G K look' f.2 := by
      refine he.told hG _ _ hf ?_
      rw [← (he.good hG).lexing.text, ← (hf.good hG).lexing.text, h3]
    unfold entryPre at h1
    unfold entryKey at h2
    cases ha : look e.1 <;> cases hb : look' f.1 <;> rw [ha, hb] at h1 h2 <;> simp only at h1 h2
    · have h2 := List.append_cancel_right (Prod.ext_iff.1 h2).1
      rw [hK.short_inj _ _ h2, h4]
    · simp at h1
    · simp at h1
    · rename_i a b
      have h2 := List.append_cancel_right (Prod.ext_iff.1 h2).1
      simp only [List.cons.injEq, Prod.mk.injEq, true_and, and_true] at h1
      have hd : ∀ m : Bytes, ∀ x ∈ (b!"." ++ m).head?, isAlphaNumLodash x = false := by
        intro m x hx; simp at hx; subst hx; decide
      simp only [TypeFqn.text, List.append_assoc] at h2
      obtain ⟨h5, h6⟩ := append_span a.lib.isWord.2 b.lib.isWord.2 (hd _) (hd _) h2
      have : a = b := by
        cases a; cases b
        simp only [TypeFqn.mk.injEq]
        exact ⟨Name.ext h5, Name.ext (List.append_cancel_left h6)⟩
      rw [hK.short_inj _ _ h1, h4, this]
  exact map_eq_map (fun e he f hf => one (hl e he) (hm f hf)) h

end

/-! ## Symbols -/

theorem lines_inj : ∀ {l m : List Bytes}, (∀ x ∈ l ++ m, (10 : Byte) ∉ x) →
    (l.flatMap fun x => x ++ [10]) = (m.flatMap fun x => x ++ [10]) → l = m
  | [], [], _, _ => rfl
  | [], _ :: _, _, h => by simp at h
  | _ :: _, [], _, h => by simp at h
  | a :: l, b :: m, hn, h => by
    have hq : ∀ {x : Bytes}, x ∈ a :: l ++ b :: m → ∀ c ∈ x, (c != 10) = true := by
      intro x hx c hc
      simp only [bne_iff_ne, ne_eq]
      rintro rfl
      exact hn x hx hc
    simp only [List.flatMap_cons, List.append_assoc, List.cons_append, List.nil_append] at h
    obtain ⟨h1, h2⟩ := append_span (p := fun c : Byte => c != 10) (hq (by simp)) (hq (by simp)) (by simp) (by simp) h
    rw [h1, lines_inj (fun x hx => hn x (by
      simp only [List.mem_append, List.mem_cons] at hx ⊢
      rcases hx with hx | hx
      · exact .inl (.inr hx)
      · exact .inr (.inr hx))) (List.cons.inj h2).2]

/-- The named symbols. -/
def Symbols.named (s : Symbols) : List (TypeFqn × SemId) := s.symbols.filterMap fun x => x.fqn.map fun f => (f, x.id)

def libLine0 (G : Glyphs) (d : Dependency) : Bytes := marked d.name (G.mnemo d.id ++ (b!" as " ++ d.name.bytes))

def symbolLine0 (G : Glyphs) (p : TypeFqn × SemId) : Bytes := b!"  " ++ p.1.text ++ b!" => " ++ G.id p.2

theorem Symbols.text_eq (G : Glyphs) (s : Symbols) : s.text G =
    (([] : Bytes) :: (s.libs.map (libLine0 G) ++ (b!"{--" :: (s.named.map (symbolLine0 G) ++ [b!"--}"])))).flatMap
      fun x => x ++ [10] := by
  have hl : s.libs.flatMap (libLine G) = (s.libs.map (libLine0 G)).flatMap fun x => x ++ [10] := by
    rw [List.flatMap_map]
    congr 1
    funext d
    simp [libLine, libLine0, marked, Dependency.text]
  have hs : s.symbols.flatMap (symbolLine G) = (s.named.map (symbolLine0 G)).flatMap fun x => x ++ [10] := by
    unfold Symbols.named
    induction s.symbols with
    | nil => rfl
    | cons x l ih =>
      obtain ⟨i, f⟩ := x
      rw [List.flatMap_cons, ih]
      cases f with
      | none => rw [List.filterMap_cons_none rfl]; rfl
      | some f => simp [symbolLine, symbolLine0]
  unfold Symbols.text
  rw [hl, hs]
  simp

theorem TypeFqn.text_inj {a b : TypeFqn} {r s : Bytes} (hr : ∀ x ∈ r.head?, isAlphaNumLodash x = false)
    (hs : ∀ x ∈ s.head?, isAlphaNumLodash x = false) (h : a.text ++ r = b.text ++ s) : a = b ∧ r = s := by
  have hd : ∀ m : Bytes, ∀ x ∈ (b!"." ++ m).head?, isAlphaNumLodash x = false := by
    intro m x hx; simp at hx; subst hx; decide
  simp only [TypeFqn.text, List.append_assoc] at h
  obtain ⟨h1, h2⟩ := append_span a.lib.isWord.2 b.lib.isWord.2 (hd _) (hd _) h
  obtain ⟨h3, h4⟩ := append_span a.name.isWord.2 b.name.isWord.2 hr hs (List.append_cancel_left h2)
  refine ⟨?_, h4⟩
  cases a; cases b
  simp only [TypeFqn.mk.injEq]
  exact ⟨Name.ext h1, Name.ext h3⟩

/-- The text of symbols determines the libraries up to their mnemonics, and the named symbols. -/
theorem Symbols.text_inj {G : Glyphs} {P : Byte → Prop} (hG : G.Clear P) (hi : ∀ i, idText (G.id i) = true)
    (hj : ∀ i j, G.id i = G.id j → i = j) {s t : Symbols} (h : s.text G = t.text G) :
    (s.libs.map fun d => (d.name, G.mnemo d.id)) = (t.libs.map fun d => (d.name, G.mnemo d.id)) ∧ s.named = t.named := by
  have name : ∀ n : Name, (10 : Byte) ∉ n.bytes := fun n => n.isWord.not_mem (by decide)
  have mn : ∀ i, (10 : Byte) ∉ G.mnemo i := fun i hm => absurd (hG.mnemo i _ hm) (by decide)
  have lib : ∀ d, (10 : Byte) ∉ libLine0 G d := by
    intro d
    simp [libLine0, marked]
    exact ⟨name _, mn _, name _⟩
  have sym : ∀ p, (10 : Byte) ∉ symbolLine0 G p := by
    intro p
    have := idText_ne (c := 10) (hi p.2) (by decide)
    simp [symbolLine0, TypeFqn.text]
    exact ⟨name _, name _, this⟩
  have all : ∀ {s : Symbols}, ∀ x ∈ ([] : Bytes) :: (s.libs.map (libLine0 G) ++ (b!"{--" :: (s.named.map (symbolLine0 G) ++ [b!"--}"]))),
      (10 : Byte) ∉ x := by
    intro s x hx
    simp only [List.mem_cons, List.mem_append, List.mem_map, List.not_mem_nil, or_false] at hx
    rcases hx with rfl | ⟨d, -, rfl⟩ | rfl | ⟨p, -, rfl⟩ | rfl
    · simp
    · exact lib d
    · decide
    · exact sym p
    · decide
  rw [Symbols.text_eq, Symbols.text_eq] at h
  have h := (List.cons.inj (lines_inj (by
    intro x hx
    rcases List.mem_append.1 hx with hx | hx
    · exact all x hx
    · exact all x hx) h)).2
  have hne : ∀ {l : List Dependency}, ∀ x ∈ l.map (libLine0 G), (x != b!"{--") = true := by
    intro l x hx
    obtain ⟨d, -, rfl⟩ := List.mem_map.1 hx
    simp only [bne_iff_ne, ne_eq, libLine0]
    exact marked_not_word (by decide)
  obtain ⟨h1, h2⟩ := append_span (p := fun x : Bytes => x != b!"{--") hne hne (by simp) (by simp) h
  refine ⟨map_eq_map (fun d _ e _ h => ?_) h1, ?_⟩
  · obtain ⟨h3, h4⟩ := marked_inj_name h
    rw [h3] at h4
    rw [h3, List.append_cancel_right h4]
  · refine map_eq_inj (fun p _ q _ h => ?_) (List.append_cancel_right (List.cons.inj h2).2)
    simp only [symbolLine0, List.append_assoc] at h
    have hs : ∀ m : Bytes, ∀ x ∈ (b!" => " ++ m).head?, isAlphaNumLodash x = false := by
      intro m x hx; simp at hx; subst hx; decide
    obtain ⟨h3, h4⟩ := TypeFqn.text_inj (hs _) (hs _) (List.append_cancel_left h)
    exact Prod.ext h3 (hj _ _ (List.append_cancel_left h4))

end Verif
