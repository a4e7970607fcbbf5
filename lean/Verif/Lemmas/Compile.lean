import Verif.Lemmas.Translate
import Verif.Spec.Compile

/-! Helper lemmas about the compilation of symbolic types. -/

namespace Verif

/-! ### Relation `Ty.Rel` -/

section
variable {α β : Type}

theorem all2_left {R : α → β → Prop} {l : List α} {m : List β} (h : All2 R l m) {a : α}
    (ha : a ∈ l) : ∃ b ∈ m, R a b := by
  induction l generalizing m with
  | nil => cases ha
  | cons x l ih =>
    cases m with
    | nil => exact h.elim
    | cons y m =>
      rcases List.mem_cons.mp ha with rfl | ha
      · exact ⟨y, by simp, h.1⟩
      · obtain ⟨b, hb, hr⟩ := ih h.2 ha
        exact ⟨b, by simp [hb], hr⟩

theorem Ty.replaced_refs {t : Ty α} {bs : List β} {u : Ty β} (h : t.Replaced bs u)
    : u.refs = bs := by
  cases t with
  | primitive | unicodeChar | enum => cases bs <;> simp_all [Replaced, refs]
  | union | struct =>
    simp only [Replaced] at h
    obtain ⟨hl, rfl⟩ := h
    simp only [refs]
    rw [List.map_snd_zip]
    simp [hl]
  | tuple => simp only [Replaced] at h; obtain ⟨_, rfl⟩ := h; rfl
  | array | list | set =>
    rcases bs with _ | ⟨b, _ | _⟩ <;> simp [Replaced] at h
    subst h; rfl
  | map =>
    rcases bs with _ | ⟨b, _ | ⟨c, _ | _⟩⟩ <;> simp [Replaced] at h
    subst h; rfl

theorem Ty.rel_refs {R : α → β → Prop} {t : Ty α} {u : Ty β} (h : Ty.Rel R t u) :
    All2 R t.refs u.refs := by
  obtain ⟨bs, h1, h2⟩ := Ty.rel_iff_replaced.mp h
  rw [Ty.replaced_refs h2]
  exact h1

theorem Ty.rel_imp {R S : α → β → Prop} {t : Ty α} {u : Ty β} (h : Ty.Rel R t u)
    (hi : ∀ a ∈ t.refs, ∀ b, R a b → S a b) : Ty.Rel S t u := by
  obtain ⟨bs, h1, h2⟩ := Ty.rel_iff_replaced.mp h
  refine Ty.rel_iff_replaced.mpr ⟨bs, ?_, h2⟩
  exact all2_imp (fun a ha b _ hr => hi a ha b hr) h1

end

/-! ### Successful translation -/

variable {idx : Name → Option SemId}

theorem lookupName_ok {n : Name} {c : NestedContext} {id : SemId} :
    lookupName n c = .ok id ↔ c.index.get n = some id := by
  unfold lookupName
  cases c.index.get n <;> simp [Out.ofOption]

theorem ExternRef.eq_toExtern {s : SymbolRef} {e : ExternRef} :
    s.toExtern = e ↔ e.libId = s.libId ∧ e.semId = s.semId := by
  cases e; simp [SymbolRef.toExtern, eq_comm]

theorem withStack_ok {β : Type} {t : Ty TranspileRef}
    {f : TranspileRef → NestedContext → Out CompileError (β × NestedContext)} {c c' : NestedContext}
    {u : Ty β} {R : TranspileRef → β → Prop} (h : t.WF)
    (hf : ∀ a ∈ t.refs, ∀ (c : NestedContext) b c', f a c = .ok (b, c') ↔ R a b ∧ c' = c) :
    withStack t f c = .ok (u, c') ↔ Ty.Rel R t u ∧ c' = c := by
  simp only [withStack, Out.bind_eq_ok, Prod.exists]
  constructor
  · rintro ⟨v, c1, h1, e⟩
    obtain ⟨hr, rfl⟩ := (Ty.translate_ro_ok h fun a ha b c' => hf a ha _ b c').mp h1
    cases e
    exact ⟨hr, rfl⟩
  · rintro ⟨hr, rfl⟩
    exact ⟨u, _, (Ty.translate_ro_ok h fun a ha b c' => hf a ha _ b c').mpr ⟨hr, rfl⟩, rfl⟩

theorem named_ok {β : Type} {n : Name} {c c' : NestedContext} {wrap : SemId → β} {l : β} :
    (lookupName n c >>= fun id => (.ok (wrap id, c) : Out CompileError (β × NestedContext))) =
      .ok (l, c') ↔ (∃ id, c.index.get n = some id ∧ wrap id = l) ∧ c' = c := by
  simp only [Out.bind_eq_ok, lookupName_ok, Out.ok.injEq, Prod.mk.injEq]
  constructor
  · rintro ⟨id, h, rfl, rfl⟩; exact ⟨⟨id, h, rfl⟩, rfl⟩
  · rintro ⟨⟨id, h, rfl⟩, rfl⟩; exact ⟨id, h, rfl, rfl⟩

theorem TranspileRef.toInline2_ok (r : TranspileRef) (c : NestedContext) (l : InlineRef2)
    (c' : NestedContext) :
    r.toInline2 c = .ok (l, c') ↔ InlineRef2.Compiled c.index.get r l ∧ c' = c := by
  cases r with
  | embedded t => simp [toInline2, InlineRef2.Compiled]
  | named n =>
    rw [show (named n).toInline2 c = (lookupName n c >>= fun id => .ok (.named id, c)) from rfl]
    rw [named_ok]
    cases l <;> simp [InlineRef2.Compiled, eq_comm]
  | extern s =>
    simp only [toInline2, Out.ok.injEq, Prod.mk.injEq]
    cases l with
    | extern e =>
      simp only [InlineRef2.extern.injEq, InlineRef2.Compiled, ExternRef.eq_toExtern]
      constructor <;> rintro ⟨h, rfl⟩ <;> exact ⟨h, rfl⟩
    | _ => simp [InlineRef2.Compiled]

theorem Deep.embedded_inv {t : Ty TranspileRef} (h : TranspileRef.Deep (.embedded t)) :
    t.WF ∧ ∀ r ∈ t.refs, r.Deep := by
  cases h with
  | embedded h1 h2 => exact ⟨h1, h2⟩

/-- The index of a context is what the translations depend on. -/
theorem withStack_ok' {β : Type} {t : Ty TranspileRef}
    {f : TranspileRef → NestedContext → Out CompileError (β × NestedContext)} {c c' : NestedContext}
    {u : Ty β} {R : (Name → Option SemId) → TranspileRef → β → Prop} (h : t.WF)
    (hf : ∀ a ∈ t.refs, ∀ (c : NestedContext) b c',
      f a c = .ok (b, c') ↔ R c.index.get a b ∧ c' = c) :
    withStack t f c = .ok (u, c') ↔ Ty.Rel (R c.index.get) t u ∧ c' = c := by
  simp only [withStack, Out.bind_eq_ok, Prod.exists]
  have key : ∀ (u : Ty β) (c' : NestedContext),
      t.translate f { c with stack := t.cls :: c.stack } = .ok (u, c') ↔
        Ty.Rel (R c.index.get) t u ∧ c' = { c with stack := t.cls :: c.stack } := fun u c' =>
    Ty.translate_ro_ok (R := R c.index.get) h fun a ha b c' => hf a ha _ b c'
  constructor
  · rintro ⟨v, c1, h1, e⟩
    obtain ⟨hr, rfl⟩ := (key _ _).mp h1
    cases e
    exact ⟨hr, rfl⟩
  · rintro ⟨hr, rfl⟩
    exact ⟨u, _, (key _ _).mpr ⟨hr, rfl⟩, rfl⟩

theorem TranspileRef.toInline1_ok (r : TranspileRef) (hd : r.Deep) (c : NestedContext)
    (l : InlineRef1) (c' : NestedContext) :
    r.toInline1 c = .ok (l, c') ↔ InlineRef1.Compiled c.index.get r l ∧ c' = c := by
  cases r with
  | embedded t =>
    obtain ⟨hw, hd⟩ := Deep.embedded_inv hd
    simp only [toInline1, Out.bind_eq_ok, Prod.exists]
    have key : ∀ u c', withStack t toInline2 c = .ok (u, c') ↔
        Ty.Rel (InlineRef2.Compiled c.index.get) t u ∧ c' = c := fun u c' =>
      withStack_ok' (R := InlineRef2.Compiled) hw fun a _ c b c' => toInline2_ok a c b c'
    simp only [key, Out.pure_eq, Out.ok.injEq, Prod.mk.injEq]
    cases l <;> simp [InlineRef1.Compiled, eq_comm]
  | named n =>
    rw [show (named n).toInline1 c = (lookupName n c >>= fun id => .ok (.named id, c)) from rfl]
    rw [named_ok]
    cases l <;> simp [InlineRef1.Compiled, eq_comm]
  | extern s =>
    simp only [toInline1, Out.ok.injEq, Prod.mk.injEq]
    cases l with
    | extern e =>
      simp only [InlineRef1.extern.injEq, InlineRef1.Compiled, ExternRef.eq_toExtern]
      constructor <;> rintro ⟨h, rfl⟩ <;> exact ⟨h, rfl⟩
    | _ => simp [InlineRef1.Compiled]

theorem TranspileRef.toInline_ok (r : TranspileRef) (hd : r.Deep) (c : NestedContext)
    (l : InlineRef) (c' : NestedContext) :
    r.toInline c = .ok (l, c') ↔ InlineRef.Compiled c.index.get r l ∧ c' = c := by
  cases r with
  | embedded t =>
    obtain ⟨hw, hd⟩ := Deep.embedded_inv hd
    simp only [toInline, Out.bind_eq_ok, Prod.exists]
    have key : ∀ u c', withStack t toInline1 c = .ok (u, c') ↔
        Ty.Rel (InlineRef1.Compiled c.index.get) t u ∧ c' = c := fun u c' =>
      withStack_ok' (R := InlineRef1.Compiled) hw fun a ha c b c' => toInline1_ok a (hd a ha) c b c'
    simp only [key, Out.pure_eq, Out.ok.injEq, Prod.mk.injEq]
    cases l <;> simp [InlineRef.Compiled, eq_comm]
  | named n =>
    rw [show (named n).toInline c = (lookupName n c >>= fun id => .ok (.named id, c)) from rfl]
    rw [named_ok]
    cases l <;> simp [InlineRef.Compiled, eq_comm]
  | extern s =>
    simp only [toInline, Out.ok.injEq, Prod.mk.injEq]
    cases l with
    | extern e =>
      simp only [InlineRef.extern.injEq, InlineRef.Compiled, ExternRef.eq_toExtern]
      constructor <;> rintro ⟨h, rfl⟩ <;> exact ⟨h, rfl⟩
    | _ => simp [InlineRef.Compiled]

theorem TranspileRef.toLib_ok (r : TranspileRef) (hd : r.Deep) (c : NestedContext)
    (l : LibRef) (c' : NestedContext) :
    r.toLib c = .ok (l, c') ↔ LibRef.Compiled c.index.get r l ∧ c' = c := by
  cases r with
  | embedded t =>
    obtain ⟨hw, hd⟩ := Deep.embedded_inv hd
    simp only [toLib, Out.bind_eq_ok, Prod.exists]
    have key : ∀ u c', withStack t toInline c = .ok (u, c') ↔
        Ty.Rel (InlineRef.Compiled c.index.get) t u ∧ c' = c := fun u c' =>
      withStack_ok' (R := InlineRef.Compiled) hw fun a ha c b c' => toInline_ok a (hd a ha) c b c'
    simp only [key, Out.pure_eq, Out.ok.injEq, Prod.mk.injEq]
    cases l <;> simp [LibRef.Compiled, eq_comm]
  | named n =>
    rw [show (named n).toLib c = (lookupName n c >>= fun id => .ok (.named id, c)) from rfl]
    rw [named_ok]
    cases l <;> simp [LibRef.Compiled, eq_comm]
  | extern s =>
    simp only [toLib, Out.ok.injEq, Prod.mk.injEq]
    cases l with
    | extern e =>
      simp only [LibRef.extern.injEq, LibRef.Compiled, ExternRef.eq_toExtern]
      constructor <;> rintro ⟨h, rfl⟩ <;> exact ⟨h, rfl⟩
    | _ => simp [LibRef.Compiled]

/-- A type translates to exactly its compiled form. -/
theorem Ty.toLib_ok {t : Ty TranspileRef} (hd : t.Deep) (c : NestedContext) (u : Ty LibRef)
    (c' : NestedContext) :
    t.translate TranspileRef.toLib c = .ok (u, c') ↔ t.CompiledTo c.index.get u ∧ c' = c :=
  Ty.translate_ro_ok (R := LibRef.Compiled c.index.get) hd.1
    fun a ha b c' => TranspileRef.toLib_ok a (hd.2 a ha) c b c'

/-! ### Failing translation -/

/-- How a reference can be translated: fine, a missing name, or too deep. -/
def RefCases {β : Type} (k : Nat) (f : TranspileRef → NestedContext → Out CompileError (β × NestedContext))
    (r : TranspileRef) : Prop :=
  ∀ c : NestedContext, (∃ l, f r c = .ok (l, c)) ∨
    (f r c = .err .continue ∧ ∃ n, r.Mentions n ∧ c.index.get n = none) ∨
    (∃ p q, f r c = .err (.nestedInline c.topName p q) ∧ ¬ r.DepthLe k)

theorem lookup_cases (n : Name) (c : NestedContext) :
    (∃ id, lookupName n c = .ok id) ∨ (lookupName n c = .err .continue ∧ c.index.get n = none) := by
  unfold lookupName
  cases c.index.get n <;> simp [Out.ofOption]

theorem translate_cases {β : Type} {k : Nat}
    {f : TranspileRef → NestedContext → Out CompileError (β × NestedContext)} {t : Ty TranspileRef}
    (hw : t.WF) (hro : ∀ a ∈ t.refs, ∀ (c : NestedContext) b c', f a c = .ok (b, c') → c' = c)
    (hf : ∀ a ∈ t.refs, RefCases k f a) (c : NestedContext) :
    (∃ u, t.translate f c = .ok u) ∨
    (t.translate f c = .err .continue ∧ ∃ n, t.Mentions n ∧ c.index.get n = none) ∨
    (∃ p q, t.translate f c = .err (.nestedInline c.topName p q) ∧ ¬ t.DepthLe k) := by
  rcases Ty.translate_fail hw (s := c) fun a ha b s' h => hro a ha c b s' h with
    h | ⟨pre, a, post, e, -, h⟩
  · exact Or.inl h
  · have ha : a ∈ t.refs := by simp [e]
    rcases h with ⟨e, h1, h2⟩ | ⟨h1, h2⟩ | ⟨h1, h2⟩
    · rcases hf a ha c with ⟨l, h⟩ | ⟨h, n, hm, hn⟩ | ⟨p, q, h, hd⟩
      · rw [h] at h1; cases h1
      · rw [h] at h1; cases h1
        exact Or.inr (Or.inl ⟨h2, n, ⟨a, ha, hm⟩, hn⟩)
      · rw [h] at h1; cases h1
        exact Or.inr (Or.inr ⟨p, q, h2, fun hh => hd (hh a ha)⟩)
    · rcases hf a ha c with ⟨l, h⟩ | ⟨h, -⟩ | ⟨p, q, h, -⟩ <;> rw [h] at h1 <;> cases h1
    · rcases hf a ha c with ⟨l, h⟩ | ⟨h, -⟩ | ⟨p, q, h, -⟩ <;> rw [h] at h1 <;> cases h1

theorem refCases_embedded {β γ : Type} {k : Nat}
    {f : TranspileRef → NestedContext → Out CompileError (β × NestedContext)}
    {g : TranspileRef → NestedContext → Out CompileError (γ × NestedContext)} {t : Ty TranspileRef}
    {wrap : Ty β → γ}
    (hg : ∀ c, g (.embedded t) c = (withStack t f c >>= fun p => .ok (wrap p.1, p.2)))
    (hw : t.WF) (hro : ∀ a ∈ t.refs, ∀ (c : NestedContext) b c', f a c = .ok (b, c') → c' = c)
    (hro' : ∀ (c : NestedContext) b c', g (.embedded t) c = .ok (b, c') → c' = c)
    (hf : ∀ a ∈ t.refs, RefCases k f a) : RefCases (k + 1) g (.embedded t) := by
  intro c
  rcases translate_cases hw hro hf { c with stack := t.cls :: c.stack } with
    ⟨u, h⟩ | ⟨h, n, ⟨r, hr, hm⟩, hn⟩ | ⟨p, q, h, hd⟩
  · left
    have : ∃ l c', g (.embedded t) c = .ok (l, c') := by
      rw [hg]
      simp [withStack, h]
    obtain ⟨l, c', h'⟩ := this
    have := hro' _ _ _ h'
    subst this
    exact ⟨l, h'⟩
  · right; left
    refine ⟨?_, n, .embedded hr hm, hn⟩
    rw [hg]; simp [withStack, h]
  · right; right
    refine ⟨p, q, ?_, hd⟩
    rw [hg]; simp [withStack, h]

theorem refCases_named {β : Type} {k : Nat}
    {f : TranspileRef → NestedContext → Out CompileError (β × NestedContext)} {n : Name}
    {wrap : SemId → β}
    (hf : ∀ c, f (.named n) c = (lookupName n c >>= fun id => .ok (wrap id, c))) :
    RefCases k f (.named n) := by
  intro c
  rw [hf]
  rcases lookup_cases n c with ⟨id, h⟩ | ⟨h, hn⟩
  · left; rw [h]; exact ⟨_, rfl⟩
  · right; left; rw [h]; exact ⟨rfl, n, .named n, hn⟩

theorem TranspileRef.toInline2_cases (r : TranspileRef) : RefCases 0 toInline2 r := by
  cases r with
  | embedded t => exact fun c => Or.inr (Or.inr ⟨_, _, rfl, fun h => h⟩)
  | named n => exact refCases_named (wrap := .named) fun c => rfl
  | extern s => exact fun c => Or.inl ⟨_, rfl⟩

theorem TranspileRef.toInline1_cases (r : TranspileRef) (hd : r.Deep) :
    RefCases 1 toInline1 r := by
  cases r with
  | embedded t =>
    obtain ⟨hw, hd'⟩ := Deep.embedded_inv hd
    exact refCases_embedded (wrap := .inline) (fun c => rfl) hw
      (fun a ha c b c' h => ((toInline2_ok a c b c').mp h).2)
      (fun c b c' h => ((toInline1_ok _ hd c b c').mp h).2) fun a _ => toInline2_cases a
  | named n => exact refCases_named (wrap := .named) fun c => rfl
  | extern s => exact fun c => Or.inl ⟨_, rfl⟩

theorem TranspileRef.toInline_cases (r : TranspileRef) (hd : r.Deep) : RefCases 2 toInline r := by
  cases r with
  | embedded t =>
    obtain ⟨hw, hd'⟩ := Deep.embedded_inv hd
    exact refCases_embedded (wrap := .inline) (fun c => rfl) hw
      (fun a ha c b c' h => ((toInline1_ok a (hd' a ha) c b c').mp h).2)
      (fun c b c' h => ((toInline_ok _ hd c b c').mp h).2)
      fun a ha => toInline1_cases a (hd' a ha)
  | named n => exact refCases_named (wrap := .named) fun c => rfl
  | extern s => exact fun c => Or.inl ⟨_, rfl⟩

theorem TranspileRef.toLib_cases (r : TranspileRef) (hd : r.Deep) : RefCases 3 toLib r := by
  cases r with
  | embedded t =>
    obtain ⟨hw, hd'⟩ := Deep.embedded_inv hd
    exact refCases_embedded (wrap := .inline) (fun c => rfl) hw
      (fun a ha c b c' h => ((toInline_ok a (hd' a ha) c b c').mp h).2)
      (fun c b c' h => ((toLib_ok _ hd c b c').mp h).2)
      fun a ha => toInline_cases a (hd' a ha)
  | named n => exact refCases_named (wrap := .named) fun c => rfl
  | extern s => exact fun c => Or.inl ⟨_, rfl⟩

theorem Ty.toLib_cases {t : Ty TranspileRef} (hd : t.Deep) (c : NestedContext) :
    (∃ u, t.translate TranspileRef.toLib c = .ok (u, c)) ∨
    (t.translate TranspileRef.toLib c = .err .continue ∧
      ∃ n, t.Mentions n ∧ c.index.get n = none) ∨
    (∃ p q, t.translate TranspileRef.toLib c = .err (.nestedInline c.topName p q) ∧
      ¬ t.DepthLe 3) := by
  rcases translate_cases hd.1
    (fun a ha c b c' h => ((TranspileRef.toLib_ok a (hd.2 a ha) c b c').mp h).2)
    (fun a ha => TranspileRef.toLib_cases a (hd.2 a ha)) c with ⟨⟨u, c'⟩, h⟩ | h
  · have := ((Ty.toLib_ok hd c u c').mp h).2
    subst this
    exact Or.inl ⟨u, h⟩
  · exact Or.inr h

/-! ### What being compiled implies -/

theorem InlineRef2.Compiled.props {r : TranspileRef} {l : InlineRef2}
    (h : InlineRef2.Compiled idx r l) :
    r.DepthLe 0 ∧ ∀ n, r.Mentions n → (idx n).isSome := by
  cases r with
  | embedded t => exact h.elim
  | named m =>
    refine ⟨trivial, fun n hn => ?_⟩
    cases hn
    cases l with
    | named id => rw [show idx m = some id from h]; rfl
    | extern => exact h.elim
  | extern s => exact ⟨trivial, fun n hn => nomatch hn⟩

theorem rel_props {β : Type} {R : TranspileRef → β → Prop} {k : Nat} {t : Ty TranspileRef}
    {u : Ty β} (hR : ∀ r b, R r b → r.DepthLe k ∧ ∀ n, r.Mentions n → (idx n).isSome)
    (h : Ty.Rel R t u) : t.DepthLe k ∧ ∀ n, t.Mentions n → (idx n).isSome := by
  have h2 := Ty.rel_refs h
  constructor
  · intro r hr
    obtain ⟨b, _, hb⟩ := all2_left h2 hr
    exact (hR r b hb).1
  · rintro n ⟨r, hr, hm⟩
    obtain ⟨b, _, hb⟩ := all2_left h2 hr
    exact (hR r b hb).2 n hm

theorem embedded_props {k : Nat} {t : Ty TranspileRef}
    (h : t.DepthLe k ∧ ∀ n, t.Mentions n → (idx n).isSome) :
    (TranspileRef.embedded t).DepthLe (k + 1) ∧
    ∀ n, (TranspileRef.embedded t).Mentions n → (idx n).isSome := by
  refine ⟨h.1, fun n hn => ?_⟩
  cases hn with
  | embedded hr hm => exact h.2 n ⟨_, hr, hm⟩

theorem InlineRef1.Compiled.props {r : TranspileRef} {l : InlineRef1}
    (h : InlineRef1.Compiled idx r l) :
    r.DepthLe 1 ∧ ∀ n, r.Mentions n → (idx n).isSome := by
  cases r with
  | embedded t =>
    cases l with
    | inline u => exact embedded_props (rel_props (R := InlineRef2.Compiled idx) (fun r b h => h.props) h)
    | _ => exact h.elim
  | named m =>
    refine ⟨trivial, fun n hn => ?_⟩
    cases hn
    cases l with
    | named id => rw [show idx m = some id from h]; rfl
    | _ => exact h.elim
  | extern s => exact ⟨trivial, fun n hn => nomatch hn⟩

theorem InlineRef.Compiled.props {r : TranspileRef} {l : InlineRef}
    (h : InlineRef.Compiled idx r l) :
    r.DepthLe 2 ∧ ∀ n, r.Mentions n → (idx n).isSome := by
  cases r with
  | embedded t =>
    cases l with
    | inline u => exact embedded_props (rel_props (R := InlineRef1.Compiled idx) (fun r b h => h.props) h)
    | _ => exact h.elim
  | named m =>
    refine ⟨trivial, fun n hn => ?_⟩
    cases hn
    cases l with
    | named id => rw [show idx m = some id from h]; rfl
    | _ => exact h.elim
  | extern s => exact ⟨trivial, fun n hn => nomatch hn⟩

theorem LibRef.Compiled.props {r : TranspileRef} {l : LibRef}
    (h : LibRef.Compiled idx r l) :
    r.DepthLe 3 ∧ ∀ n, r.Mentions n → (idx n).isSome := by
  cases r with
  | embedded t =>
    cases l with
    | inline u => exact embedded_props (rel_props (R := InlineRef.Compiled idx) (fun r b h => h.props) h)
    | _ => exact h.elim
  | named m =>
    refine ⟨trivial, fun n hn => ?_⟩
    cases hn
    cases l with
    | named id => rw [show idx m = some id from h]; rfl
    | _ => exact h.elim
  | extern s => exact ⟨trivial, fun n hn => nomatch hn⟩

theorem Ty.CompiledTo.props {t : Ty TranspileRef} {u : Ty LibRef} (h : t.CompiledTo idx u) :
    t.DepthLe 3 ∧ ∀ n, t.Mentions n → (idx n).isSome :=
  rel_props (R := LibRef.Compiled idx) (fun _ _ h => h.props) h

/-! ### More names known -/

theorem InlineRef2.Compiled.mono {idx' : Name → Option SemId}
    (hi : ∀ n id, idx n = some id → idx' n = some id) {r : TranspileRef} {l : InlineRef2}
    (h : InlineRef2.Compiled idx r l) : InlineRef2.Compiled idx' r l := by
  cases r <;> cases l <;> first | exact hi _ _ h | exact h

theorem InlineRef1.Compiled.mono {idx' : Name → Option SemId}
    (hi : ∀ n id, idx n = some id → idx' n = some id) {r : TranspileRef} {l : InlineRef1}
    (h : InlineRef1.Compiled idx r l) : InlineRef1.Compiled idx' r l := by
  cases r <;> cases l <;> first
    | exact hi _ _ h
    | exact Ty.rel_imp h fun _ _ _ => InlineRef2.Compiled.mono hi
    | exact h

theorem InlineRef.Compiled.mono {idx' : Name → Option SemId}
    (hi : ∀ n id, idx n = some id → idx' n = some id) {r : TranspileRef} {l : InlineRef}
    (h : InlineRef.Compiled idx r l) : InlineRef.Compiled idx' r l := by
  cases r <;> cases l <;> first
    | exact hi _ _ h
    | exact Ty.rel_imp h fun _ _ _ => InlineRef1.Compiled.mono hi
    | exact h

theorem LibRef.Compiled.mono {idx' : Name → Option SemId}
    (hi : ∀ n id, idx n = some id → idx' n = some id) {r : TranspileRef} {l : LibRef}
    (h : LibRef.Compiled idx r l) : LibRef.Compiled idx' r l := by
  cases r <;> cases l <;> first
    | exact hi _ _ h
    | exact Ty.rel_imp h fun _ _ _ => InlineRef.Compiled.mono hi
    | exact h

theorem Ty.CompiledTo.mono {idx' : Name → Option SemId}
    (hi : ∀ n id, idx n = some id → idx' n = some id) {t : Ty TranspileRef} {u : Ty LibRef}
    (h : t.CompiledTo idx u) : t.CompiledTo idx' u :=
  Ty.rel_imp h fun _ _ _ => LibRef.Compiled.mono hi

end Verif
