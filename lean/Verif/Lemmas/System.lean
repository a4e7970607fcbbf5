import Verif.Spec.System
import Verif.Lemmas.Ast
import Verif.Lemmas.Deps
import Verif.Lemmas.Extract
import Verif.Lemmas.Symbolic

/-!
# Lemmas about assembling type systems
-/

namespace Verif
variable {α β σ ε : Type}

/-! ### Translation with a total function -/

theorem traverseList_total {f : α → σ → Out ε (β × σ)} {g : α → β} {u : σ → α → σ} {l : List α}
    (hf : ∀ a ∈ l, ∀ s, f a s = .ok (g a, u s a)) (s : σ) :
    traverseList f l s = .ok (l.map g, l.foldl u s) := by
  induction l generalizing s with
  | nil => rfl
  | cons a l ih =>
    simp only [traverseList, hf a (by simp), Out.bind_ok, ih fun b hb => hf b (by simp [hb])]
    rfl

theorem Ty.replaced_mapRefs (t : Ty α) (g : α → β) : t.Replaced (t.refs.map g) (t.mapRefs g) := by
  cases t <;> simp [Ty.refs, Ty.Replaced, Ty.mapRefs]
  case union vs => induction vs <;> simp_all [List.zip]
  case struct vs => induction vs <;> simp_all [List.zip]

theorem Ty.translate_total {f : α → σ → Out ε (β × σ)} {g : α → β} {u : σ → α → σ} {t : Ty α}
    (h : t.WF) (hf : ∀ a ∈ t.refs, ∀ s, f a s = .ok (g a, u s a)) (s : σ) :
    t.translate f s = .ok (t.mapRefs g, t.refs.foldl u s) := by
  rw [Ty.translate_eq h, traverseList_total hf]
  simp only [Out.bind_ok]
  rw [(Ty.withRefs_replaced (by simp) _).mpr (Ty.replaced_mapRefs t g)]
  rfl

theorem Ty.refs_mapRefs (t : Ty α) (g : α → β) : (t.mapRefs g).refs = t.refs.map g := by
  cases t <;> simp [Ty.refs, Ty.mapRefs]

theorem Ty.wf_mapRefs {t : Ty α} (g : α → β) (h : t.WF) : (t.mapRefs g).WF := by
  cases t <;> simp_all [Ty.WF, Ty.mapRefs, Function.comp_def]

/-! ### Import adds the definitions of the library -/

/-- Insert definitions into a builder. -/
def addDefs (b : SystemBuilder) (ds : List (SemId × SymTy)) : SystemBuilder :=
  { b with types := ds.foldl (fun m p => OMap.insert m p.1 p.2) b.types }

theorem addDefs_append (b : SystemBuilder) (ds es : List (SemId × SymTy)) :
    addDefs b (ds ++ es) = addDefs (addDefs b ds) es := by
  simp [addDefs, List.foldl_append]

theorem foldl_addDefs (d : α → List (SemId × SymTy)) (l : List α) (b : SystemBuilder) :
    l.foldl (fun b a => addDefs b (d a)) b = addDefs b (l.flatMap d) := by
  induction l generalizing b with
  | nil => rfl
  | cons a l ih => rw [List.foldl_cons, ih, List.flatMap_cons, addDefs_append]

theorem translateInline_total {Ref : Type} {H : Hash} {commit : Ref → Bytes}
    {f : Ref → SystemBuilder → Out SysError (SemId × SystemBuilder)} {t : Ty Ref} {g : Ref → SemId}
    {d : Ref → List (SemId × SymTy)} (h : t.WF)
    (hf : ∀ r ∈ t.refs, ∀ b, f r b = .ok (g r, addDefs b (d r))) (b : SystemBuilder) :
    translateInline H commit f t b = .ok (t.semIdUnnamed H commit,
      addDefs b (t.refs.flatMap d ++ [(t.semIdUnnamed H commit, ⟨none, t.mapRefs g⟩)])) := by
  unfold translateInline
  rw [Ty.translate_total (u := fun b r => addDefs b (d r)) h hf, foldl_addDefs, addDefs_append]
  rfl

theorem InlineRef2.toSem_eq (r : InlineRef2) (b : SystemBuilder) :
    r.toSem b = .ok (r.semId, addDefs b []) := by cases r <;> rfl

theorem InlineRef1.toSem_eq {H : Hash} {r : InlineRef1} (h : r.Deep) (b : SystemBuilder) :
    r.toSem H b = .ok (r.semId H, addDefs b (r.defs H)) := by
  cases r with
  | inline t =>
    have h : t.WF := h
    simp only [toSem]
    rw [translateInline_total (d := fun _ => []) h (fun r _ b => r.toSem_eq b)]
    have : t.refs.flatMap (fun _ => ([] : List (SemId × SymTy))) = [] := by
      simp [List.flatMap_eq_nil_iff]
    rw [this]
    simp [semId, defs]
  | named => rfl
  | extern => rfl

theorem InlineRef.toSem_eq {H : Hash} {r : InlineRef} (h : r.Deep) (b : SystemBuilder) :
    r.toSem H b = .ok (r.semId H, addDefs b (r.defs H)) := by
  cases r with
  | inline t =>
    have h : t.WF ∧ ∀ r ∈ t.refs, r.Deep := h
    simp only [toSem]
    rw [translateInline_total h.1 (fun r hr b => InlineRef1.toSem_eq (h.2 r hr) b)]
    simp [semId, defs]
  | named => rfl
  | extern => rfl

theorem LibRef.toSem_eq {H : Hash} {r : LibRef} (h : r.Deep) (b : SystemBuilder) :
    r.toSem H b = .ok (r.semId H, addDefs b (r.defs H)) := by
  cases r with
  | inline t =>
    have h : t.WF ∧ ∀ r ∈ t.refs, r.Deep := h
    simp only [toSem]
    rw [translateInline_total h.1 (fun r hr b => InlineRef.toSem_eq (h.2 r hr) b)]
    simp [semId, defs]
  | named => rfl
  | extern => rfl

theorem importTypes_eq {H : Hash} {lib : Name} {ts : OMap Name (Ty LibRef)}
    (h : ∀ p ∈ ts, p.2.LibDeep) (b : SystemBuilder) :
    importTypes H lib ts b = .ok (addDefs b (ts.flatMap fun p => p.2.inlineDefs H ++
      [(p.2.semIdNamed H LibRef.commit p.1, ⟨some ⟨lib, p.1⟩, p.2.mapRefs (LibRef.semId H)⟩)])) := by
  induction ts generalizing b with
  | nil => rfl
  | cons p ts ih =>
    obtain ⟨n, t⟩ := p
    have hd := h (n, t) (by simp)
    simp only [importTypes]
    rw [Ty.translate_total (u := fun b r => addDefs b (r.defs H)) hd.1
      (fun r hr b => LibRef.toSem_eq (hd.2 r hr) b), foldl_addDefs]
    simp only [Out.bind_ok, List.flatMap_cons]
    rw [ih fun q hq => h q (by simp [hq])]
    simp only [addDefs_append]
    rfl

/-- Dependencies of a builder after importing a library. -/
def importDeps (H : Hash) (b : SystemBuilder) (l : TypeLib) : SystemBuilder :=
  let imported := depInsert b.imported ⟨l.id H, l.name⟩
  { b with
    imported := imported
    pending := (l.dependencies.filter fun d => !depContains imported d).foldl depInsert
      (depRemove b.pending ⟨l.id H, l.name⟩) }

theorem SystemBuilder.import_eq {H : Hash} {l : TypeLib} (h : ∀ p ∈ l.types, p.2.LibDeep)
    (b : SystemBuilder) : b.import H l = .ok (addDefs (importDeps H b l) (l.defs H)) := by
  simp only [SystemBuilder.import]
  rw [importTypes_eq h]
  rfl

theorem foldl_depInsert_id (ds s : List Dependency) (i : LibId) :
    (∃ d ∈ ds.foldl depInsert s, d.id = i) ↔ (∃ d ∈ s, d.id = i) ∨ ∃ d ∈ ds, d.id = i := by
  induction ds generalizing s with
  | nil => simp
  | cons d ds ih =>
    rw [List.foldl_cons, ih]
    have : (∃ e ∈ depInsert s d, e.id = i) ↔ (∃ e ∈ s, e.id = i) ∨ d.id = i := by
      constructor
      · rintro ⟨e, he, hi⟩
        rcases mem_depInsert_sub he with rfl | he
        · exact Or.inr hi
        · exact Or.inl ⟨e, he, hi⟩
      · rintro (⟨e, he, hi⟩ | hi)
        · exact ⟨e, mem_depInsert_old he, hi⟩
        · obtain ⟨x, hx, hxi⟩ := depInsert_id s d
          exact ⟨x, hx, hxi.trans hi⟩
    rw [this]
    simp only [List.mem_cons, exists_eq_or_imp, or_assoc]

theorem foldl_depInsert_mem {ds s : List Dependency} {x : Dependency}
    (h : x ∈ ds.foldl depInsert s) : x ∈ s ∨ x ∈ ds := by
  induction ds generalizing s with
  | nil => exact Or.inl h
  | cons d ds ih =>
    rcases ih h with h | h
    · rcases mem_depInsert_sub h with rfl | h
      · exact Or.inr (by simp)
      · exact Or.inl h
    · exact Or.inr (by simp [h])

theorem foldl_depInsert_sorted {ds s : List Dependency} (h : DepsSorted s) :
    DepsSorted (ds.foldl depInsert s) := by
  induction ds generalizing s with
  | nil => exact h
  | cons d ds ih => exact ih (depsSorted_insert h d)

/-- State of a builder that has imported the libraries `ls`. -/
structure ImportInv (H : Hash) (ls : List TypeLib) (b : SystemBuilder) : Prop where
  sorted : DepsSorted b.imported
  imported : ∀ i, (∃ d ∈ b.imported, d.id = i) ↔ ∃ l ∈ ls, l.id H = i
  importedSub : ∀ d ∈ b.imported, ∃ l ∈ ls, d = ⟨l.id H, l.name⟩
  pending : ∀ i, (∃ d ∈ b.pending, d.id = i) ↔
    (∃ l ∈ ls, ∃ d ∈ l.dependencies, d.id = i) ∧ ¬ ∃ l ∈ ls, l.id H = i
  pendingSorted : DepsSorted b.pending
  pendingSub : ∀ d ∈ b.pending, ∃ l ∈ ls, d ∈ l.dependencies
  types : b.types = (allDefs H ls).foldl (fun m p => OMap.insert m p.1 p.2) []

theorem ImportInv.new (H : Hash) : ImportInv H [] SystemBuilder.new := by
  constructor <;> simp [SystemBuilder.new, DepsSorted, allDefs]

theorem ImportInv.step {H : Hash} {ls : List TypeLib} {b : SystemBuilder} (inv : ImportInv H ls b)
    (l : TypeLib) : ImportInv H (ls ++ [l]) (addDefs (importDeps H b l) (l.defs H)) := by
  have hI : ∀ i, (∃ d ∈ depInsert b.imported ⟨l.id H, l.name⟩, d.id = i) ↔
      ∃ m ∈ ls ++ [l], m.id H = i := by
    intro i
    have := foldl_depInsert_id [⟨l.id H, l.name⟩] b.imported i
    simp only [List.foldl_cons, List.foldl_nil] at this
    rw [this, inv.imported i]
    constructor
    · rintro (⟨m, hm, e⟩ | ⟨d, hd, e⟩)
      · exact ⟨m, by simp [hm], e⟩
      · rw [List.mem_singleton] at hd
        subst hd
        exact ⟨l, by simp, e⟩
    · rintro ⟨m, hm, e⟩
      rw [List.mem_append, List.mem_singleton] at hm
      rcases hm with hm | rfl
      · exact Or.inl ⟨m, hm, e⟩
      · exact Or.inr ⟨_, List.mem_singleton.mpr rfl, e⟩
  have hc : ∀ d, depContains (depInsert b.imported ⟨l.id H, l.name⟩) d = true ↔
      ∃ m ∈ ls ++ [l], m.id H = d.id := by
    intro d
    rw [← hI d.id]
    simp [depContains]
  constructor
  · exact depsSorted_insert inv.sorted _
  · exact hI
  · intro d hd
    rcases mem_depInsert_sub hd with rfl | hd
    · exact ⟨l, by simp, rfl⟩
    · obtain ⟨m, hm, e⟩ := inv.importedSub d hd
      exact ⟨m, by simp [hm], e⟩
  · intro i
    show (∃ d ∈ (l.dependencies.filter fun d => !depContains _ d).foldl depInsert
      (depRemove b.pending ⟨l.id H, l.name⟩), d.id = i) ↔ _
    rw [foldl_depInsert_id]
    have h1 : (∃ d ∈ depRemove b.pending ⟨l.id H, l.name⟩, d.id = i) ↔
        ((∃ m ∈ ls, ∃ d ∈ m.dependencies, d.id = i) ∧ ¬ ∃ m ∈ ls ++ [l], m.id H = i) := by
      have hp := inv.pending i
      constructor
      · rintro ⟨d, hd, e⟩
        simp only [depRemove, List.mem_filter, ne_eq, decide_not, Bool.not_eq_true',
          decide_eq_false_iff_not] at hd
        obtain ⟨p1, p2⟩ := hp.mp ⟨d, hd.1, e⟩
        refine ⟨p1, ?_⟩
        rintro ⟨m, hm, he⟩
        rw [List.mem_append, List.mem_singleton] at hm
        rcases hm with hm | rfl
        · exact p2 ⟨m, hm, he⟩
        · exact hd.2 (e.trans he.symm)
      · rintro ⟨p1, p2⟩
        obtain ⟨d, hd, e⟩ := hp.mpr ⟨p1, fun ⟨m, hm, he⟩ => p2 ⟨m, by simp [hm], he⟩⟩
        refine ⟨d, ?_, e⟩
        simp only [depRemove, List.mem_filter, ne_eq, decide_not, Bool.not_eq_true',
          decide_eq_false_iff_not]
        exact ⟨hd, fun h => p2 ⟨l, by simp, h.symm.trans e⟩⟩
    have h2 : (∃ d ∈ (l.dependencies.filter fun d =>
        !depContains (depInsert b.imported ⟨l.id H, l.name⟩) d), d.id = i) ↔
        ((∃ d ∈ l.dependencies, d.id = i) ∧ ¬ ∃ m ∈ ls ++ [l], m.id H = i) := by
      constructor
      · rintro ⟨d, hd, e⟩
        rw [List.mem_filter] at hd
        refine ⟨⟨d, hd.1, e⟩, fun hx => ?_⟩
        have := (hc d).mpr (by rw [e]; exact hx)
        rw [this] at hd
        exact absurd hd.2 (by simp)
      · rintro ⟨⟨d, hd, e⟩, hx⟩
        refine ⟨d, List.mem_filter.mpr ⟨hd, ?_⟩, e⟩
        cases hcd : depContains (depInsert b.imported ⟨l.id H, l.name⟩) d with
        | false => rfl
        | true => exact absurd ((hc d).mp hcd) (by rw [e]; exact hx)
    rw [h1, h2, ← or_and_right]
    refine and_congr ?_ Iff.rfl
    constructor
    · rintro (⟨m, hm, r⟩ | r)
      · exact ⟨m, by simp [hm], r⟩
      · exact ⟨l, by simp, r⟩
    · rintro ⟨m, hm, r⟩
      rw [List.mem_append, List.mem_singleton] at hm
      rcases hm with hm | rfl
      · exact Or.inl ⟨m, hm, r⟩
      · exact Or.inr r
  · exact foldl_depInsert_sorted (List.Pairwise.filter _ inv.pendingSorted)
  · intro d hd
    rcases foldl_depInsert_mem hd with hd | hd
    · obtain ⟨m, hm, r⟩ := inv.pendingSub d (List.mem_filter.mp hd).1
      exact ⟨m, by simp [hm], r⟩
    · exact ⟨l, by simp, (List.mem_filter.mp hd).1⟩
  · show (l.defs H).foldl _ b.types = _
    rw [inv.types, allDefs, allDefs, List.flatMap_append, List.foldl_append]
    simp

theorem importAll_inv {H : Hash} {ls : List TypeLib} (h : ∀ l ∈ ls, ∀ p ∈ l.types, p.2.LibDeep) :
    ∃ b, SystemBuilder.importAll H ls .new = .ok b ∧ ImportInv H ls b := by
  have key : ∀ (ms : List TypeLib), (∀ l ∈ ms, ∀ p ∈ l.types, p.2.LibDeep) →
      ∀ (ns : List TypeLib) (b : SystemBuilder), ImportInv H ns b →
      ∃ b', SystemBuilder.importAll H ms b = .ok b' ∧ ImportInv H (ns ++ ms) b' := by
    intro ms
    induction ms with
    | nil => intro _ ns b inv; exact ⟨b, rfl, by simpa using inv⟩
    | cons m ms ih =>
      intro hm ns b inv
      simp only [SystemBuilder.importAll, SystemBuilder.import_eq (hm m (by simp)), Out.bind_ok]
      obtain ⟨b', e, inv'⟩ := ih (fun l hl => hm l (by simp [hl])) _ _ (inv.step m)
      exact ⟨b', e, by simpa using inv'⟩
  simpa using key ls h [] _ (ImportInv.new H)

/-! ### Finalising -/

/-- The check of inner types finds nothing, whatever the references are. -/
theorem innerErrors_nil {debug : Bool} {types : OMap SemId SymTy} :
    ∀ {m : OMap SemId SymTy} {es : List SysError}, (∀ p ∈ m, p ∈ types) →
    innerErrors debug types m = .ok es → es = [] := by
  intro m
  induction m with
  | nil => intro es _ h; cases h; rfl
  | cons p m ih =>
    obtain ⟨id, info⟩ := p
    intro es hsub h
    simp only [innerErrors, Out.bind_eq_ok] at h
    obtain ⟨refs, -, errs, h2, h3⟩ := h
    have := ih (fun p hp => hsub p (by simp [hp])) h2
    subst this
    have hg : (types.get id).isNone = false := by
      cases hg : types.get id with
      | some => rfl
      | none => exact absurd rfl (OMap.get_eq_none_iff.mp hg (id, info) (hsub _ (by simp)))
    simp only [hg] at h3
    cases h3
    simp

theorem innerErrors_ok {debug : Bool} {types : OMap SemId SymTy} {m : OMap SemId SymTy}
    (hsub : ∀ p ∈ m, p ∈ types) (hw : ∀ p ∈ m, p.2.ty.WF)
    (hd : debug = true → ∀ p ∈ m, p.2.ty.refs.length < 255) :
    innerErrors debug types m = .ok [] := by
  have : ∃ es, innerErrors debug types m = .ok es := by
    clear hsub
    induction m with
    | nil => exact ⟨_, rfl⟩
    | cons p m ih =>
      obtain ⟨id, info⟩ := p
      obtain ⟨es, he⟩ := ih (fun p hp => hw p (by simp [hp])) (fun h p hp => hd h p (by simp [hp]))
      simp only [innerErrors, he,
        Ty.iterRefs_eq (hw (id, info) (by simp)) (fun h => hd h (id, info) (by simp)), Out.bind_ok]
      exact ⟨_, rfl⟩
  obtain ⟨es, he⟩ := this
  rw [he, innerErrors_nil hsub he]

theorem innerErrors_outcome {debug : Bool} {types : OMap SemId SymTy} {m : OMap SemId SymTy}
    (hsub : ∀ p ∈ m, p ∈ types) (hw : ∀ p ∈ m, p.2.ty.WF) :
    innerErrors debug types m = .ok [] ∨
    (innerErrors debug types m = .panic ∧ debug = true ∧ ∃ p ∈ m, p.2.ty.refs.length = 255) := by
  induction m with
  | nil => exact Or.inl rfl
  | cons p m ih =>
    obtain ⟨id, info⟩ := p
    have hwi : info.ty.WF := hw (id, info) (by simp)
    have hle := Ty.refs_length_le hwi
    by_cases h : debug = true ∧ info.ty.refs.length = 255
    · right
      obtain ⟨rfl, h⟩ := h
      refine ⟨?_, rfl, (id, info), by simp, h⟩
      simp [innerErrors, Ty.iterRefs_panic hwi h]
    · have hi : (info.ty.iterRefs debug : Out (List SysError) _) = .ok info.ty.refs :=
        Ty.iterRefs_eq hwi (fun hd => by
          have : info.ty.refs.length ≠ 255 := fun e => h ⟨hd, e⟩
          omega)
      rcases ih (fun p hp => hsub p (by simp [hp])) (fun p hp => hw p (by simp [hp])) with
        h' | ⟨h', h2, q, hq, h3⟩
      · left
        have : ∃ es, innerErrors debug types ((id, info) :: m) = .ok es := by
          simp only [innerErrors, h', hi, Out.bind_ok]
          exact ⟨_, rfl⟩
        obtain ⟨es, he⟩ := this
        rw [he, innerErrors_nil hsub he]
      · right
        refine ⟨?_, h2, q, by simp [hq], h3⟩
        simp [innerErrors, hi, h']

theorem OMap.insert_last {K V : Type} [DecidableEq K] [KeyOrd K] [LawfulKeyOrd K] {m : OMap K V}
    {k : K} {v : V} (h : ∀ p ∈ m, KeyOrd.lt p.1 k = true) : OMap.insert m k v = m ++ [(k, v)] := by
  induction m with
  | nil => rfl
  | cons p m ih =>
    obtain ⟨k', v'⟩ := p
    have hk := h (k', v') (by simp)
    simp only [OMap.insert]
    rw [if_neg (by rw [KeyOrd.asymm hk]; simp), if_neg (KeyOrd.ne_of_lt hk).symm,
      ih fun p hp => h p (by simp [hp])]
    rfl

theorem OSet.insert_last {K : Type} [DecidableEq K] [KeyOrd K] {s : OSet K}
    {k : K} (h : ∀ p ∈ s, KeyOrd.lt k p = false ∧ p ≠ k) : OSet.insert s k = s ++ [k] := by
  induction s with
  | nil => rfl
  | cons p s ih =>
    have hk := h p (by simp)
    simp only [OSet.insert]
    rw [if_neg (by simp [hk.1]), if_neg hk.2.symm, ih fun p hp => h p (by simp [hp])]
    rfl

/-- Symbols of a map of types with their origins. -/
def symbolsOf (m : OMap SemId SymTy) : List TypeSymbol := m.map fun p => ⟨p.1, p.2.orig⟩
/-- Types of a map of types with their origins. -/
def typesOf (m : OMap SemId SymTy) : TypeSystem := m.map fun p => (p.1, p.2.ty)

theorem withLoop_eq {pre m : OMap SemId SymTy} (hs : OMap.Sorted (pre ++ m)) (libs : List Dependency) :
    withLoop m (typesOf pre) ⟨libs, symbolsOf pre⟩ =
      if m = [] ∨ (pre ++ m).length ≤ 2 ^ 24 - 1 then
        .ok (typesOf (pre ++ m), ⟨libs, symbolsOf (pre ++ m)⟩)
      else .err .confinement := by
  induction m generalizing pre with
  | nil => simp [withLoop]
  | cons p m ih =>
    obtain ⟨id, info⟩ := p
    have hlt : ∀ p ∈ pre, KeyOrd.lt p.1 id = true := fun p hp =>
      (List.pairwise_append.mp hs).2.2 p hp (id, info) (by simp)
    have hs' : OMap.Sorted ((pre ++ [(id, info)]) ++ m) := by simpa using hs
    have hl : (typesOf pre).length = pre.length := by simp [typesOf]
    have hl' : (symbolsOf pre).length = pre.length := by simp [symbolsOf]
    simp only [withLoop, TypeSystem.insertUnchecked, hl]
    by_cases hfull : 2 ^ 24 - 1 ≤ pre.length
    · rw [if_pos hfull, if_neg]
      · rfl
      · simp only [reduceCtorEq, false_or, List.length_append, List.length_cons]
        omega
    · rw [if_neg hfull]
      have h1 : OMap.insert (typesOf pre) id info.ty = typesOf (pre ++ [(id, info)]) := by
        rw [OMap.insert_last]
        · simp [typesOf]
        · intro p hp
          simp only [typesOf, List.mem_map] at hp
          obtain ⟨q, hq, rfl⟩ := hp
          exact hlt q hq
      have h2 : Symbols.updateUnchecked ⟨libs, symbolsOf pre⟩ id info.orig =
          .ok ⟨libs, symbolsOf (pre ++ [(id, info)])⟩ := by
        have hne : ∀ s ∈ symbolsOf pre, KeyOrd.lt s.id id = true := by
          intro s hs
          simp only [symbolsOf, List.mem_map] at hs
          obtain ⟨q, hq, rfl⟩ := hs
          exact hlt q hq
        have hf : (symbolsOf pre).find? (fun p => p = (⟨id, info.orig⟩ : TypeSymbol)) = none := by
          rw [List.find?_eq_none]
          intro s hs e
          have := hne s hs
          rw [decide_eq_true_eq] at e
          rw [e, LawfulKeyOrd.irrefl] at this
          cases this
        simp only [Symbols.updateUnchecked, hf, hl', if_neg hfull]
        rw [OSet.insert_last]
        · simp [symbolsOf]
        · intro s hs
          have h := hne s hs
          refine ⟨?_, ?_⟩
          · show (KeyOrd.lt id s.id || (decide (id = s.id) && KeyOrd.lt info.orig s.fqn)) = false
            rw [KeyOrd.asymm h]
            simp [(KeyOrd.ne_of_lt h).symm]
          · rintro rfl
            rw [LawfulKeyOrd.irrefl] at h
            cases h
      simp only [Out.bind_ok, h1, h2]
      rw [ih hs']
      have e : pre ++ [(id, info)] ++ m = pre ++ (id, info) :: m := by simp
      rw [e]
      have : (m = [] ∨ (pre ++ (id, info) :: m).length ≤ 2 ^ 24 - 1) ↔
          ((id, info) :: m = [] ∨ (pre ++ (id, info) :: m).length ≤ 2 ^ 24 - 1) := by
        simp only [reduceCtorEq, false_or]
        constructor
        · rintro (rfl | h)
          · simp only [List.length_append, List.length_cons, List.length_nil]; omega
          · exact h
        · exact Or.inr
      simp only [this]

theorem foldl_depInsert_id_of_sorted {ds s : List Dependency} (h : DepsSorted (s ++ ds)) :
    ds.foldl depInsert s = s ++ ds := by
  induction ds generalizing s with
  | nil => simp
  | cons d ds ih =>
    have hlast : ∀ (s : List Dependency), (∀ e ∈ s, KeyOrd.lt e.id d.id = true) →
        depInsert s d = s ++ [d] := by
      intro s
      induction s with
      | nil => intro _; rfl
      | cons e s ih =>
        intro hs
        have he := hs e (by simp)
        simp only [depInsert]
        rw [if_neg (by rw [KeyOrd.asymm he]; simp), if_neg (KeyOrd.ne_of_lt he).symm,
          ih fun x hx => hs x (by simp [hx])]
        rfl
    rw [List.foldl_cons, hlast s fun e he => (List.pairwise_append.mp h).2.2 e he d (by simp),
      ih (by simpa using h)]
    simp

theorem SymbolicSys.with_eq {libs : List Dependency} {m : OMap SemId SymTy} (hl : DepsSorted libs)
    (hs : m.Sorted) :
    SymbolicSys.with libs m =
      if libs.length ≤ 65535 ∧ m.length ≤ 2 ^ 24 - 1 then .ok ⟨⟨libs, symbolsOf m⟩, typesOf m⟩
      else .err .confinement := by
  simp only [SymbolicSys.with, Symbols.with]
  rw [foldl_depInsert_id_of_sorted (s := []) hl, List.nil_append]
  by_cases h1 : libs.length ≤ 65535
  · simp only [h1, if_true, true_and, Out.bind_ok]
    have := withLoop_eq (pre := []) (m := m) hs libs
    simp only [typesOf, symbolsOf, List.map_nil, List.nil_append] at this
    rw [this]
    by_cases h2 : m.length ≤ 2 ^ 24 - 1
    · simp only [h2, or_true, if_true]; rfl
    · have : ¬ m = [] := by rintro rfl; simp at h2
      simp only [h2, or_false, if_neg this, if_false]; rfl
  · simp [h1]

/-- What `finalize` does when it does not panic. -/
def SystemBuilder.result (b : SystemBuilder) : Out (List SysError) SymbolicSys :=
  if b.pending = [] then
    if b.imported.length ≤ 65535 ∧ b.types.length ≤ 2 ^ 24 - 1 then
      .ok ⟨⟨b.imported, symbolsOf b.types⟩, typesOf b.types⟩
    else .err [.confinement]
  else .err (b.pending.map SysError.absentImport)

theorem finalize_outcome {debug : Bool} {b : SystemBuilder} (hl : DepsSorted b.imported)
    (hs : b.types.Sorted) (hw : ∀ p ∈ b.types, p.2.ty.WF) :
    b.finalize debug = b.result ∨
    (b.finalize debug = .panic ∧ debug = true ∧ ∃ p ∈ b.types, p.2.ty.refs.length = 255) := by
  rcases innerErrors_outcome (debug := debug) (types := b.types) (fun _ h => h) hw with
    h | ⟨h, h2, h3⟩
  · left
    simp only [SystemBuilder.finalize, h, Out.bind_ok, List.append_nil, SystemBuilder.result]
    cases hp : b.pending with
    | nil =>
      simp only [List.map_nil, List.isEmpty_nil, if_true, SymbolicSys.with_eq hl hs]
      split <;> rfl
    | cons d ds => simp
  · right
    refine ⟨?_, h2, h3⟩
    simp [SystemBuilder.finalize, h]

theorem foldl_insert_sorted {K V : Type} [DecidableEq K] [KeyOrd K] [LawfulKeyOrd K]
    (ps : List (K × V)) {m : OMap K V} (h : m.Sorted) :
    OMap.Sorted (ps.foldl (fun m p => OMap.insert m p.1 p.2) m) := by
  induction ps generalizing m with
  | nil => exact h
  | cons p ps ih => exact ih (OMap.sorted_insert h _ _)

theorem foldl_insert_mem_iff {ps : List (SemId × SymTy)} {p : SemId × SymTy}
    (h : p ∈ ps.foldl (fun m p => OMap.insert m p.1 p.2) ([] : OMap SemId SymTy)) : p ∈ ps := by
  have hg := OMap.get_of_mem (foldl_insert_sorted ps (m := []) (by simp [OMap.Sorted])) h
  rcases foldl_insert_mem ps [] hg with h | h
  · simp [OMap.get] at h
  · exact h

/-! ### Definitions of libraries -/

theorem InlineRef1.defs_wf {H : Hash} {r : InlineRef1} (h : r.Deep) :
    ∀ p ∈ r.defs H, p.2.ty.WF := by
  cases r with
  | inline t => intro p hp; simp only [defs, List.mem_singleton] at hp; subst hp; exact Ty.wf_mapRefs _ h
  | named => simp [defs]
  | extern => simp [defs]

theorem InlineRef.defs_wf {H : Hash} {r : InlineRef} (h : r.Deep) :
    ∀ p ∈ r.defs H, p.2.ty.WF := by
  cases r with
  | inline t =>
    intro p hp
    simp only [defs, List.mem_append, List.mem_flatMap, List.mem_singleton] at hp
    rcases hp with ⟨r, hr, hp⟩ | rfl
    · exact InlineRef1.defs_wf (h.2 r hr) p hp
    · exact Ty.wf_mapRefs _ h.1
  | named => simp [defs]
  | extern => simp [defs]

theorem LibRef.defs_wf {H : Hash} {r : LibRef} (h : r.Deep) :
    ∀ p ∈ r.defs H, p.2.ty.WF := by
  cases r with
  | inline t =>
    intro p hp
    simp only [defs, List.mem_append, List.mem_flatMap, List.mem_singleton] at hp
    rcases hp with ⟨r, hr, hp⟩ | rfl
    · exact InlineRef.defs_wf (h.2 r hr) p hp
    · exact Ty.wf_mapRefs _ h.1
  | named => simp [defs]
  | extern => simp [defs]

theorem allDefs_wf {H : Hash} {ls : List TypeLib} (h : ∀ l ∈ ls, ∀ p ∈ l.types, p.2.LibDeep) :
    ∀ p ∈ allDefs H ls, p.2.ty.WF := by
  intro p hp
  simp only [allDefs, TypeLib.defs, Ty.inlineDefs, List.mem_flatMap, List.mem_append,
    List.mem_singleton] at hp
  obtain ⟨l, hl, q, hq, ⟨r, hr, hp⟩ | rfl⟩ := hp
  · exact LibRef.defs_wf ((h l hl q hq).2 r hr) p hp
  · exact Ty.wf_mapRefs _ (h l hl q hq).1

/-- Result of importing and finalising. -/
theorem assemble {H : Hash} {debug : Bool} {ls : List TypeLib}
    (h : ∀ l ∈ ls, ∀ p ∈ l.types, p.2.LibDeep) :
    ∃ b, SystemBuilder.importAll H ls .new = .ok b ∧ ImportInv H ls b ∧ b.types.Sorted ∧
      (∀ p ∈ b.types, p ∈ allDefs H ls) ∧
      (b.finalize debug = b.result ∨
      (b.finalize debug = .panic ∧ debug = true ∧ ∃ p ∈ b.types, p.2.ty.refs.length = 255)) := by
  obtain ⟨b, hb, inv⟩ := importAll_inv (H := H) h
  have hs : b.types.Sorted := by
    rw [inv.types]; exact foldl_insert_sorted _ (by simp [OMap.Sorted])
  have hm : ∀ p ∈ b.types, p ∈ allDefs H ls := by
    intro p hp; rw [inv.types] at hp; exact foldl_insert_mem_iff hp
  exact ⟨b, hb, inv, hs, hm, finalize_outcome inv.sorted hs fun p hp => allDefs_wf h p (hm p hp)⟩

end Verif
