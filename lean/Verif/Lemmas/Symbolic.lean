import Verif.Lemmas.Rel

/-! Helper lemmas about `TypeLib::to_symbolic` and about libraries being determined by their symbolic
form. -/

namespace Verif

/-! ### Maps built from pairs -/

section
variable {K V : Type} [DecidableEq K] [KeyOrd K] [LawfulKeyOrd K]

theorem foldl_insert_get (ps : List (K × V)) (m : OMap K V) (k : K) :
    ((ps.foldl (fun m p => OMap.insert m p.1 p.2) m).get k).isSome ↔
      (m.get k).isSome ∨ ∃ p ∈ ps, p.1 = k := by
  induction ps generalizing m with
  | nil => simp
  | cons p ps ih =>
    rw [List.foldl_cons, ih, OMap.get_insert]
    by_cases h : p.1 = k
    · simp [h]
    · simp [h]

theorem foldl_insert_mem (ps : List (K × V)) (m : OMap K V) {k : K} {v : V}
    (h : (ps.foldl (fun m p => OMap.insert m p.1 p.2) m).get k = some v) :
    m.get k = some v ∨ (k, v) ∈ ps := by
  induction ps generalizing m with
  | nil => exact Or.inl h
  | cons p ps ih =>
    rcases ih _ h with h | h
    · rw [OMap.get_insert] at h
      split at h
      · rename_i e
        cases h
        right; rw [← e]; simp
      · exact Or.inl h
    · right; simp [h]

theorem ofPairs_some {ps : List (K × V)} {k : K} {v : V} (h : (k, v) ∈ ps) :
    ∃ v', (OMap.ofPairs ps).get k = some v' :=
  Option.isSome_iff_exists.mp ((foldl_insert_get ps [] k).mpr (Or.inr ⟨_, h, rfl⟩))

theorem ofPairs_mem {ps : List (K × V)} {k : K} {v : V} (h : (OMap.ofPairs ps).get k = some v) :
    (k, v) ∈ ps := by
  rcases foldl_insert_mem ps [] h with h | h
  · simp at h
  · exact h

end

/-! ### Translating back -/

section
variable {α β σ ε : Type}

/-- If every reference can be translated without changing the builder, so can the type. -/
theorem Ty.translate_all {f : α → σ → Out ε (β × σ)} {R : α → β → Prop} {t : Ty α} (h : t.WF)
    {s : σ} (hf : ∀ a ∈ t.refs, ∃ b, f a s = .ok (b, s) ∧ R a b) :
    ∃ u, t.translate f s = .ok (u, s) ∧ Ty.Rel R t u := by
  have hro : ∀ a ∈ t.refs, ∀ b s', f a s = .ok (b, s') ↔ f a s = .ok (b, s) ∧ s' = s := by
    intro a ha b s'
    obtain ⟨b0, h0, -⟩ := hf a ha
    rw [h0]
    constructor
    · intro h; cases h; exact ⟨rfl, rfl⟩
    · rintro ⟨h, rfl⟩; exact h
  have hst : ∀ a ∈ t.refs, ∀ b s', f a s = .ok (b, s') → s' = s :=
    fun a ha b s' h => ((hro a ha b s').mp h).2
  rcases Ty.translate_fail h hst with ⟨⟨u, s'⟩, hr⟩ | ⟨pre, a, post, e, -, ha⟩
  · obtain ⟨h1, rfl⟩ := (Ty.translate_ro_ok (R := fun a b => f a s = .ok (b, s)) h hro).mp hr
    refine ⟨u, hr, Ty.rel_imp h1 ?_⟩
    intro a ha b hb
    obtain ⟨b0, h0, hR⟩ := hf a ha
    rw [h0] at hb
    cases hb
    exact hR
  · obtain ⟨b, hb, -⟩ := hf a (by rw [e]; simp)
    rw [hb] at ha
    simp at ha

end

variable {H : Hash} {l : TypeLib}

/-- A known external reference is found and the table of external types does not change. -/
theorem external_ok (hw : l.WF) (hroom : l.Roomy) {e : ExternRef} {s : SymbolRef}
    (hs : l.Symbol s) (h1 : s.libId = e.libId) (h2 : s.semId = e.semId) :
    (l.symContext H).external l.externTypes e = .ok (.extern s, l.externTypes) := by
  obtain ⟨hd, m, hm, hn⟩ := hs
  have hlib : (l.symContext H).libIndex.get e.libId = some s.libName := by
    have hp : (e.libId, s.libName) ∈ l.dependencies.map fun d => (d.id, d.name) :=
      List.mem_map.mpr ⟨_, hd, by rw [← h1]⟩
    obtain ⟨n, hn⟩ := ofPairs_some hp
    obtain ⟨d, hd', he⟩ := List.mem_map.mp (ofPairs_mem hn)
    simp only [Prod.mk.injEq] at he
    have := depsSorted_id_inj hw.deps hd hd' (h1.trans he.1.symm)
    subst this
    have he2 : s.libName = n := he.2
    rw [he2]
    exact hn
  have hg : l.externTypes.get s.libName = some m := OMap.get_of_mem hw.externSorted hm
  have hsm := hw.externs _ hm
  have hty : m.get e.semId = some s.tyName := by rw [← h2]; exact OMap.get_of_mem hsm.1 hn
  have hlen : ¬ 65535 ≤ m.length := by have := hroom _ hm; simp at this; omega
  have her : ¬ 255 ≤ (l.externTypes.erase s.libName).length := by
    have := OMap.erase_length (m := l.externTypes) (k := s.libName) (by rw [hg]; simp)
    have := hw.fewExterns
    omega
  have hm' : OMap.insert m e.semId s.tyName = m := by
    apply OMap.ext (OMap.sorted_insert hsm.1 _ _) hsm.1
    intro k
    rw [OMap.get_insert]
    split
    · rename_i h; rw [← h, hty]
    · rfl
  have hb : OMap.insert (l.externTypes.erase s.libName) s.libName m = l.externTypes := by
    apply OMap.ext (OMap.sorted_insert (OMap.sorted_erase hw.externSorted _) _ _) hw.externSorted
    intro k
    rw [OMap.get_insert, OMap.get_erase]
    split
    · rename_i h; rw [← h, hg]
    · simp
  unfold SymbolContext.external
  simp only [hlib, hg, hty, Out.ofOption, Out.bind_ok, if_neg hlen, if_neg her, hm', hb, Out.pure_eq]
  cases s
  simp_all

/-- The id of a type of the library is translated to a name that has this id. -/
theorem symNamed_ok (hw : l.WF) {id : SemId} (h : ∃ n, l.idOf H n = some id) :
    ∃ n, (l.symContext H).named id = .ok (.named n) ∧ l.idOf H n = some id := by
  obtain ⟨n, hn⟩ := h
  unfold TypeLib.idOf at hn
  obtain ⟨u, hu, rfl⟩ := Option.map_eq_some_iff.mp hn
  have hp : (u.semIdNamed H LibRef.commit n, n) ∈
      l.types.map fun p => (p.2.semIdNamed H LibRef.commit p.1, p.1) :=
    List.mem_map.mpr ⟨(n, u), OMap.get_mem hu, rfl⟩
  obtain ⟨n', hn'⟩ := ofPairs_some hp
  refine ⟨n', ?_, ?_⟩
  · simp only [SymbolContext.named, TypeLib.symContext, hn', Out.ofOption, Out.bind_ok, Out.pure_eq]
  · obtain ⟨⟨k, v⟩, hq, he⟩ := List.mem_map.mp (ofPairs_mem hn')
    simp only [Prod.mk.injEq] at he
    unfold TypeLib.idOf
    rw [← he.2, OMap.get_of_mem hw.typesSorted hq]
    simp [he.1]

/-- What the symbolic form of a reference satisfies. -/
structure SymOf (H : Hash) (l : TypeLib) (locals : List SemId) (t : TranspileRef) : Prop where
  deep : t.Deep
  symbols : ∀ s, t.Uses s → l.Symbol s
  names : ∀ n, t.Mentions n → ∃ id ∈ locals, l.idOf H n = some id

theorem SymOf.named {n : Name} {id : SemId} (h : l.idOf H n = some id) :
    SymOf H l [id] (.named n) where
  deep := .named n
  symbols := fun s hs => nomatch hs
  names := fun m hm => by cases hm; exact ⟨id, by simp, h⟩

theorem SymOf.extern {s : SymbolRef} (h : l.Symbol s) : SymOf H l [] (.extern s) where
  deep := .extern s
  symbols := fun s' hs => by cases hs; exact h
  names := fun m hm => nomatch hm

theorem SymOf.embedded {β : Type} {R : β → TranspileRef → Prop} {loc : β → List SemId}
    {t : Ty β} {u : Ty TranspileRef} (hw : t.WF) (h : Ty.Rel R t u)
    (hR : ∀ b a, R b a → SymOf H l (loc b) a) : SymOf H l (t.refs.flatMap loc) (.embedded u) where
  deep := .embedded (Ty.rel_wf h hw) fun a ha => by
    obtain ⟨b, -, hb⟩ := all2_right (Ty.rel_refs h) ha
    exact (hR b a hb).deep
  symbols := fun s hs => by
    cases hs with
    | embedded ha hs =>
      obtain ⟨b, -, hb⟩ := all2_right (Ty.rel_refs h) ha
      exact (hR b _ hb).symbols s hs
  names := fun n hn => by
    cases hn with
    | embedded ha hn =>
      obtain ⟨b, hb', hb⟩ := all2_right (Ty.rel_refs h) ha
      obtain ⟨id, hid, h⟩ := (hR b _ hb).names n hn
      exact ⟨id, List.mem_flatMap.mpr ⟨b, hb', hid⟩, h⟩

/-- The references of the library can be translated: what has to hold for a reference. -/
structure RefOk (H : Hash) (l : TypeLib) (locals : List SemId) (externs : List ExternRef) : Prop where
  locals : ∀ id ∈ locals, ∃ n, l.idOf H n = some id
  externs : ∀ e ∈ externs, ∃ s, l.Symbol s ∧ s.libId = e.libId ∧ s.semId = e.semId

theorem RefOk.sub {β : Type} {t : Ty β} {loc : β → List SemId} {ext : β → List ExternRef}
    (h : RefOk H l (t.refs.flatMap loc) (t.refs.flatMap ext)) {r : β} (hr : r ∈ t.refs) :
    RefOk H l (loc r) (ext r) where
  locals := fun id hid => h.locals id (List.mem_flatMap.mpr ⟨r, hr, hid⟩)
  externs := fun e he => h.externs e (List.mem_flatMap.mpr ⟨r, hr, he⟩)

section
variable (hw : l.WF) (hroom : l.Roomy)
include hw hroom

theorem InlineRef2.toSym_ok {r : InlineRef2} (h : RefOk H l r.locals r.externs) :
    ∃ t, r.toSym (l.symContext H) l.externTypes = .ok (t, l.externTypes) ∧
      InlineRef2.Compiled (l.idOf H) t r ∧ SymOf H l r.locals t := by
  cases r with
  | named id =>
    obtain ⟨n, h1, h2⟩ := symNamed_ok hw (h.locals id (by simp [locals]))
    exact ⟨.named n, by simp [toSym, h1], h2, .named h2⟩
  | extern e =>
    obtain ⟨s, hs, h1, h2⟩ := h.externs e (by simp [externs])
    exact ⟨.extern s, external_ok hw hroom hs h1 h2, ⟨h1.symm, h2.symm⟩, .extern hs⟩

theorem InlineRef1.toSym_ok {r : InlineRef1} (hd : r.Deep) (h : RefOk H l r.locals r.externs) :
    ∃ t, r.toSym (l.symContext H) l.externTypes = .ok (t, l.externTypes) ∧
      InlineRef1.Compiled (l.idOf H) t r ∧ SymOf H l r.locals t := by
  cases r with
  | inline ty =>
    obtain ⟨u, h1, h2⟩ := Ty.translate_all (f := InlineRef2.toSym (l.symContext H))
      (R := fun r t => InlineRef2.Compiled (l.idOf H) t r ∧ SymOf H l r.locals t) hd
      (s := l.externTypes) fun a ha => InlineRef2.toSym_ok hw hroom (RefOk.sub (loc := InlineRef2.locals) (ext := InlineRef2.externs) h ha)
    exact ⟨.embedded u, by simp [toSym, SymbolContext.embedded, h1],
      Ty.rel_flip.mpr (Ty.rel_imp h2 fun _ _ _ h => h.1), .embedded hd h2 fun _ _ h => h.2⟩
  | named id =>
    obtain ⟨n, h1, h2⟩ := symNamed_ok hw (h.locals id (by simp [locals]))
    exact ⟨.named n, by simp [toSym, h1], h2, .named h2⟩
  | extern e =>
    obtain ⟨s, hs, h1, h2⟩ := h.externs e (by simp [externs])
    exact ⟨.extern s, external_ok hw hroom hs h1 h2, ⟨h1.symm, h2.symm⟩, .extern hs⟩

theorem InlineRef.toSym_ok {r : InlineRef} (hd : r.Deep) (h : RefOk H l r.locals r.externs) :
    ∃ t, r.toSym (l.symContext H) l.externTypes = .ok (t, l.externTypes) ∧
      InlineRef.Compiled (l.idOf H) t r ∧ SymOf H l r.locals t := by
  cases r with
  | inline ty =>
    obtain ⟨u, h1, h2⟩ := Ty.translate_all (f := InlineRef1.toSym (l.symContext H))
      (R := fun r t => InlineRef1.Compiled (l.idOf H) t r ∧ SymOf H l r.locals t) hd.1
      (s := l.externTypes) fun a ha => InlineRef1.toSym_ok hw hroom (hd.2 a ha) (RefOk.sub (loc := InlineRef1.locals) (ext := InlineRef1.externs) h ha)
    exact ⟨.embedded u, by simp [toSym, SymbolContext.embedded, h1],
      Ty.rel_flip.mpr (Ty.rel_imp h2 fun _ _ _ h => h.1), .embedded hd.1 h2 fun _ _ h => h.2⟩
  | named id =>
    obtain ⟨n, h1, h2⟩ := symNamed_ok hw (h.locals id (by simp [locals]))
    exact ⟨.named n, by simp [toSym, h1], h2, .named h2⟩
  | extern e =>
    obtain ⟨s, hs, h1, h2⟩ := h.externs e (by simp [externs])
    exact ⟨.extern s, external_ok hw hroom hs h1 h2, ⟨h1.symm, h2.symm⟩, .extern hs⟩

theorem LibRef.toSym_ok {r : LibRef} (hd : r.Deep) (h : RefOk H l r.locals r.externs) :
    ∃ t, r.toSym (l.symContext H) l.externTypes = .ok (t, l.externTypes) ∧
      LibRef.Compiled (l.idOf H) t r ∧ SymOf H l r.locals t := by
  cases r with
  | inline ty =>
    obtain ⟨u, h1, h2⟩ := Ty.translate_all (f := InlineRef.toSym (l.symContext H))
      (R := fun r t => InlineRef.Compiled (l.idOf H) t r ∧ SymOf H l r.locals t) hd.1
      (s := l.externTypes) fun a ha => InlineRef.toSym_ok hw hroom (hd.2 a ha) (RefOk.sub (loc := InlineRef.locals) (ext := InlineRef.externs) h ha)
    exact ⟨.embedded u, by simp [toSym, SymbolContext.embedded, h1],
      Ty.rel_flip.mpr (Ty.rel_imp h2 fun _ _ _ h => h.1), .embedded hd.1 h2 fun _ _ h => h.2⟩
  | named id =>
    obtain ⟨n, h1, h2⟩ := symNamed_ok hw (h.locals id (by simp [locals]))
    exact ⟨.named n, by simp [toSym, h1], h2, .named h2⟩
  | extern e =>
    obtain ⟨s, hs, h1, h2⟩ := h.externs e (by simp [externs])
    exact ⟨.extern s, external_ok hw hroom hs h1 h2, ⟨h1.symm, h2.symm⟩, .extern hs⟩

theorem Ty.toSym_ok {t : Ty LibRef} (hd : t.LibDeep)
    (h : RefOk H l (t.refs.flatMap LibRef.locals) (t.refs.flatMap LibRef.externs)) :
    ∃ u, t.translate (LibRef.toSym (l.symContext H)) l.externTypes = .ok (u, l.externTypes) ∧
      u.CompiledTo (l.idOf H) t ∧ SymOf H l (t.refs.flatMap LibRef.locals) (.embedded u) := by
  obtain ⟨u, h1, h2⟩ := Ty.translate_all (f := LibRef.toSym (l.symContext H))
    (R := fun r t => LibRef.Compiled (l.idOf H) t r ∧ SymOf H l r.locals t) hd.1
    (s := l.externTypes) fun a ha =>
      LibRef.toSym_ok hw hroom (hd.2 a ha) (RefOk.sub (loc := LibRef.locals) (ext := LibRef.externs) h ha)
  exact ⟨u, h1, Ty.rel_flip.mpr (Ty.rel_imp h2 fun _ _ _ h => h.1),
    .embedded hd.1 h2 fun _ _ h => h.2⟩

theorem toSymTypes_ok {ts : OMap Name (Ty LibRef)} (hd : ∀ p ∈ ts, p.2.LibDeep)
    (h : ∀ p ∈ ts, RefOk H l (p.2.refs.flatMap LibRef.locals) (p.2.refs.flatMap LibRef.externs)) :
    ∃ us, toSymTypes (l.symContext H) ts l.externTypes = .ok (us, l.externTypes) ∧
      All2 (fun p q => p.1 = q.1 ∧ q.2.CompiledTo (l.idOf H) p.2 ∧
        SymOf H l (p.2.refs.flatMap LibRef.locals) (.embedded q.2)) ts us := by
  induction ts with
  | nil => exact ⟨[], rfl, trivial⟩
  | cons p ts ih =>
    obtain ⟨n, t⟩ := p
    obtain ⟨u, h1, h2, h3⟩ := Ty.toSym_ok hw hroom (hd (n, t) (by simp)) (h (n, t) (by simp))
    obtain ⟨us, h4, h5⟩ := ih (fun p hp => hd p (by simp [hp])) (fun p hp => h p (by simp [hp]))
    exact ⟨(n, u) :: us, by simp [toSymTypes, h1, h4], ⟨rfl, h2, h3⟩, h5⟩

end

/-! ### A library is determined by its symbolic form -/

/-- Two libraries compiled from the same acyclic types are the same. -/
theorem compiled_unique {H : Hash} {T : OMap Name (Ty TranspileRef)} {l l' : TypeLib}
    {rank : Name → Nat} (hr : ∀ p ∈ T, ∀ n, p.2.Mentions n → rank n < rank p.1)
    (hs : l.types.Sorted) (hs' : l'.types.Sorted)
    (hk : l.types.keys = T.keys) (hk' : l'.types.keys = T.keys)
    (h : ∀ n t u, (n, t) ∈ T → (n, u) ∈ l.types → t.CompiledTo (l.idOf H) u)
    (h' : ∀ n t u, (n, t) ∈ T → (n, u) ∈ l'.types → t.CompiledTo (l'.idOf H) u) :
    l.types = l'.types := by
  apply OMap.ext hs hs'
  have key : ∀ k n, rank n = k → l.types.get n = l'.types.get n := by
    intro k
    induction k using Nat.strongRecOn with
    | ind k ih =>
      intro n hn
      have hsome : ∀ {V : Type} {m : OMap Name V}, m.keys = T.keys →
          ((m.get n).isSome ↔ (T.get n).isSome) := by
        intro V m hm
        rw [OMap.get_isSome_iff, OMap.get_isSome_iff, hm]
      have h1 := hsome hk
      have h2 := hsome hk'
      cases hu : l.types.get n with
      | none =>
        cases hu' : l'.types.get n with
        | none => rfl
        | some u' => rw [hu] at h1; rw [hu'] at h2; simp_all
      | some u =>
        cases hu' : l'.types.get n with
        | none => rw [hu] at h1; rw [hu'] at h2; simp_all
        | some u' =>
          cases ht : T.get n with
          | none => rw [hu, ht] at h1; simp at h1
          | some t =>
            have ht := OMap.get_mem ht
            have c1 := h n t u ht (OMap.get_mem hu)
            have c2 := h' n t u' ht (OMap.get_mem hu')
            have c3 : t.CompiledTo (l'.idOf H) u := by
              refine c1.congr fun m hm => ?_
              have := hr (n, t) ht m hm
              unfold TypeLib.idOf
              rw [ih (rank m) (by rw [← hn]; exact this) m rfl]
            rw [c3.right_unique c2]
  exact fun n => key _ n rfl

end Verif

namespace Verif

/-- In a sorted set the first dependency with a name is the one with the least id. -/
theorem find_dep_iff {D : List Dependency} (hD : DepsSorted D) {lib : Name} {d : Dependency} :
    D.find? (fun d => d.name = lib) = some d ↔
      d ∈ D ∧ d.name = lib ∧ ∀ e ∈ D, e.name = lib → ¬ KeyOrd.lt e.id d.id = true := by
  induction D with
  | nil => simp
  | cons a D ih =>
    obtain ⟨h1, h2⟩ := List.pairwise_cons.mp hD
    rw [List.find?_cons]
    by_cases ha : a.name = lib
    · simp only [ha, decide_true, Option.some.injEq]
      constructor
      · rintro rfl
        refine ⟨by simp, ha, ?_⟩
        intro e he _
        rcases List.mem_cons.mp he with rfl | he
        · simp [LawfulKeyOrd.irrefl]
        · rw [KeyOrd.asymm (h1 e he)]; simp
      · rintro ⟨hd, -, hmin⟩
        rcases List.mem_cons.mp hd with e | hd
        · exact e.symm
        · exact absurd (h1 d hd) (hmin a (by simp) ha)
    · simp only [ha, decide_false]
      rw [ih h2]
      constructor
      · rintro ⟨hd, hn, hmin⟩
        refine ⟨by simp [hd], hn, ?_⟩
        intro e he hen
        rcases List.mem_cons.mp he with rfl | he
        · exact absurd hen ha
        · exact hmin e he hen
      · rintro ⟨hd, hn, hmin⟩
        refine ⟨?_, hn, fun e he hen => hmin e (by simp [he]) hen⟩
        rcases List.mem_cons.mp hd with rfl | hd
        · exact absurd hn ha
        · exact hd

/-- What a compiled library satisfies. -/
theorem compile_ok_compilesTo {H : Hash} {debug : Bool} {fuel : Nat} {s : SymbolicLib} (hw : s.WF)
    {l : TypeLib} (h : s.compile H debug fuel = .ok l) : s.CompilesTo H l := by
  obtain ⟨st, used, hi, ho, -, hu, rfl⟩ := compile_ok hw h
  obtain ⟨h1, h2, h3, h4, -⟩ := hi.finished hw.typesSorted ho
  rcases usedDeps_spec hw.deps s.externTypes.keys (used := []) (by simp) List.Pairwise.nil with
    ⟨used', hu', hs, -, -, hmem⟩ | ⟨lib, -, -, -, h'⟩
  · rw [hu] at hu'
    cases hu'
    refine ⟨rfl, rfl, h1, h2, ?_, hs, ?_⟩
    · intro n t u ht hn
      obtain ⟨u', hu', hc⟩ := h4 n t (OMap.get_of_mem hw.typesSorted ht)
      have : u = u' := by
        have hn : st.newTypes.get n = some u := OMap.get_of_mem h1 hn
        rw [hu'] at hn
        exact (Option.some.inj hn).symm
      subst this
      exact hc.mono fun m id hm => by rw [← hm]; exact (h3 m).symm
    · intro d
      rw [hmem]
      simp only [List.not_mem_nil, false_or]
      constructor
      · rintro ⟨lib, hl, hne, hf⟩
        obtain ⟨hd, rfl, hmin⟩ := (find_dep_iff hw.deps).mp hf
        obtain ⟨p, hp, hpn⟩ := List.mem_map.mp hl
        exact ⟨hd, hne, ⟨p.2, by rw [← hpn]; exact hp⟩, hmin⟩
      · rintro ⟨hd, hne, ⟨m, hm⟩, hmin⟩
        exact ⟨d.name, List.mem_map_of_mem (f := Prod.fst) hm, hne,
          (find_dep_iff hw.deps).mpr ⟨hd, rfl, hmin⟩⟩
  · rw [hu] at h'; cases h'

end Verif

namespace Verif

/-! ### From the symbolic to the compiled side -/

variable {idx : Name → Option SemId}

/-- Where the references of the compiled form come from. -/
structure RefFrom (idx : Name → Option SemId) (t : TranspileRef) (locals : List SemId)
    (externs : List ExternRef) : Prop where
  locals : ∀ id ∈ locals, ∃ n, t.Mentions n ∧ idx n = some id
  externs : ∀ e ∈ externs, ∃ s, t.Uses s ∧ s.libId = e.libId ∧ s.semId = e.semId

theorem RefFrom.embedded {β : Type} {R : TranspileRef → β → Prop} {loc : β → List SemId}
    {ext : β → List ExternRef} {t : Ty TranspileRef} {u : Ty β} (h : Ty.Rel R t u)
    (hR : ∀ a b, R a b → RefFrom idx a (loc b) (ext b)) :
    RefFrom idx (.embedded t) (u.refs.flatMap loc) (u.refs.flatMap ext) where
  locals := by
    intro id hid
    obtain ⟨b, hb, hid⟩ := List.mem_flatMap.mp hid
    obtain ⟨a, ha, hr⟩ := all2_right (Ty.rel_refs h) hb
    obtain ⟨n, h1, h2⟩ := (hR a b hr).locals id hid
    exact ⟨n, .embedded ha h1, h2⟩
  externs := by
    intro e he
    obtain ⟨b, hb, he⟩ := List.mem_flatMap.mp he
    obtain ⟨a, ha, hr⟩ := all2_right (Ty.rel_refs h) hb
    obtain ⟨n, h1, h2⟩ := (hR a b hr).externs e he
    exact ⟨n, .embedded ha h1, h2⟩

theorem RefFrom.named {n : Name} {id : SemId} (h : idx n = some id) :
    RefFrom idx (.named n) [id] [] where
  locals := by simp only [List.mem_singleton]; rintro _ rfl; exact ⟨n, .named n, h⟩
  externs := by simp

theorem RefFrom.extern {s : SymbolRef} {e : ExternRef}
    (h : e.libId = s.libId ∧ e.semId = s.semId) : RefFrom idx (.extern s) [] [e] where
  locals := by simp
  externs := by
    simp only [List.mem_singleton]; rintro _ rfl; exact ⟨s, .extern s, h.1.symm, h.2.symm⟩

theorem InlineRef2.Compiled.from {t : TranspileRef} {r : InlineRef2}
    (h : InlineRef2.Compiled idx t r) : RefFrom idx t r.locals r.externs := by
  cases t <;> cases r <;> simp only [InlineRef2.Compiled] at h
  · exact .named h
  · exact .extern h

theorem InlineRef1.Compiled.from {t : TranspileRef} {r : InlineRef1}
    (h : InlineRef1.Compiled idx t r) : RefFrom idx t r.locals r.externs := by
  cases t <;> cases r <;> simp only [InlineRef1.Compiled] at h
  · exact .embedded h fun _ _ => InlineRef2.Compiled.from
  · exact .named h
  · exact .extern h

theorem InlineRef.Compiled.from {t : TranspileRef} {r : InlineRef}
    (h : InlineRef.Compiled idx t r) : RefFrom idx t r.locals r.externs := by
  cases t <;> cases r <;> simp only [InlineRef.Compiled] at h
  · exact .embedded h fun _ _ => InlineRef1.Compiled.from
  · exact .named h
  · exact .extern h

theorem LibRef.Compiled.from {t : TranspileRef} {r : LibRef}
    (h : LibRef.Compiled idx t r) : RefFrom idx t r.locals r.externs := by
  cases t <;> cases r <;> simp only [LibRef.Compiled] at h
  · exact .embedded h fun _ _ => InlineRef.Compiled.from
  · exact .named h
  · exact .extern h

theorem Ty.CompiledTo.from {t : Ty TranspileRef} {u : Ty LibRef} (h : t.CompiledTo idx u) :
    RefFrom idx (.embedded t) (u.refs.flatMap LibRef.locals) (u.refs.flatMap LibRef.externs) :=
  .embedded h fun _ _ => LibRef.Compiled.from

theorem mentions_embedded {t : Ty TranspileRef} {n : Name}
    (h : (TranspileRef.embedded t).Mentions n) : t.Mentions n := by
  cases h with
  | embedded hr hm => exact ⟨_, hr, hm⟩

theorem uses_embedded {t : Ty TranspileRef} {s : SymbolRef}
    (h : (TranspileRef.embedded t).Uses s) : t.Uses s := by
  cases h with
  | embedded hr hm => exact ⟨_, hr, hm⟩

theorem InlineRef1.Compiled.deep {t : TranspileRef} {r : InlineRef1}
    (h : InlineRef1.Compiled idx t r) (hd : t.Deep) : r.Deep := by
  cases t <;> cases r <;> simp only [InlineRef1.Compiled] at h <;> try exact trivial
  exact Ty.rel_wf h (Deep.embedded_inv hd).1

theorem InlineRef.Compiled.deep {t : TranspileRef} {r : InlineRef}
    (h : InlineRef.Compiled idx t r) (hd : t.Deep) : r.Deep := by
  cases t <;> cases r <;> simp only [InlineRef.Compiled] at h <;> try exact trivial
  refine ⟨Ty.rel_wf h (Deep.embedded_inv hd).1, fun b hb => ?_⟩
  obtain ⟨a, ha, hr⟩ := all2_right (Ty.rel_refs h) hb
  exact InlineRef1.Compiled.deep hr ((Deep.embedded_inv hd).2 a ha)

theorem LibRef.Compiled.deep {t : TranspileRef} {r : LibRef}
    (h : LibRef.Compiled idx t r) (hd : t.Deep) : r.Deep := by
  cases t <;> cases r <;> simp only [LibRef.Compiled] at h <;> try exact trivial
  refine ⟨Ty.rel_wf h (Deep.embedded_inv hd).1, fun b hb => ?_⟩
  obtain ⟨a, ha, hr⟩ := all2_right (Ty.rel_refs h) hb
  exact InlineRef.Compiled.deep hr ((Deep.embedded_inv hd).2 a ha)

theorem Ty.CompiledTo.deep {t : Ty TranspileRef} {u : Ty LibRef} (h : t.CompiledTo idx u)
    (hd : t.Deep) : u.LibDeep := by
  refine ⟨Ty.rel_wf h hd.1, fun b hb => ?_⟩
  obtain ⟨a, ha, hr⟩ := all2_right (Ty.rel_refs h) hb
  exact LibRef.Compiled.deep hr (hd.2 a ha)

/-- Names of a library are determined by ids, unless the hash collides. -/
theorem idOf_inj {H : Hash} {l : TypeLib} (hc : ¬ Collision H (· ∈ l.namedTexts)) {n n' : Name} {id : SemId}
    (h : l.idOf H n = some id) (h' : l.idOf H n' = some id) : n = n' := by
  unfold TypeLib.idOf at h h'
  obtain ⟨u, hu, rfl⟩ := Option.map_eq_some_iff.mp h
  obtain ⟨u', hu', e⟩ := Option.map_eq_some_iff.mp h'
  rw [Ty.semIdNamed_eq, Ty.semIdNamed_eq] at e
  exact (Name.commit_append_inj (semHash_inj hc (List.mem_map_of_mem (OMap.get_mem hu'))
    (List.mem_map_of_mem (OMap.get_mem hu)) e)).1.symm

end Verif
