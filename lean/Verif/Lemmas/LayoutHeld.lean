import Verif.Lemmas.LayoutCodec

/-! # Layouts made by the code can be written -/

namespace Verif

section
variable (P : Ty SemId → Prop) (F : Option TypeFqn → Prop) (I : Ty.ItemCase → Prop)

/-- All names of types in a nested case satisfy a predicate. -/
def NestedCase.All : NestedCase → Prop
  | .newType f => F f
  | .asciiStr f => F f
  | .rStr f g _ => F f ∧ F g
  | _ => True

/-- Everything the iterator holds satisfies the predicates. -/
structure TreeIter.Ok (s : TreeIter) : Prop where
  ty : ∀ t, s.ty = some t → P t
  item : ∀ c, s.item = some c → I c
  path : ∀ p ∈ s.path, P p.2.ty
  nested : ∀ n ∈ s.nested, n.All F

/-- Everything in an item satisfies the predicates. -/
structure TypeInfo.Ok (i : TypeInfo) : Prop where
  ty : P i.ty
  fqn : F i.fqn
  item : ∀ c, i.item = some c → I c
  nested : ∀ n ∈ i.nested, n.All F
  few : i.nested.length ≤ 255
end

section
variable {H : Hash} {debug : Bool} {S : SymbolicSys} {P : Ty SemId → Prop} {F : Option TypeFqn → Prop} {I : Ty.ItemCase → Prop}

theorem Ty.iterNext_ok {s s' : Ty.IterState SemId} {o : Option (SemId × Option Ty.ItemCase)}
    (h : Ty.iterNext debug s = .ok (o, s')) : s'.ty = s.ty ∧ ∀ r, o = some r → r.2 = s.ty.caseAt s.pos := by
  obtain ⟨pos, -, h2⟩ := Out.bind_eq_ok.mp h
  cases h2
  refine ⟨rfl, fun r hr => ?_⟩
  obtain ⟨x, -, rfl⟩ := Option.map_eq_some_iff.mp hr
  rfl

theorem visit_ok (hF : ∀ id, F (S.symbols.lookup id)) {fqn : Option TypeFqn} (hf : F fqn) {t : Ty SemId} {v : Visit}
    (h : visit H debug S fqn t = .ok v) : (∀ n ∈ v.nested, n.All F) ∧ ∀ it, v.push = some it → it.ty = t := by
  unfold visit at h
  split at h
  · cases h
    refine ⟨fun n hn => ?_, fun it hi => by cases hi; rfl⟩
    rw [List.mem_singleton.mp hn]
    exact hf
  split at h
  · obtain ⟨⟨o, it⟩, h1, h2⟩ := Out.bind_eq_ok.mp h
    cases h2
    refine ⟨fun n hn => ?_, fun it hi => by cases hi; exact (Ty.iterNext_ok h1).1⟩
    rw [List.mem_singleton.mp hn]
    trivial
  split at h
  · split at h
    · split at h
      · obtain ⟨lo, -, h⟩ := Out.bind_eq_ok.mp h
        obtain ⟨hi, -, h⟩ := Out.bind_eq_ok.mp h
        obtain ⟨⟨o, it⟩, h1, h⟩ := Out.bind_eq_ok.mp h
        obtain ⟨⟨o', it'⟩, h2, h⟩ := Out.bind_eq_ok.mp h
        cases h
        refine ⟨fun n hn => ?_, fun it hi => ?_⟩
        · rw [List.mem_singleton.mp hn]
          exact ⟨hF _, hF _⟩
        · cases hi
          exact (Ty.iterNext_ok h2).1.trans (Ty.iterNext_ok h1).1
      · cases h; exact ⟨by simp, fun it hi => by cases hi; rfl⟩
    · cases h; exact ⟨by simp, fun it hi => by cases hi; rfl⟩
  · split at h
    · cases h
    · split at h
      · cases h
        refine ⟨fun n hn => ?_, fun it hi => by cases hi⟩
        rw [List.mem_singleton.mp hn]
        exact hF _
      · split at h
        · cases h
          exact ⟨fun n hn => by rw [List.mem_singleton.mp hn]; trivial, fun it hi => by cases hi⟩
        · split at h
          · cases h
            exact ⟨fun n hn => by rw [List.mem_singleton.mp hn]; trivial, fun it hi => by cases hi⟩
          · cases h; exact ⟨by simp, fun it hi => by cases hi; rfl⟩
  · split at h
    · cases h; exact ⟨by simp, fun it hi => by cases hi⟩
    · cases h; exact ⟨by simp, fun it hi => by cases hi; rfl⟩

theorem TreeIter.enter_ok (hF : ∀ id, F (S.symbols.lookup id)) {s s' : TreeIter} {t : Ty SemId} {o : Option TypeInfo}
    (hs : s.Ok P F I) (ht : P t) (h : s.enter H debug S t = .ok (o, s')) :
    s'.Ok P F I ∧ ∀ i, o = some i → i.Ok P F I := by
  unfold TreeIter.enter at h
  obtain ⟨v, h1, h⟩ := Out.bind_eq_ok.mp h
  obtain ⟨k1, k2⟩ := visit_ok hF (hF _) h1
  have hn : ∀ n ∈ s.nested ++ v.nested, n.All F := fun n hn => by
    rcases List.mem_append.mp hn with hn | hn
    · exact hs.nested n hn
    · exact k1 n hn
  have hp : ∀ (d : BitVec 32), ∀ p ∈ (match v.push with | some it => (d, it) :: s.path | none => s.path), P p.2.ty := by
    intro d
    cases hv : v.push with
    | none => exact hs.path
    | some it =>
      intro p hp
      rcases List.mem_cons.mp hp with rfl | hp
      · rw [k2 it hv]; exact ht
      · exact hs.path p hp
  have key : ∀ d : BitVec 32, (if v.ret = true then
        if (s.nested ++ v.nested).length ≤ 255 then
          pure (some ⟨s.depth, t, S.symbols.lookup s.semId, s.item, s.nested ++ v.nested⟩,
            (⟨s.semId, none, none, d, match v.push with | some it => (d, it) :: s.path | none => s.path, []⟩ : TreeIter))
        else Out.panic
      else
        pure (none, ⟨s.semId, none, s.item, d, match v.push with | some it => (d, it) :: s.path | none => s.path,
          s.nested ++ v.nested⟩)) = Out.ok (ε := Unit) (o, s') → s'.Ok P F I ∧ ∀ i, o = some i → i.Ok P F I := by
    intro d h
    split at h
    · split at h
      · rename_i hl
        cases h
        refine ⟨⟨by simp, by simp, hp d, by simp⟩, fun i hi => ?_⟩
        cases hi
        exact ⟨ht, hF _, hs.item, hn, hl⟩
      · cases h
    · cases h
      exact ⟨⟨by simp, hs.item, hp d, hn⟩, by simp⟩
  dsimp only at h
  split at h
  · obtain ⟨d, -, h⟩ := Out.bind_eq_ok.mp h
    exact key d h
  · rw [Out.bind_ok] at h
    exact key _ h

variable (hT : ∀ id t, S.types.get id = some t → P t) (hF : ∀ id, F (S.symbols.lookup id))
  (hI : ∀ t, P t → ∀ pos c, t.caseAt pos = some c → I c)
include hT hF hI

theorem TreeIter.next_ok : ∀ {fuel : Nat} {s s' : TreeIter} {o : Option TypeInfo}, s.Ok P F I →
    TreeIter.next H debug S fuel s = .ok (o, s') → s'.Ok P F I ∧ ∀ i, o = some i → i.Ok P F I
  | 0, _, _, _, _, h => by cases h
  | fuel + 1, s, s', o, hs, h => by
    unfold TreeIter.next at h
    split at h
    · rename_i t ht
      obtain ⟨⟨o1, s1⟩, h1, h⟩ := Out.bind_eq_ok.mp h
      obtain ⟨k1, k2⟩ := TreeIter.enter_ok hF hs (hs.ty t ht) h1
      dsimp only at h
      split at h
      · cases h; exact ⟨k1, k2⟩
      · exact TreeIter.next_ok k1 h
    · split at h
      · cases h; exact ⟨hs, by simp⟩
      · rename_i d it path hp
        obtain ⟨⟨o1, it'⟩, h1, h⟩ := Out.bind_eq_ok.mp h
        obtain ⟨k1, k2⟩ := Ty.iterNext_ok h1
        have hit : P it.ty := hs.path (d, it) (by rw [hp]; simp)
        have hrest : ∀ p ∈ path, P p.2.ty := fun p hm => hs.path p (by rw [hp]; exact List.mem_cons_of_mem _ hm)
        dsimp only at h
        split at h
        · exact TreeIter.next_ok (s := { s with depth := d, path := path, nested := [] })
            ⟨hs.ty, hs.item, hrest, by simp⟩ h
        · rename_i id item
          refine TreeIter.next_ok (s := ⟨id, S.types.get id, if lastIsNewType s.nested then s.item else item, d,
            (d, it') :: path, s.nested⟩) ⟨fun t ht => hT id t ht, fun c hc => ?_, fun p hm => ?_, hs.nested⟩ h
          · dsimp only at hc
            split at hc
            · exact hs.item c hc
            · have := k2 _ rfl
              exact hI _ hit it.pos c (by rw [← this]; exact hc)
          · rcases List.mem_cons.mp hm with rfl | hm
            · dsimp only; rw [k1]; exact hit
            · exact hrest p hm

theorem TreeIter.collect_ok : ∀ {fuel room : Nat} {s : TreeIter} {l : List TypeInfo}, s.Ok P F I →
    TreeIter.collect H debug S fuel room s = .ok l → l.length ≤ room ∧ ∀ i ∈ l, i.Ok P F I
  | 0, _, _, _, _, h => by cases h
  | fuel + 1, room, s, l, hs, h => by
    unfold TreeIter.collect at h
    obtain ⟨⟨o, s1⟩, h1, h⟩ := Out.bind_eq_ok.mp h
    obtain ⟨k1, k2⟩ := TreeIter.next_ok hT hF hI hs h1
    dsimp only at h
    split at h
    · cases h; simp
    · rename_i i
      cases room with
      | zero => cases h
      | succ room =>
        obtain ⟨r, h2, h⟩ := Out.bind_eq_ok.mp h
        cases h
        obtain ⟨k3, k4⟩ := TreeIter.collect_ok k1 h2
        refine ⟨by simpa using k3, fun j hj => ?_⟩
        rcases List.mem_cons.mp hj with rfl | hj
        · exact k2 _ rfl
        · exact k4 j hj

theorem layout_ok {fuel : Nat} {id : SemId} {l : List TypeInfo} (h : layout H debug fuel S id = .ok l) :
    l.length < 2 ^ 32 ∧ ∀ i ∈ l, i.Ok P F I := by
  obtain ⟨s, h1, h⟩ := Out.bind_eq_ok.mp h
  unfold TreeIter.start at h1
  split at h1
  · rename_i t ht
    cases h1
    obtain ⟨k1, k2⟩ := TreeIter.collect_ok hT hF hI (P := P)
      ⟨fun u hu => by cases hu; exact hT id t ht, by simp, by simp, by simp⟩ h
    exact ⟨by omega, k2⟩
  · cases h1
end

/-- The layouts of a system which can be held can be held. -/
theorem layout_held {H : Hash} {debug : Bool} {S : SymbolicSys} {fuel : Nat} {id : SemId} {l : List TypeInfo}
    (hS : ∀ p ∈ S.types, p.2.WF) (h : layout H debug fuel S id = .ok l) : LayoutHeld l := by
  obtain ⟨h1, h2⟩ := layout_ok (P := Ty.WF) (F := fun _ => True) (I := fun _ => True)
    (fun id t ht => hS (id, t) (OMap.get_mem ht)) (fun _ => trivial) (fun _ _ _ _ _ => trivial) h
  exact ⟨fun i hi => ⟨(h2 i hi).ty, (h2 i hi).few⟩, h1⟩

theorem lookup_cased {s : Symbols} (h : s.Cased) (id : SemId) : FqnCased (s.lookup id) := by
  intro f hf
  obtain ⟨p, hp, hq⟩ := Option.bind_eq_some_iff.mp hf
  exact h.symbols p (List.mem_of_find?_eq_some hp) f hq

theorem caseAt_small {t : Ty SemId} (h : t.Small) {pos : Byte} {c : Ty.ItemCase} (hc : t.caseAt pos = some c) : c.Small := by
  unfold Ty.caseAt at hc
  split at hc
  · obtain ⟨v, hv, rfl⟩ := Option.map_eq_some_iff.mp hc
    exact h v (List.mem_of_getElem? hv)
  · obtain ⟨v, hv, rfl⟩ := Option.map_eq_some_iff.mp hc
    exact h v (List.mem_of_getElem? hv)
  all_goals (repeat' split at hc) <;> cases hc <;> trivial

theorem layout_cased {H : Hash} {debug : Bool} {S : SymbolicSys} {fuel : Nat} {id : SemId} {l : List TypeInfo}
    (ht : S.types.Cased) (hs : S.symbols.Cased) (h : layout H debug fuel S id = .ok l) : ∀ i ∈ l, i.Cased := by
  obtain ⟨-, h2⟩ := layout_ok (P := Ty.Small) (F := FqnCased) (I := Ty.ItemCase.Small)
    (fun id t h => ht (id, t) (OMap.get_mem h)) (lookup_cased hs) (fun _ h _ _ hc => caseAt_small h hc) h
  refine fun i hi => ⟨(h2 i hi).ty, (h2 i hi).fqn, (h2 i hi).item, fun n hn => ?_⟩
  have := (h2 i hi).nested n hn
  cases n <;> exact this

end Verif
