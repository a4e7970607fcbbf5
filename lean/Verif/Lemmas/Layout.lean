import Verif.Lemmas.Tree
import Verif.Lemmas.Rel
import Verif.Lemmas.Translate

/-!
# Outlines exist; expressions mirror them
-/

namespace Verif

variable {H : Hash} {debug : Bool} {S : SymbolicSys}

/-! ## Outlines exist -/

theorem all2_exists {α β : Type} {R : α → β → Prop} {l : List α} (h : ∀ a ∈ l, ∃ b, R a b) :
    ∃ m, All2 R l m := by
  induction l with
  | nil => exact ⟨[], trivial⟩
  | cons a l ih =>
    obtain ⟨b, hb⟩ := h a List.mem_cons_self
    obtain ⟨m, hm⟩ := ih fun x hx => h x (List.mem_cons_of_mem _ hx)
    exact ⟨b :: m, hb, hm⟩

theorem shape_exists {rank wraps : SemId → Nat} (hS : S.Outlined debug rank wraps) :
    ∀ (n : Nat) (id : SemId) (d : Nat) (item : Option Ty.ItemCase) (nested : List NestedCase),
      rank id < n → (∃ t, S.types.get id = some t) → ∃ T, ShapeN H S n id d item nested T := by
  intro n
  induction n with
  | zero => intro id d item nested h; omega
  | succ n ih =>
    intro id d item nested hr ⟨t, ht⟩
    have hkid : ∀ r ∈ t.refs, rank r < n ∧ ∃ u, S.types.get r = some u := fun r hr' =>
      ⟨by have := hS.ranked id t ht r hr'; omega, hS.closed id t ht r hr'⟩
    by_cases hw : ∃ r, t = .tuple [r]
    · obtain ⟨r, rfl⟩ := hw
      obtain ⟨h1, h2⟩ := hkid r (by simp [Ty.refs])
      obtain ⟨T, hT⟩ := ih r d item (nested ++ [.newType (S.lookup id)]) h1 h2
      exact ⟨T, .wrapper ht hT⟩
    · cases ho : t.asSome with
      | some r =>
        have hmem : r ∈ t.refs := by
          obtain ⟨r0, rfl⟩ := Ty.asSome_union ho
          simp [Ty.refs]
        obtain ⟨h1, h2⟩ := hkid r hmem
        obtain ⟨T, hT⟩ := ih r (d + 1) (some (.unionVariant 1 Ty.someName)) (nested ++ [.option]) h1 h2
        exact ⟨T, .optional ht ho hT⟩
      | none =>
        by_cases htx : ∃ m, ShownAs S t m
        · obtain ⟨m, hm⟩ := htx
          exact ⟨_, .text ht hm⟩
        · by_cases hb : ∃ r len, t = .array r len ∧ ByteId H r
          · obtain ⟨r, len, rfl, hb⟩ := hb
            exact ⟨_, .bytes ht hb⟩
          · obtain ⟨cs, hcs⟩ := all2_exists (l := t.places)
              (R := fun p c => ShapeN H S n p.1 (d + 1) p.2 [] c) fun p hp => by
                have : p.1 ∈ t.refs := by
                  rw [← Ty.places_map_fst]; exact List.mem_map.mpr ⟨p, hp, rfl⟩
                obtain ⟨h1, h2⟩ := hkid p.1 this
                exact ih p.1 (d + 1) p.2 [] h1 h2
            exact ⟨_, .plain ht ho (fun r h => hw ⟨r, h⟩) (fun m h => htx ⟨m, h⟩)
              (fun r len h h' => hb ⟨r, len, h, h'⟩) hcs⟩

/-! ## Appending along the right edge -/

/-- The path leads from the root through last children only. -/
def RightPath : List Nat → VExpr → Prop
  | [], _ => True
  | i :: p, .node _ cs => i + 1 = cs.length ∧ ∃ c, cs.getLast? = some c ∧ RightPath p c

theorem headsOf_append (cs ds : List VExpr) :
    VExpr.headsOf (cs ++ ds) = VExpr.headsOf cs ++ VExpr.headsOf ds := by
  induction cs with
  | nil => rfl
  | cons c cs ih => simp [VExpr.headsOf, ih]

theorem RightPath.take {p : List Nat} {e : VExpr} (h : RightPath p e) (n : Nat) :
    RightPath (p.take n) e := by
  induction p generalizing e n with
  | nil => simp [RightPath]
  | cons i p ih =>
    cases n with
    | zero => simp [RightPath]
    | succ n =>
      obtain ⟨hd, cs⟩ := e
      obtain ⟨h1, c, h2, h3⟩ := h
      exact ⟨h1, c, h2, ih h3 n⟩

theorem pushAt_right {maxContent : Nat} {x : VHead} :
    ∀ {p : List Nat} {e : VExpr}, RightPath p e → e.heads.length ≤ maxContent →
    ∃ e' n, VExpr.pushAt maxContent x p e = .ok (e', n) ∧ e'.heads = e.heads ++ [x] ∧
      RightPath (p ++ [n]) e' := by
  have hlen : ∀ cs : List VExpr, cs.length ≤ (VExpr.headsOf cs).length := by
    intro cs
    induction cs with
    | nil => simp
    | cons c cs ih =>
      obtain ⟨hd, ds⟩ := c
      simp only [VExpr.headsOf, VExpr.heads, List.length_cons, List.length_append]
      omega
  intro p
  induction p with
  | nil =>
    intro e _ hm
    obtain ⟨hd, cs⟩ := e
    have := hlen cs
    simp only [VExpr.heads, List.length_cons] at hm
    have hlt : cs.length < maxContent := by omega
    refine ⟨.node hd (cs ++ [.node x []]), cs.length, by simp [VExpr.pushAt, hlt], ?_, ?_⟩
    · simp [VExpr.heads, headsOf_append, VExpr.headsOf]
    · simp [RightPath]
  | cons i p ih =>
    intro e h hm
    obtain ⟨hd, cs⟩ := e
    obtain ⟨h1, c, h2, h3⟩ := h
    obtain ⟨ds, rfl⟩ := List.getLast?_eq_some_iff.mp h2
    simp only [List.length_append, List.length_cons, List.length_nil] at h1
    have hi : i = ds.length := by omega
    simp only [VExpr.heads, List.length_cons, headsOf_append, VExpr.headsOf, List.length_append,
      List.append_nil] at hm
    obtain ⟨c', n, hp, hh, hr⟩ := ih h3 (by omega)
    refine ⟨.node hd (ds ++ [c']), n, ?_, ?_, ?_⟩
    · simp [VExpr.pushAt, hi, hp]
    · simp [VExpr.heads, headsOf_append, VExpr.headsOf, hh]
    · simp only [List.cons_append, RightPath]
      exact ⟨by simp [hi], c', by simp, hr⟩

theorem toVesperLoop_heads {maxAttrs maxContent : Nat} {hd : TypeInfo → VHead} :
    ∀ {items : List TypeInfo} {root : VExpr} {path : List Nat},
    (∀ i ∈ items, i.toVesper H maxAttrs = .ok (hd i)) → (∀ i ∈ items, i.depth ≠ 0) →
    RightPath path root → root.heads.length + items.length ≤ maxContent + 1 →
    ∃ e, toVesperLoop H debug maxAttrs maxContent items (some root) path = .ok e ∧
      e.heads = root.heads ++ items.map hd := by
  intro items
  induction items with
  | nil => intro root path _ _ _ _; exact ⟨root, by simp [toVesperLoop, Out.expect], by simp⟩
  | cons i items ih =>
    intro root path hto hdep hpath hlen
    have hi := hto i List.mem_cons_self
    have hd0 : i.depth.toNat ≠ 0 := fun h => hdep i List.mem_cons_self (BitVec.eq_of_toNat_eq (by simpa using h))
    simp only [List.length_cons] at hlen
    have hp' : RightPath (if i.depth.toNat ≤ path.length then path.take (i.depth.toNat - 1) else path)
        root := by
      split
      · exact hpath.take _
      · exact hpath
    obtain ⟨e', n, h1, h2, h3⟩ := pushAt_right (maxContent := maxContent) (x := hd i) hp' (by omega)
    obtain ⟨e, h4, h5⟩ := ih (root := e') (fun j hj => hto j (List.mem_cons_of_mem _ hj))
      (fun j hj => hdep j (List.mem_cons_of_mem _ hj)) h3 (by rw [h2]; simp; omega)
    refine ⟨e, ?_, by rw [h5, h2]; simp⟩
    unfold toVesperLoop
    simp only [hi, Out.bind_ok, hd0, and_false, if_false, Out.expect, h1]
    exact h4

/-! ## Grafting subtrees -/

/-- The expression with `x` appended to the children of the node at the address. -/
def graft (x : VExpr) : List Nat → VExpr → Option VExpr
  | [], .node h cs => some (.node h (cs ++ [x]))
  | i :: q, .node h cs =>
    match cs[i]? with
    | none => none
    | some c => (graft x q c).map fun c' => .node h (cs.set i c')

/-- The number of children of the node at the address. -/
def childCount : List Nat → VExpr → Option Nat
  | [], .node _ cs => some cs.length
  | i :: q, .node _ cs =>
    match cs[i]? with
    | none => none
    | some c => childCount q c

theorem pushAt_eq {maxContent n : Nat} {x : VHead} {r r' : VExpr} {q : List Nat}
    (h : graft (.node x []) q r = some r') (hn : childCount q r = some n) (hm : n < maxContent) :
    VExpr.pushAt maxContent x q r = .ok (r', n) := by
  induction q generalizing r r' with
  | nil =>
    obtain ⟨hd, cs⟩ := r
    simp only [graft, Option.some.injEq] at h
    simp only [childCount, Option.some.injEq] at hn
    subst h hn
    simp [VExpr.pushAt, hm]
  | cons i q ih =>
    obtain ⟨hd, cs⟩ := r
    simp only [graft, childCount] at h hn
    cases hc : cs[i]? with
    | none => simp [hc] at h
    | some c =>
      simp only [hc, Option.map_eq_some_iff] at h hn
      obtain ⟨c', h1, rfl⟩ := h
      simp [VExpr.pushAt, hc, ih h1 hn]

theorem graft_some {x : VExpr} {q : List Nat} {r : VExpr} {n : Nat} (h : childCount q r = some n) :
    ∃ r', graft x q r = some r' := by
  induction q generalizing r with
  | nil => obtain ⟨hd, cs⟩ := r; exact ⟨_, rfl⟩
  | cons i q ih =>
    obtain ⟨hd, cs⟩ := r
    simp only [childCount] at h
    cases hc : cs[i]? with
    | none => simp [hc] at h
    | some c =>
      simp only [hc] at h
      obtain ⟨c', h'⟩ := ih h
      exact ⟨_, by simp [graft, hc, h']; rfl⟩

theorem childCount_graft {x : VExpr} {q : List Nat} {r r' : VExpr} {n : Nat}
    (h : childCount q r = some n) (hg : graft x q r = some r') : childCount q r' = some (n + 1) := by
  induction q generalizing r r' with
  | nil =>
    obtain ⟨hd, cs⟩ := r
    simp only [graft, Option.some.injEq] at hg
    simp only [childCount, Option.some.injEq] at h
    subst hg h
    simp [childCount]
  | cons i q ih =>
    obtain ⟨hd, cs⟩ := r
    simp only [graft, childCount] at hg h
    cases hc : cs[i]? with
    | none => simp [hc] at h
    | some c =>
      simp only [hc, Option.map_eq_some_iff] at hg h
      obtain ⟨c', h1, rfl⟩ := hg
      have hi : i < cs.length := by
        rcases Nat.lt_or_ge i cs.length with h | h
        · exact h
        · rw [List.getElem?_eq_none h] at hc; simp at hc
      simp [childCount, hi, ih h h1]

theorem childCount_new {hd : VHead} {cs : List VExpr} {q : List Nat} {r r' : VExpr} {n : Nat}
    (h : childCount q r = some n) (hg : graft (.node hd cs) q r = some r') :
    childCount (q ++ [n]) r' = some cs.length := by
  induction q generalizing r r' with
  | nil =>
    obtain ⟨h0, ds⟩ := r
    simp only [graft, Option.some.injEq] at hg
    simp only [childCount, Option.some.injEq] at h
    subst hg h
    simp [childCount]
  | cons i q ih =>
    obtain ⟨h0, ds⟩ := r
    simp only [graft, childCount] at hg h
    cases hc : ds[i]? with
    | none => simp [hc] at h
    | some c =>
      simp only [hc, Option.map_eq_some_iff] at hg h
      obtain ⟨c', h1, rfl⟩ := hg
      have hi : i < ds.length := by
        rcases Nat.lt_or_ge i ds.length with h | h
        · exact h
        · rw [List.getElem?_eq_none h] at hc; simp at hc
      simp [childCount, hi, ih h h1]

theorem graft_new {hd : VHead} {cs : List VExpr} {x : VExpr} {q : List Nat} {r r' : VExpr} {n : Nat}
    (h : childCount q r = some n) (hg : graft (.node hd cs) q r = some r') :
    graft x (q ++ [n]) r' = graft (.node hd (cs ++ [x])) q r := by
  induction q generalizing r r' with
  | nil =>
    obtain ⟨h0, ds⟩ := r
    simp only [graft, Option.some.injEq] at hg
    simp only [childCount, Option.some.injEq] at h
    subst hg h
    simp [graft]
  | cons i q ih =>
    obtain ⟨h0, ds⟩ := r
    simp only [graft, childCount] at hg h
    cases hc : ds[i]? with
    | none => simp [hc] at h
    | some c =>
      simp only [hc, Option.map_eq_some_iff] at hg h
      obtain ⟨c', h1, rfl⟩ := hg
      have hi : i < ds.length := by
        rcases Nat.lt_or_ge i ds.length with h | h
        · exact h
        · rw [List.getElem?_eq_none h] at hc; simp at hc
      simp only [List.cons_append, graft, hc, List.getElem?_set_self hi, ih h h1, List.set_set]

/-- The expression with several subtrees appended at the address. -/
def graftAll (q : List Nat) : List VExpr → VExpr → Option VExpr
  | [], r => some r
  | x :: xs, r => (graft x q r).bind (graftAll q xs)

theorem graftAll_new {hd : VHead} {xs cs : List VExpr} {q : List Nat} {r r' : VExpr} {n : Nat}
    (h : childCount q r = some n) (hg : graft (.node hd cs) q r = some r') :
    graftAll (q ++ [n]) xs r' = graft (.node hd (cs ++ xs)) q r := by
  induction xs generalizing r' cs with
  | nil => simp [graftAll, hg]
  | cons x xs ih =>
    simp only [graftAll]
    rw [graft_new h hg]
    obtain ⟨r1, h1⟩ := graft_some (x := .node hd (cs ++ [x])) h
    rw [h1, Option.bind_some, ih h1]
    simp

mutual
/-- The item is at the given depth, the items below it one deeper each, and there are at most `m`
directly below any. -/
def LTree.Levels (m : Nat) : Nat → LTree → Prop
  | d, .node i cs => i.depth.toNat = d ∧ cs.length ≤ m ∧ LTree.LevelsOf m (d + 1) cs
/-- The same for a sequence. -/
def LTree.LevelsOf (m : Nat) : Nat → List LTree → Prop
  | _, [] => True
  | d, c :: cs => c.Levels m d ∧ LTree.LevelsOf m d cs
end

theorem mirrors_length (hd : TypeInfo → VHead) (cs : List LTree) :
    (LTree.mirrors hd cs).length = cs.length := by
  induction cs with
  | nil => rfl
  | cons c cs ih => simp [LTree.mirrors, ih]

theorem toVesperLoop_item {maxAttrs maxContent d n : Nat} {hd : TypeInfo → VHead} {i : TypeInfo}
    {rest : List TypeInfo} {r r' : VExpr} {path q : List Nat}
    (hto : i.toVesper H maxAttrs = .ok (hd i)) (hdep : i.depth.toNat = d + 1)
    (hpath : path.take d = q) (hlen : q.length = d) (hn : childCount q r = some n)
    (hg : graft (.node (hd i) []) q r = some r') (hm : n < maxContent) :
    toVesperLoop H debug maxAttrs maxContent (i :: rest) (some r) path =
      toVesperLoop H debug maxAttrs maxContent rest (some r') (q ++ [n]) := by
  have hl : d ≤ path.length := by
    have := congrArg List.length hpath
    rw [List.length_take, hlen] at this
    omega
  have hp : (if d + 1 ≤ path.length then path.take (d + 1 - 1) else path) = q := by
    split
    · simpa using hpath
    · rw [← hpath, List.take_of_length_le (by omega)]
  conv => lhs; unfold toVesperLoop
  simp only [hto, Out.bind_ok, hdep, hp, Nat.add_one_ne_zero, and_false, if_false, Out.expect,
    pushAt_eq hg hn hm]

mutual
theorem toVesperLoop_tree {maxAttrs maxContent : Nat} {hd : TypeInfo → VHead} :
    ∀ (T : LTree) {d n : Nat} {rest : List TypeInfo} {r : VExpr} {path q : List Nat},
    (∀ i ∈ T.items, i.toVesper H maxAttrs = .ok (hd i)) → T.Levels maxContent (d + 1) →
    path.take d = q → q.length = d → childCount q r = some n → n < maxContent →
    ∃ r' path', graft (T.mirror hd) q r = some r' ∧ path'.take d = q ∧
      toVesperLoop H debug maxAttrs maxContent (T.items ++ rest) (some r) path =
        toVesperLoop H debug maxAttrs maxContent rest (some r') path'
  | .node i cs, d, n, rest, r, path, q, hto, hlev, hpath, hlen, hn, hm => by
    simp only [LTree.items] at hto
    obtain ⟨hdep, hcs, hlevs⟩ := hlev
    obtain ⟨r1, h1⟩ := graft_some (x := .node (hd i) []) hn
    have hstep := toVesperLoop_item (H := H) (debug := debug) (maxContent := maxContent)
      (rest := LTree.itemsOf cs ++ rest) (hto i List.mem_cons_self) hdep hpath hlen hn h1 hm
    have hc1 := childCount_new hn h1
    obtain ⟨r2, path2, h2, hp2, heq⟩ := toVesperLoop_forest (maxAttrs := maxAttrs)
      (maxContent := maxContent) (hd := hd) cs (d := d + 1) (n := 0) (rest := rest) (r := r1)
      (path := q ++ [n]) (q := q ++ [n])
      (fun j hj => hto j (List.mem_cons_of_mem _ hj)) hlevs
      (by rw [List.take_of_length_le]; simp [hlen]) (by simp [hlen]) hc1 (by omega)
    rw [graftAll_new hn h1, List.nil_append] at h2
    refine ⟨r2, path2, h2, ?_, ?_⟩
    · have := congrArg (List.take d) hp2
      rw [List.take_take, Nat.min_eq_left (by omega)] at this
      rw [this, ← hlen, List.take_left]
    · simp only [LTree.items, List.cons_append]
      rw [hstep, heq]
theorem toVesperLoop_forest {maxAttrs maxContent : Nat} {hd : TypeInfo → VHead} :
    ∀ (cs : List LTree) {d n : Nat} {rest : List TypeInfo} {r : VExpr} {path q : List Nat},
    (∀ i ∈ LTree.itemsOf cs, i.toVesper H maxAttrs = .ok (hd i)) →
    LTree.LevelsOf maxContent (d + 1) cs →
    path.take d = q → q.length = d → childCount q r = some n → n + cs.length ≤ maxContent →
    ∃ r' path', graftAll q (LTree.mirrors hd cs) r = some r' ∧ path'.take d = q ∧
      toVesperLoop H debug maxAttrs maxContent (LTree.itemsOf cs ++ rest) (some r) path =
        toVesperLoop H debug maxAttrs maxContent rest (some r') path'
  | [], d, n, rest, r, path, q, hto, hlev, hpath, hlen, hn, hm =>
    ⟨r, path, rfl, hpath, by simp [LTree.itemsOf]⟩
  | c :: cs, d, n, rest, r, path, q, hto, hlev, hpath, hlen, hn, hm => by
    simp only [LTree.itemsOf, List.mem_append] at hto
    simp only [List.length_cons] at hm
    obtain ⟨r1, path1, h1, hp1, heq1⟩ := toVesperLoop_tree (maxAttrs := maxAttrs)
      (maxContent := maxContent) (hd := hd) c (rest := LTree.itemsOf cs ++ rest) (path := path)
      (fun j hj => hto j (.inl hj)) hlev.1 hpath hlen hn (by omega)
    have hc := childCount_graft hn h1
    obtain ⟨r2, path2, h2, hp2, heq2⟩ := toVesperLoop_forest (maxAttrs := maxAttrs)
      (maxContent := maxContent) (hd := hd) cs (rest := rest) (path := path1)
      (fun j hj => hto j (.inr hj)) hlev.2 hp1 hlen hc (by omega)
    refine ⟨r2, path2, ?_, hp2, ?_⟩
    · simp only [LTree.mirrors, graftAll, h1, Option.bind_some, h2]
    · simp only [LTree.itemsOf, List.append_assoc]
      rw [heq1, heq2]
end

theorem toVesper_mirror {maxAttrs maxContent : Nat} {hd : TypeInfo → VHead} {T : LTree}
    (hto : ∀ i ∈ T.items, i.toVesper H maxAttrs = .ok (hd i)) (hlev : T.Levels maxContent 0) :
    toVesper H debug maxAttrs maxContent T.items = .ok (T.mirror hd) := by
  obtain ⟨i, cs⟩ := T
  obtain ⟨hdep, hcs, hlevs⟩ := hlev
  simp only [LTree.items] at hto
  obtain ⟨r, path, h1, _, h2⟩ := toVesperLoop_forest (H := H) (debug := debug) (maxAttrs := maxAttrs)
    (maxContent := maxContent) (hd := hd) cs (d := 0) (n := 0) (rest := []) (r := .node (hd i) [])
    (path := []) (q := []) (fun j hj => hto j (List.mem_cons_of_mem _ hj)) hlevs rfl rfl rfl
    (by omega)
  have hg : ∀ (xs cs : List VExpr), graftAll [] xs (.node (hd i) cs) = some (.node (hd i) (cs ++ xs)) := by
    intro xs
    induction xs with
    | nil => intro cs; simp [graftAll]
    | cons x xs ih => intro cs; simp [graftAll, graft, ih]
  rw [hg, Option.some.injEq, List.nil_append] at h1
  subst h1
  unfold toVesper
  simp only [LTree.items, LTree.mirror]
  conv => lhs; unfold toVesperLoop
  simp only [hto i List.mem_cons_self, Out.bind_ok, hdep, List.isEmpty_nil, and_self, if_true,
    Option.isNone_none, Out.debugAssert]
  rw [List.append_nil] at h2
  cases debug <;> simp [h2, toVesperLoop, Out.expect]

/-! ## Properties of outlines -/

theorem flatMap_length_le_mul {α β : Type} {f : α → List β} {k : Nat} (h : ∀ a, (f a).length ≤ k) (l : List α) :
    (l.flatMap f).length ≤ k * l.length := by
  induction l with
  | nil => simp
  | cons a l ih =>
    have := h a
    simp only [List.flatMap_cons, List.length_append, List.length_cons, Nat.mul_add]
    omega

theorem nestedAttrs_length (n : NestedCase) : (nestedAttrs n).length ≤ 3 := by
  cases n with
  | rStr a b sz =>
    simp only [nestedAttrs, List.length_append, List.length_cons, List.length_nil]
    cases a <;> cases b <;> simp
  | asciiStr f => cases f <;> simp [nestedAttrs]
  | _ => simp [nestedAttrs]

theorem tyAttrs_length (t : Ty SemId) : (tyAttrs t).length ≤ 1 := by
  cases t with
  | primitive p => simp only [tyAttrs]; split <;> simp
  | _ => simp [tyAttrs]

theorem subject_ok {fqn : Option TypeFqn} {item : Option Ty.ItemCase}
    (h : ∀ pos, item ≠ some (.unnamedField pos)) :
    ∃ n as, subject fqn item = .ok (n, as) ∧ as.length ≤ 1 := by
  have hnamed : ∀ (c : Prop) [Decidable c] (a : Attr), (if c then [a] else []).length ≤ 1 := by
    intro c _ a; split <;> simp
  match item with
  | none => exact ⟨_, _, rfl, by simp⟩
  | some (.unnamedField pos) => exact absurd rfl (h pos)
  | some (.namedField _ f) => exact ⟨_, _, rfl, hnamed _ _⟩
  | some (.unionVariant _ f) => exact ⟨_, _, rfl, hnamed _ _⟩
  | some .arrayItem => exact ⟨_, _, rfl, by simp⟩
  | some .listItem => exact ⟨_, _, rfl, by simp⟩
  | some .setItem => exact ⟨_, _, rfl, by simp⟩
  | some .mapKey =>
    refine ⟨_, _, rfl, ?_⟩
    split
    · exact hnamed _ _
    · simp
  | some .mapValue =>
    refine ⟨_, _, rfl, ?_⟩
    split
    · exact hnamed _ _
    · simp

theorem TypeInfo.toVesper_ok {maxAttrs : Nat} {i : TypeInfo} (h : ∀ pos, i.item ≠ some (.unnamedField pos))
    (hl : i.Labelled maxAttrs) : ∃ e, i.toVesper H maxAttrs = .ok e := by
  obtain ⟨n, as, h1, h2⟩ := subject_ok (fqn := i.fqn) h
  unfold TypeInfo.toVesper
  simp only [h1, Out.bind_ok]
  have h3 := tyAttrs_length i.ty
  have h4 := flatMap_length_le_mul nestedAttrs_length i.nested
  unfold TypeInfo.Labelled at hl
  have h5 : (enumAttrs i.ty).length = i.ty.enumSize := by
    cases i.ty <;> simp [Ty.enumSize, enumAttrs]
  have h6 : (tagAttrs i.item).length ≤ 1 := by unfold tagAttrs; split <;> simp
  rw [if_pos]
  · exact ⟨_, rfl⟩
  · simp only [List.length_append]
    omega

theorem places_named {t : Ty SemId} {p : SemId × Option Ty.ItemCase} (h : p ∈ t.places) (pos : Byte) :
    p.2 ≠ some (.unnamedField pos) := by
  cases t <;> simp [Ty.places] at h
  case union => obtain ⟨_, _, _, _, rfl⟩ := h; simp
  case struct => obtain ⟨_, _, _, _, rfl⟩ := h; simp
  case tuple => obtain ⟨_, _, rfl⟩ := h; simp
  case map => rcases h with rfl | rfl <;> simp
  all_goals subst h; simp

theorem all2_itemsOf {α : Type} {R : α → LTree → Prop} {P : TypeInfo → Prop} {l : List α} {cs : List LTree}
    (h : All2 R l cs) (hP : ∀ a ∈ l, ∀ c, R a c → ∀ i ∈ c.items, P i) : ∀ i ∈ LTree.itemsOf cs, P i := by
  induction l generalizing cs with
  | nil =>
    cases cs with
    | nil => simp [LTree.itemsOf]
    | cons => exact absurd h (by simp [All2])
  | cons a l ih =>
    cases cs with
    | nil => exact absurd h (by simp [All2])
    | cons c cs =>
      intro i hi
      simp only [LTree.itemsOf, List.mem_append] at hi
      rcases hi with hi | hi
      · exact hP a List.mem_cons_self c h.1 i hi
      · exact ih h.2 (fun b hb => hP b (List.mem_cons_of_mem _ hb)) i hi

theorem shape_named {n : Nat} {id : SemId} {d : Nat} {item : Option Ty.ItemCase}
    {nested : List NestedCase} {T : LTree} (h : ShapeN H S n id d item nested T)
    (hi : ∀ pos, item ≠ some (.unnamedField pos)) :
    ∀ i ∈ T.items, ∀ pos, i.item ≠ some (.unnamedField pos) := by
  induction n generalizing id d item nested T with
  | zero => exact h.elim
  | succ n ih =>
    cases h with
    | wrapper ht hR => exact ih hR hi
    | optional ht hsome hR => exact ih hR (by simp)
    | text ht hm => simpa [LTree.items, LTree.itemsOf] using hi
    | bytes ht hb => simpa [LTree.items, LTree.itemsOf] using hi
    | plain ht h0 h1 h2 h3 hcs =>
      intro i hmem
      simp only [LTree.items, List.mem_cons] at hmem
      rcases hmem with rfl | hmem
      · exact hi
      · exact all2_itemsOf hcs (P := fun i => ∀ pos, i.item ≠ some (.unnamedField pos))
          (fun p hp c hc => ih hc (places_named hp)) i hmem

theorem shape_depth {rank wraps : SemId → Nat} (hS : S.Outlined debug rank wraps) {n : Nat}
    {id : SemId} {d : Nat} {item : Option Ty.ItemCase}
    {nested : List NestedCase} {T : LTree} (h : ShapeN H S n id d item nested T)
    (hd : d + rank id < 2 ^ 32 - 1) :
    d ≤ T.top.depth.toNat ∧ (∀ i ∈ LTree.itemsOf T.kids, d + 1 ≤ i.depth.toNat) ∧
    (S.IsOptional id → d + 1 ≤ T.top.depth.toNat) ∧ (¬ S.IsOptional id → T.top.depth.toNat = d) := by
  induction n generalizing id d item nested T with
  | zero => exact h.elim
  | succ n ih =>
    cases h with
    | @wrapper r _ _ _ _ ht hR =>
      have hr := hS.ranked _ _ ht r (by simp [Ty.refs])
      obtain ⟨h1, h2, h3, h4⟩ := ih hR (by omega)
      refine ⟨h1, h2, fun ho => ?_, fun ho => h4 fun ho' => ho (.wrapped ht ho')⟩
      cases ho with
      | here ht' hs => rw [ht] at ht'; cases ht'; simp [Ty.asSome] at hs
      | wrapped ht' ho' => rw [ht] at ht'; cases ht'; exact h3 ho'
    | @optional r _ _ _ t _ ht hsome hR =>
      have hmem : r ∈ t.refs := by
        obtain ⟨r0, he⟩ := Ty.asSome_union hsome
        rw [he]; simp [Ty.refs]
      have hr := hS.ranked _ _ ht r hmem
      obtain ⟨h1, h2, h3, h4⟩ := ih hR (by omega)
      exact ⟨by omega, fun i hi => by have := h2 i hi; omega, fun _ => h1,
        fun ho => absurd (.here ht hsome) ho⟩
    | @text _ _ _ t m ht hm =>
      have hdt : (BitVec.ofNat 32 d).toNat = d := by rw [BitVec.toNat_ofNat]; omega
      refine ⟨by simp only [LTree.top]; omega, by simp [LTree.kids, LTree.itemsOf], fun ho => ?_,
        fun _ => hdt⟩
      cases ho with
      | here ht' hs =>
        rw [ht] at ht'; cases ht'
        obtain ⟨r0, rfl⟩ := Ty.asSome_union hs
        cases hm
      | wrapped ht' ho' => rw [ht] at ht'; cases ht'; cases hm
    | @bytes r _ _ _ len ht hb =>
      have hdt : (BitVec.ofNat 32 d).toNat = d := by rw [BitVec.toNat_ofNat]; omega
      refine ⟨by simp only [LTree.top]; omega, by simp [LTree.kids, LTree.itemsOf], fun ho => ?_,
        fun _ => hdt⟩
      cases ho with
      | here ht' hs => rw [ht] at ht'; cases ht'; simp [Ty.asSome] at hs
      | wrapped ht' ho' => rw [ht] at ht'; cases ht'
    | @plain _ _ _ t cs ht h0 h1 h2 h3 hcs =>
      have hdt : (BitVec.ofNat 32 d).toNat = d := by rw [BitVec.toNat_ofNat]; omega
      refine ⟨by simp only [LTree.top]; omega, ?_, fun ho => ?_, fun _ => hdt⟩
      · exact all2_itemsOf hcs (P := fun i => d + 1 ≤ i.depth.toNat) fun p hp c hc => by
          have hmem : p.1 ∈ t.refs := by
            rw [← Ty.places_map_fst]; exact List.mem_map.mpr ⟨p, hp, rfl⟩
          have hr := hS.ranked _ _ ht p.1 hmem
          obtain ⟨g1, g2, _⟩ := ih hc (by omega)
          obtain ⟨i0, cs0⟩ := c
          intro i hi
          simp only [LTree.items, List.mem_cons] at hi
          rcases hi with rfl | hi
          · exact g1
          · exact Nat.le_trans (by omega) (g2 i hi)
      · cases ho with
        | here ht' hs => rw [ht] at ht'; cases ht'; rw [h0] at hs; cases hs
        | wrapped ht' ho' => rw [ht] at ht'; cases ht'; exact absurd rfl (h1 _)

theorem OptionFree.child {id r : SemId} {t : Ty SemId} (h : S.OptionFree id)
    (ht : S.types.get id = some t) (hr : r ∈ t.refs) : S.OptionFree r := by
  intro x u hx hu
  refine h x u ?_ hu
  clear hu
  induction hx with
  | root e => subst e; exact .step (.root rfl) ht hr
  | step _ h1 h2 ih => exact .step ih h1 h2

theorem shape_levels {rank wraps : SemId → Nat} (hS : S.Outlined debug rank wraps) {maxContent : Nat}
    (hm : 255 ≤ maxContent) {n : Nat}
    {id : SemId} {d : Nat} {item : Option Ty.ItemCase}
    {nested : List NestedCase} {T : LTree} (h : ShapeN H S n id d item nested T)
    (hd : d + rank id < 2 ^ 32 - 1) (ho : S.OptionFree id) : T.Levels maxContent d := by
  induction n generalizing id d item nested T with
  | zero => exact h.elim
  | succ n ih =>
    cases h with
    | @wrapper r _ _ _ _ ht hR =>
      have hr := hS.ranked _ _ ht r (by simp [Ty.refs])
      exact ih hR (by omega) (OptionFree.child ho ht (by simp [Ty.refs]))
    | @optional r _ _ _ t _ ht hsome hR =>
      rw [ho id t (.root rfl) ht] at hsome
      cases hsome
    | text ht hmm =>
      exact ⟨by dsimp only; rw [BitVec.toNat_ofNat]; omega, by simp, trivial⟩
    | bytes ht hb =>
      exact ⟨by dsimp only; rw [BitVec.toNat_ofNat]; omega, by simp, trivial⟩
    | @plain _ _ _ t cs ht h0 h1 h2 h3 hcs =>
      have hlen : cs.length = t.refs.length := by
        have := (all2_length hcs).symm
        rw [this, ← Ty.places_map_fst, List.length_map]
      have hl := Ty.refs_length_le (hS.iterable _ _ ht).1
      refine ⟨by dsimp only; rw [BitVec.toNat_ofNat]; omega, by omega, ?_⟩
      have key : ∀ (l : List (SemId × Option Ty.ItemCase)) (cs : List LTree),
          (∀ p ∈ l, p.1 ∈ t.refs) →
          All2 (fun p c => ShapeN H S n p.1 (d + 1) p.2 [] c) l cs → LTree.LevelsOf maxContent (d + 1) cs := by
        intro l
        induction l with
        | nil =>
          intro cs _ h
          cases cs with
          | nil => trivial
          | cons => exact absurd h (by simp [All2])
        | cons p l ihl =>
          intro cs hmem h
          cases cs with
          | nil => exact absurd h (by simp [All2])
          | cons c cs =>
            have hp := hmem p List.mem_cons_self
            have hr := hS.ranked _ _ ht p.1 hp
            exact ⟨ih h.1 (by omega) (OptionFree.child ho ht hp),
              ihl cs (fun q hq => hmem q (List.mem_cons_of_mem _ hq)) h.2⟩
      exact key _ _ (fun p hp => by
        rw [← Ty.places_map_fst]; exact List.mem_map.mpr ⟨p, hp, rfl⟩) hcs

theorem shape_item {n : Nat} {id : SemId} {d : Nat} {item : Option Ty.ItemCase}
    {nested : List NestedCase} {T : LTree} (h : ShapeN H S n id d item nested T)
    (ho : ¬ S.IsOptional id) : T.top.item = item := by
  induction n generalizing id d item nested T with
  | zero => exact h.elim
  | succ n ih =>
    cases h with
    | wrapper ht hR => exact ih hR fun h => ho (.wrapped ht h)
    | optional ht hsome hR => exact absurd (.here ht hsome) ho
    | text ht hm => rfl
    | bytes ht hb => rfl
    | plain ht h0 h1 h2 h3 hcs => rfl

/-- Every part of an outline that is the item of a union or a structure comes with the outlines of
its components. -/
theorem shape_within {n : Nat} {id : SemId} {d : Nat} {item : Option Ty.ItemCase}
    {nested : List NestedCase} {T X : LTree} (h : ShapeN H S n id d item nested T)
    (hX : X.Within T) :
    X.kids = [] ∧ (∀ vs, X.top.ty ≠ .union vs) ∧ (∀ fs, X.top.ty ≠ .struct fs) ∧
      (∀ k v sz, X.top.ty ≠ .map k v sz) ∨
    ∃ m e, All2 (fun p c => ShapeN H S m p.1 e p.2 [] c) X.top.ty.places X.kids := by
  induction n generalizing id d item nested T with
  | zero => exact h.elim
  | succ n ih =>
    cases h with
    | wrapper ht hR => exact ih hR hX
    | optional ht hsome hR => exact ih hR hX
    | text ht hm =>
      cases hX with
      | refl =>
        refine .inl ⟨rfl, ?_, ?_, ?_⟩ <;>
        · intros; simp only [LTree.top]; rintro rfl; cases hm
      | down hc _ => cases hc
    | bytes ht hb =>
      cases hX with
      | refl => exact .inl ⟨rfl, by simp [LTree.top], by simp [LTree.top], by simp [LTree.top]⟩
      | down hc _ => cases hc
    | plain ht h0 h1 h2 h3 hcs =>
      cases hX with
      | refl => exact .inr ⟨n, _, hcs⟩
      | down hc hX' =>
        obtain ⟨p, hp, hR⟩ := all2_right hcs hc
        exact ih hR hX'

end Verif
