import Verif.Lemmas.Layout
import Verif.Spec.Example

/-!
# Properties C49, C62 and C63: the memory layout of a type
-/

namespace Verif

/-! ## Example -/

/-- A structure of a wrapped restricted string and a list of unions. -/
def exLayTypes : TypeSystem :=
  [(Id32.rep 0, Ty.UNIT),
   (Id32.rep 1, Ty.U8),
   (Id32.rep 2, .enum exAlphabet),
   (Id32.rep 3, .list (Id32.rep 2) ⟨0, 10⟩),
   (Id32.rep 4, .tuple [Id32.rep 2, Id32.rep 3]),
   (Id32.rep 5, .tuple [Id32.rep 4]),
   (Id32.rep 6, .list (Id32.rep 1) ⟨0, 255⟩),
   (Id32.rep 7, .union [(⟨n!"a", 0⟩, Id32.rep 1), (⟨n!"b", 1⟩, Id32.rep 6)]),
   (Id32.rep 8, .list (Id32.rep 7) ⟨0, 255⟩),
   (Id32.rep 9, .struct [(n!"name", Id32.rep 5), (n!"cases", Id32.rep 8)]),
   -- a variant with another tag, an optional number, two of them
   (Id32.rep 10, .union [(⟨n!"a", 0⟩, Id32.rep 1), (⟨n!"b", 7⟩, Id32.rep 6)]),
   (Id32.rep 11, .union [(⟨n!"none", 0⟩, Id32.rep 0), (⟨n!"some", 1⟩, Id32.rep 1)]),
   (Id32.rep 12, .struct [(n!"x", Id32.rep 11), (n!"y", Id32.rep 11)])]

/-- The example system with some of the types named. -/
def exLay : SymbolicSys :=
  ⟨⟨[], [⟨Id32.rep 5, some ⟨n!"Lib", n!"Name"⟩⟩, ⟨Id32.rep 9, some ⟨n!"Lib", n!"Main"⟩⟩]⟩, exLayTypes⟩

/-- A measure that decreases from a type of the example to its parts. -/
def exLayRank (id : SemId) : Nat := fromLe (id.bytes.take 1)

/-- A measure that decreases from wrappers and optional types of the example to what they hold. -/
def exWraps (id : SemId) : Nat := if id = Id32.rep 5 ∨ id = Id32.rep 11 then 1 else 0

theorem exLay_outlined (debug : Bool) : exLay.Outlined debug exLayRank exWraps := by
  have mem : ∀ id t, exLay.types.get id = some t → (id, t) ∈ exLayTypes := fun id t h => OMap.get_mem h
  have hall : ∀ p ∈ exLayTypes,
      (∀ r ∈ p.2.refs, exLayRank r < exLayRank p.1 ∧ (exLayTypes.get r).isSome) ∧
      p.2.WF ∧ p.2.refs.length < 255 ∧
      (∀ r ∈ p.2.refs, p.2 = .tuple [r] ∨ p.2.asSome = some r → exWraps r < exWraps p.1) := by
    decide +kernel
  refine ⟨?_, ?_, ?_, ?_, ?_, ?_, ?_⟩
  · intro id t h r hr
    exact Option.isSome_iff_exists.mp ((hall _ (mem id t h)).1 r hr).2
  · intro id t h
    exact ⟨(hall _ (mem id t h)).2.1, fun _ => (hall _ (mem id t h)).2.2.1⟩
  · intro id t h r hr
    exact ((hall _ (mem id t h)).1 r hr).1
  · intro id
    have : exLayRank id < 256 := by
      unfold exLayRank
      cases hb : id.bytes with
      | nil => simp [fromLe]
      | cons b bs => simp [fromLe]; omega
    omega
  · intro id t h r hr
    refine (hall _ (mem id t h)).2.2.2 r ?_ hr
    rcases hr with rfl | hr
    · simp [Ty.refs]
    · obtain ⟨r0, rfl⟩ := Ty.asSome_union hr
      simp [Ty.refs]
  · intro id; unfold exWraps; split <;> omega
  · intro _ id r sz h
    have hm := mem id _ h
    have h3 : ∀ p ∈ exLayTypes, (match p.2 with
        | .list _ sz => decide (sz.min.toNat < 2 ^ 64 - 1 ∧ sz.max.toNat < 2 ^ 64 - 1)
        | _ => true) = true := by decide +kernel
    exact of_decide_eq_true (h3 _ hm)

/-! ## C49 -/

/-- The layout of a type is the list of the items of its outline, parents before children, in the
order of the definitions; if they are too many for a layout this is a panic, and no item is left out. The full
claim goes on with the expression made from it, see below. -/
theorem C49_items (H : Hash) (debug : Bool) {S : SymbolicSys} {rank wraps : SemId → Nat}
    (hS : S.Outlined debug rank wraps) {id : SemId} (hid : ∃ t, S.types.get id = some t) :
    (∃ T, Outline H S id T) ∧
    ∀ T, Outline H S id T → ∃ enough, ∀ fuel, enough ≤ fuel →
      layout H debug fuel S id = if T.items.length ≤ 2 ^ 32 - 1 then .ok T.items else .panic := by
  refine ⟨?_, ?_⟩
  · obtain ⟨T, hT⟩ := shape_exists (H := H) hS (rank id + 1) id 0 none [] (by omega) hid
    exact ⟨T, _, hT⟩
  · rintro T ⟨n, hT⟩
    obtain ⟨t, ht⟩ := hid
    have h1 := hS.deep id
    have h2 := hS.few id
    obtain ⟨s', hs, hdone⟩ := steps_shape hS n id 0 none [] T hT (by omega) (by simpa using h2) []
    by_cases hlen : T.items.length ≤ 2 ^ 32 - 1
    · rw [if_pos hlen]
      obtain ⟨f, hf⟩ := hs.collect hdone.1 hdone.2.1 hlen
      refine ⟨f, fun fuel hle => ?_⟩
      unfold layout TreeIter.start
      rw [ht]
      simp only [Out.bind_ok]
      have := TreeIter.collect_le hf hle
      unfold entering at this
      rw [ht] at this
      exact this
    · rw [if_neg hlen]
      obtain ⟨f, hf⟩ := hs.overflow (Nat.lt_of_not_le hlen)
      refine ⟨f, fun fuel hle => ?_⟩
      unfold layout TreeIter.start
      rw [ht]
      simp only [Out.bind_ok]
      have := hf fuel hle
      unfold entering at this
      rw [ht] at this
      exact this

theorem layout_items (H : Hash) (debug : Bool) {S : SymbolicSys} {rank wraps : SemId → Nat}
    (hS : S.Outlined debug rank wraps) {id : SemId} (hid : ∃ t, S.types.get id = some t) (T : LTree)
    (hT : Outline H S id T) (hl : T.items.length ≤ 2 ^ 32 - 1) :
    ∃ enough, ∀ fuel, enough ≤ fuel → layout H debug fuel S id = .ok T.items := by
  have := (C49_items H debug hS hid).2 T hT
  rwa [if_pos hl] at this

/-- The labels of all items fit, so each item has its head. -/
theorem outline_heads {H : Hash} {S : SymbolicSys} {id : SemId} {T : LTree} {maxAttrs : Nat}
    (hT : Outline H S id T) (hl : ∀ i ∈ T.items, i.Labelled maxAttrs) :
    ∃ head : TypeInfo → VHead, ∀ i ∈ T.items, i.toVesper H maxAttrs = .ok (head i) := by
  obtain ⟨n, hT⟩ := hT
  have h : ∀ i : TypeInfo, ∃ e, i ∈ T.items → i.toVesper H maxAttrs = .ok e := by
    intro i
    by_cases hi : i ∈ T.items
    · obtain ⟨e, he⟩ := TypeInfo.toVesper_ok (H := H) (shape_named hT (by simp) i hi) (hl i hi)
      exact ⟨e, fun _ => he⟩
    · exact ⟨⟨lodash, .is, [], none⟩, fun h => absurd h hi⟩
  exact ⟨fun i => (h i).choose, fun i hi => (h i).choose_spec hi⟩

/-- Without optional types the expression mirrors the outline: each node is the head of its item and
the nodes below it are those of the items below, in order. What is missing: with optional types this
is false, see `C49_optional_root_violated` and `C49_optional_fields_violated`. -/
theorem C49_mirror_partial (H : Hash) (debug : Bool) {maxAttrs maxContent : Nat} (hm : 255 ≤ maxContent)
    {S : SymbolicSys} {rank wraps : SemId → Nat} (hS : S.Outlined debug rank wraps) {id : SemId}
    (hfree : S.OptionFree id) {T : LTree} (hT : Outline H S id T)
    (hl : ∀ i ∈ T.items, i.Labelled maxAttrs) :
    ∃ head : TypeInfo → VHead, (∀ i ∈ T.items, i.toVesper H maxAttrs = .ok (head i)) ∧
      toVesper H debug maxAttrs maxContent T.items = .ok (T.mirror head) := by
  obtain ⟨head, hto⟩ := outline_heads hT hl
  obtain ⟨n, hT⟩ := hT
  have h1 := hS.deep id
  exact ⟨head, hto, toVesper_mirror hto (shape_levels hS hm hT (by omega) hfree)⟩

/-- With optional types anywhere but at the root, the expression still lists all items in order.
What is missing: an item may be placed below a preceding one that does not contain it. -/
theorem C49_preorder_partial (H : Hash) (debug : Bool) {maxAttrs maxContent : Nat}
    {S : SymbolicSys} {rank wraps : SemId → Nat} (hS : S.Outlined debug rank wraps) {id : SemId}
    (hroot : ¬ S.IsOptional id) {T : LTree} (hT : Outline H S id T)
    (hl : ∀ i ∈ T.items, i.Labelled maxAttrs) (hc : T.items.length ≤ maxContent) :
    ∃ head : TypeInfo → VHead, (∀ i ∈ T.items, i.toVesper H maxAttrs = .ok (head i)) ∧
      ∃ e, toVesper H debug maxAttrs maxContent T.items = .ok e ∧ e.heads = T.items.map head := by
  obtain ⟨head, hto⟩ := outline_heads hT hl
  obtain ⟨n, hT⟩ := hT
  refine ⟨head, hto, ?_⟩
  have h1 := hS.deep id
  obtain ⟨-, hk, -, h0⟩ := shape_depth hS hT (by omega)
  cases T with
  | node i cs =>
    have hd0 : i.depth.toNat = 0 := h0 hroot
    have hhead := hto i (by simp [LTree.items])
    obtain ⟨e, he, hh⟩ := toVesperLoop_heads (H := H) (debug := debug) (maxAttrs := maxAttrs)
      (maxContent := maxContent) (hd := head) (items := LTree.itemsOf cs) (root := .node (head i) [])
      (path := [])
      (fun j hj => hto j (by simp [LTree.items, hj]))
      (fun j hj hz => by have := hk j hj; rw [hz] at this; simp at this)
      (by simp [RightPath]) (by simp [VExpr.heads, VExpr.headsOf, LTree.items] at hc ⊢; omega)
    refine ⟨e, ?_, ?_⟩
    · simp only [toVesper, LTree.items]
      unfold toVesperLoop
      simp [hhead, hd0, Out.debugAssert, he]
    · rw [hh]; simp [VExpr.heads, VExpr.headsOf, LTree.items]

/-- Counterexample to the full claim: for no optional type is there an expression, the conversion of
its layout panics. -/
theorem C49_optional_root_violated (H : Hash) (debug : Bool) {maxAttrs maxContent : Nat}
    {S : SymbolicSys} {rank wraps : SemId → Nat} (hS : S.Outlined debug rank wraps) {id : SemId}
    (hroot : S.IsOptional id) {T : LTree} (hT : Outline H S id T)
    (hl : ∀ i ∈ T.items, i.Labelled maxAttrs) :
    toVesper H debug maxAttrs maxContent T.items = .panic := by
  obtain ⟨head, hto⟩ := outline_heads hT hl
  obtain ⟨n, hT⟩ := hT
  have h1 := hS.deep id
  obtain ⟨-, -, h0, -⟩ := shape_depth hS hT (by omega)
  cases T with
  | node i cs =>
    have hd : 1 ≤ i.depth.toNat := by simpa [LTree.top] using h0 hroot
    have hne : i.depth.toNat ≠ 0 := by omega
    have hhead := hto i (by simp [LTree.items])
    simp only [toVesper, LTree.items]
    unfold toVesperLoop
    simp [hhead, hne, Out.expect]

/-- Counterexample to the full claim: the two optional fields of a structure are both directly below
it, but the expression shows the second one below the first. -/
theorem C49_optional_fields_violated (H : Hash) (debug : Bool) :
    ∃ i a b h ha hb, Outline H exLay (Id32.rep 12) (.node i [.node a [], .node b []]) ∧
      toVesper H debug 255 255 [i, a, b] = .ok (.node h [.node ha [.node hb []]]) := by
  have leaf : ∀ d, ShapeN H exLay 1 (Id32.rep 1) d (some (.unionVariant 1 Ty.someName)) [.option]
      (.node ⟨BitVec.ofNat 32 d, Ty.U8, none, some (.unionVariant 1 Ty.someName), [.option]⟩ []) := by
    intro d
    exact ShapeOf.plain (t := Ty.U8) (by decide +kernel) rfl (by intro r; exact nofun)
      (by intro n h; cases h) (by intro r len; exact nofun) trivial
  have opt : ∀ item, ShapeN H exLay 2 (Id32.rep 11) 1 item []
      (.node ⟨2, Ty.U8, none, some (.unionVariant 1 Ty.someName), [.option]⟩ []) := by
    intro item
    exact ShapeOf.optional (r := Id32.rep 1)
      (t := .union [(⟨n!"none", 0⟩, Id32.rep 0), (⟨n!"some", 1⟩, Id32.rep 1)])
      (by decide +kernel) (by decide +kernel) (leaf 2)
  refine ⟨⟨0, .struct [(n!"x", Id32.rep 11), (n!"y", Id32.rep 11)], none, none, []⟩,
    ⟨2, Ty.U8, none, some (.unionVariant 1 Ty.someName), [.option]⟩,
    ⟨2, Ty.U8, none, some (.unionVariant 1 Ty.someName), [.option]⟩, ⟨lodash, .record, [], none⟩,
    ⟨n!"some", .is, [.prim Ty.U8_CODE, .option, .tag 1], none⟩,
    ⟨n!"some", .is, [.prim Ty.U8_CODE, .option, .tag 1], none⟩, ⟨3, ?_⟩, ?_⟩
  rotate_left 1
  · cases debug <;> rfl
  · refine ShapeOf.plain (t := .struct [(n!"x", Id32.rep 11), (n!"y", Id32.rep 11)])
      (by decide +kernel) rfl (by intro r; exact nofun) (by intro n h; cases h)
      (by intro r len; exact nofun) ?_
    exact ⟨opt _, opt _, trivial⟩

/-! ## C62 -/

/-- The type shows each of its parts. -/
def Ty.HasPlaces (t : Ty SemId) : Prop :=
  (∃ vs, t = .union vs) ∨ (∃ fs, t = .struct fs) ∨ ∃ k v sz, t = .map k v sz

theorem all2_at {α β : Type} {R : α → β → Prop} {l : List α} {m : List β} (h : All2 R l m)
    {k : Nat} {a : α} {b : β} (ha : l[k]? = some a) (hb : m[k]? = some b) : R a b := by
  induction l generalizing m k with
  | nil => simp at ha
  | cons x l ih =>
    cases m with
    | nil => exact h.elim
    | cons y m =>
      cases k with
      | zero =>
        simp only [List.getElem?_cons_zero, Option.some.injEq] at ha hb
        subst ha hb; exact h.1
      | succ k => exact ih h.2 (by simpa using ha) (by simpa using hb)

theorem outline_child {H : Hash} {S : SymbolicSys} {id : SemId} {T X : LTree} (hT : Outline H S id T)
    (hX : X.Within T) (ht : X.top.ty.HasPlaces) {k : Nat} {r : SemId} {item : Option Ty.ItemCase}
    (hp : X.top.ty.places[k]? = some (r, item)) :
    ∃ c, X.kids[k]? = some c ∧ (¬ S.IsOptional r → c.top.item = item) := by
  obtain ⟨n, hT⟩ := hT
  rcases shape_within hT hX with ⟨-, h1, h2, h3⟩ | ⟨m, e, h⟩
  · rcases ht with ⟨vs, h⟩ | ⟨fs, h⟩ | ⟨k, v, sz, h⟩
    · exact absurd h (h1 _)
    · exact absurd h (h2 _)
    · exact absurd h (h3 _ _ _)
  · have hlen : X.top.ty.places.length = X.kids.length := all2_length h
    have hlt : k < X.kids.length := by
      rw [← hlen]
      rcases Nat.lt_or_ge k X.top.ty.places.length with h' | h'
      · exact h'
      · rw [List.getElem?_eq_none h'] at hp; cases hp
    refine ⟨X.kids[k], List.getElem?_eq_getElem hlt, fun ho => ?_⟩
    exact shape_item (all2_at h hp (List.getElem?_eq_getElem hlt)) ho

theorem outline_kids {H : Hash} {S : SymbolicSys} {id : SemId} {T X : LTree} (hT : Outline H S id T)
    (hX : X.Within T) (ht : X.top.ty.HasPlaces) : X.kids.length = X.top.ty.refs.length := by
  obtain ⟨n, hT⟩ := hT
  rcases shape_within hT hX with ⟨-, h1, h2, h3⟩ | ⟨m, e, h⟩
  · rcases ht with ⟨vs, h⟩ | ⟨fs, h⟩ | ⟨k, v, sz, h⟩
    · exact absurd h (h1 _)
    · exact absurd h (h2 _)
    · exact absurd h (h3 _ _ _)
  · rw [← all2_length h, ← Ty.places_map_fst, List.length_map]

/-- What a head says about the place of its item. -/
theorem toVesper_place {H : Hash} {m : Nat} {i : TypeInfo} {e : VHead} (h : i.toVesper H m = .ok e) :
    ∃ attrs, subject i.fqn i.item = .ok (e.subject, attrs) ∧
      e.attributes = attrs ++ tyAttrs i.ty ++ i.nested.flatMap nestedAttrs ++ enumAttrs i.ty ++ tagAttrs i.item := by
  unfold TypeInfo.toVesper at h
  rw [Out.bind_eq_ok] at h
  obtain ⟨⟨s, attrs⟩, hs, h⟩ := h
  dsimp only at h
  split at h
  · simp only [Out.pure_eq, Out.ok.injEq] at h
    subst h
    exact ⟨attrs, hs, rfl⟩
  · cases h

/-- The items shown below a structure are called as its fields, those below a union as its variants,
and those below a map `key` and `value`. What is missing: this fails for optional fields, see
`C62_optional_field_violated`. -/
theorem C62_names_partial (H : Hash) {m : Nat} {S : SymbolicSys} {id : SemId} {T X : LTree}
    (hT : Outline H S id T) (hX : X.Within T) :
    (∀ fs, X.top.ty = .struct fs → X.kids.length = fs.length ∧
      ∀ (k : Nat) (f : Name × SemId), fs[k]? = some f → ∃ c, X.kids[k]? = some c ∧
        (¬ S.IsOptional f.2 → ∀ e, c.top.toVesper H m = .ok e → e.subject = f.1)) ∧
    (∀ vs, X.top.ty = .union vs → X.kids.length = vs.length ∧
      ∀ (k : Nat) (v : Variant × SemId), vs[k]? = some v → ∃ c, X.kids[k]? = some c ∧
        (¬ S.IsOptional v.2 → ∀ e, c.top.toVesper H m = .ok e → e.subject = v.1.name)) ∧
    (∀ k v sz, X.top.ty = .map k v sz → ∃ ck cv, X.kids = [ck, cv] ∧
      (¬ S.IsOptional k → ∀ e, ck.top.toVesper H m = .ok e → e.subject = n!"key") ∧
      (¬ S.IsOptional v → ∀ e, cv.top.toVesper H m = .ok e → e.subject = n!"value")) := by
  refine ⟨?_, ?_, ?_⟩
  · intro fs ht
    have hp : X.top.ty.HasPlaces := .inr (.inl ⟨fs, ht⟩)
    refine ⟨by rw [outline_kids hT hX hp, ht]; simp [Ty.refs], fun k f hf => ?_⟩
    obtain ⟨c, hc, hi⟩ := outline_child hT hX hp (k := k) (r := f.2)
      (item := some (.namedField (BitVec.ofNat 8 k) f.1)) (by
        rw [ht]; simp [Ty.places, List.getElem?_map, numbered_getElem?, hf])
    refine ⟨c, hc, fun ho e he => ?_⟩
    obtain ⟨attrs, hs, -⟩ := toVesper_place he
    rw [hi ho] at hs
    simp only [subject, Out.ok.injEq, Prod.mk.injEq] at hs
    exact hs.1.symm
  · intro vs ht
    have hp : X.top.ty.HasPlaces := .inl ⟨vs, ht⟩
    refine ⟨by rw [outline_kids hT hX hp, ht]; simp [Ty.refs], fun k f hf => ?_⟩
    obtain ⟨c, hc, hi⟩ := outline_child hT hX hp (k := k) (r := f.2)
      (item := some (.unionVariant (BitVec.ofNat 8 k) f.1.name)) (by
        rw [ht]; simp [Ty.places, List.getElem?_map, numbered_getElem?, hf])
    refine ⟨c, hc, fun ho e he => ?_⟩
    obtain ⟨attrs, hs, -⟩ := toVesper_place he
    rw [hi ho] at hs
    simp only [subject, Out.ok.injEq, Prod.mk.injEq] at hs
    exact hs.1.symm
  · intro k v sz ht
    have hp : X.top.ty.HasPlaces := .inr (.inr ⟨k, v, sz, ht⟩)
    have hl := outline_kids hT hX hp
    rw [ht] at hl
    obtain ⟨ck, hck, hik⟩ := outline_child hT hX hp (k := 0) (r := k) (item := some .mapKey) (by rw [ht]; rfl)
    obtain ⟨cv, hcv, hiv⟩ := outline_child hT hX hp (k := 1) (r := v) (item := some .mapValue) (by rw [ht]; rfl)
    have hkids : X.kids = [ck, cv] := by
      match hX' : X.kids, hl with
      | [a, b], _ =>
        rw [hX'] at hck hcv
        simp only [List.getElem?_cons_zero, List.getElem?_cons_succ, Option.some.injEq] at hck hcv
        rw [hck, hcv]
    refine ⟨ck, cv, hkids, fun ho e he => ?_, fun ho e he => ?_⟩
    · obtain ⟨attrs, hs, -⟩ := toVesper_place he
      rw [hik ho] at hs
      simp only [subject, Out.ok.injEq, Prod.mk.injEq] at hs
      exact hs.1.symm
    · obtain ⟨attrs, hs, -⟩ := toVesper_place he
      rw [hiv ho] at hs
      simp only [subject, Out.ok.injEq, Prod.mk.injEq] at hs
      exact hs.1.symm

theorem shape_item_optional {H : Hash} {S : SymbolicSys} {n : Nat} {id : SemId} {d : Nat}
    {item : Option Ty.ItemCase} {nested : List NestedCase} {T : LTree}
    (h : ShapeN H S n id d item nested T) (ho : S.IsOptional id) :
    T.top.item = some (.unionVariant 1 Ty.someName) := by
  induction n generalizing id d item nested T with
  | zero => exact h.elim
  | succ n ih =>
    have hw : ∀ t, S.types.get id = some t → t.asSome ≠ none ∨ ∃ r, t = .tuple [r] ∧ S.IsOptional r := by
      intro t ht
      cases ho with
      | here h1 h2 => rw [ht, Option.some.injEq] at h1; subst h1; exact .inl (by simp [h2])
      | wrapped h1 h2 => rw [ht, Option.some.injEq] at h1; exact .inr ⟨_, h1, h2⟩
    cases h with
    | @wrapper r _ _ _ _ ht hR =>
      rcases hw _ ht with h | ⟨r', h, ho'⟩
      · simp [Ty.asSome] at h
      · simp only [Ty.tuple.injEq, List.cons.injEq, and_true] at h
        subst h
        exact ih hR ho'
    | @optional r _ _ _ t _ ht hs hR =>
      by_cases hr : S.IsOptional r
      · exact ih hR hr
      · exact shape_item hR hr
    | @text _ _ _ t _ ht hs =>
      rcases hw _ ht with h | ⟨r', h, ho'⟩
      · cases hs <;> simp [Ty.asSome] at h
      · subst h; cases hs
    | @bytes r _ _ _ len ht hb =>
      rcases hw _ ht with h | ⟨r', h, ho'⟩
      · simp [Ty.asSome] at h
      · cases h
    | @plain _ _ _ t cs ht h1 h2 h3 h4 h5 =>
      rcases hw _ ht with h | ⟨r', h, ho'⟩
      · exact absurd h1 h
      · exact absurd h (h2 r')

/-- Counterexample to the full claim: an optional field is always shown as `some`, whatever its
name. -/
theorem C62_optional_field_violated (H : Hash) {m : Nat} {S : SymbolicSys} {id r : SemId} {T X : LTree}
    (hT : Outline H S id T) (hX : X.Within T) {fs : List (Name × SemId)} (ht : X.top.ty = .struct fs)
    {k : Nat} {name : Name} (hf : fs[k]? = some (name, r)) (ho : S.IsOptional r) :
    ∃ c, X.kids[k]? = some c ∧ ∀ e, c.top.toVesper H m = .ok e → e.subject = n!"some" := by
  obtain ⟨n, hT⟩ := hT
  rcases shape_within hT hX with ⟨-, -, h2, -⟩ | ⟨l, d, h⟩
  · exact absurd ht (h2 _)
  have hlen := all2_length h
  rw [ht] at h hlen
  have hp : (Ty.struct fs).places[k]? = some (r, some (.namedField (BitVec.ofNat 8 k) name)) := by
    simp [Ty.places, List.getElem?_map, numbered_getElem?, hf]
  have hlt : k < X.kids.length := by
    rw [← hlen]
    rcases Nat.lt_or_ge k (Ty.struct fs).places.length with h' | h'
    · exact h'
    · rw [List.getElem?_eq_none h'] at hp; cases hp
  refine ⟨X.kids[k], List.getElem?_eq_getElem hlt, fun e he => ?_⟩
  have hi := shape_item_optional (all2_at h hp (List.getElem?_eq_getElem hlt)) ho
  obtain ⟨attrs, hs, -⟩ := toVesper_place he
  rw [hi] at hs
  simp only [subject, Out.ok.injEq, Prod.mk.injEq] at hs
  exact hs.1.symm

/-! ## C63 -/

theorem tag_mem_tyAttrs {tag : Byte} (t : Ty SemId) : Attr.tag tag ∉ tyAttrs t := by
  unfold tyAttrs
  repeat' split
  all_goals simp

theorem tag_mem_nestedAttrs {tag : Byte} (n : NestedCase) : Attr.tag tag ∉ nestedAttrs n := by
  unfold nestedAttrs
  split <;> simp

theorem tag_mem_enumAttrs {tag : Byte} (t : Ty SemId) : Attr.tag tag ∉ enumAttrs t := by
  unfold enumAttrs
  split <;> simp

/-- The tag shown is the position of the variant. -/
theorem outline_tag {H : Hash} {m : Nat} {S : SymbolicSys} {id : SemId} {T X : LTree}
    (hT : Outline H S id T) (hX : X.Within T) {vs : List (Variant × SemId)} (ht : X.top.ty = .union vs)
    {k : Nat} {v : Variant × SemId} (hv : vs[k]? = some v) (ho : ¬ S.IsOptional v.2) :
    ∃ c, X.kids[k]? = some c ∧ ∀ e, c.top.toVesper H m = .ok e →
      ∀ tag, Attr.tag tag ∈ e.attributes ↔ tag = BitVec.ofNat 8 k := by
  have hp : X.top.ty.HasPlaces := .inl ⟨vs, ht⟩
  obtain ⟨c, hc, hi⟩ := outline_child hT hX hp (k := k) (r := v.2)
    (item := some (.unionVariant (BitVec.ofNat 8 k) v.1.name)) (by
      rw [ht]; simp [Ty.places, List.getElem?_map, numbered_getElem?, hv])
  refine ⟨c, hc, fun e he tag => ?_⟩
  obtain ⟨attrs, hs, hat⟩ := toVesper_place he
  rw [hi ho] at hs hat
  simp only [subject, Out.ok.injEq, Prod.mk.injEq] at hs
  obtain ⟨-, hs⟩ := hs
  have hn : Attr.tag tag ∉ attrs := by
    rw [← hs]; split <;> simp
  rw [hat]
  simp [hn, tag_mem_tyAttrs, tag_mem_nestedAttrs, tag_mem_enumAttrs, tagAttrs]

/-- If the tag of a variant is its position, the tag shown for it is the tag on the wire. What is
missing: for other variants it is not, see `C63_tag_violated`. -/
theorem C63_tags_partial (H : Hash) {m : Nat} {S : SymbolicSys} {id : SemId} {T X : LTree}
    (hT : Outline H S id T) (hX : X.Within T) {vs : List (Variant × SemId)} (ht : X.top.ty = .union vs)
    {k : Nat} {v : Variant × SemId} (hv : vs[k]? = some v) (ho : ¬ S.IsOptional v.2)
    (htag : v.1.tag.toNat = k) :
    ∃ c, X.kids[k]? = some c ∧ ∀ e, c.top.toVesper H m = .ok e →
      ∀ tag, Attr.tag tag ∈ e.attributes ↔ tag = v.1.tag := by
  have htg : BitVec.ofNat 8 k = v.1.tag := by
    apply BitVec.eq_of_toNat_eq; rw [BitVec.toNat_ofNat, ← htag]
    have := v.1.tag.isLt; omega
  rw [← htg]
  exact outline_tag hT hX ht hv ho

/-- Counterexample to the full claim: the tag of any variant whose tag is not its position is not
shown, another one is shown instead. -/
theorem C63_tag_violated (H : Hash) {m : Nat} {S : SymbolicSys} {id : SemId} {T X : LTree}
    (hT : Outline H S id T) (hX : X.Within T) {vs : List (Variant × SemId)} (ht : X.top.ty = .union vs)
    {k : Nat} {v : Variant × SemId} (hv : vs[k]? = some v) (ho : ¬ S.IsOptional v.2)
    (hk : k < 256) (htag : v.1.tag.toNat ≠ k) :
    ∃ c, X.kids[k]? = some c ∧ ∀ e, c.top.toVesper H m = .ok e →
      Attr.tag v.1.tag ∉ e.attributes ∧ ∃ tag, tag ≠ v.1.tag ∧ Attr.tag tag ∈ e.attributes := by
  obtain ⟨c, hc, h⟩ := outline_tag (m := m) hT hX ht hv ho
  have hne : BitVec.ofNat 8 k ≠ v.1.tag := by
    intro h; apply htag; rw [← h, BitVec.toNat_ofNat]; omega
  refine ⟨c, hc, fun e he => ⟨?_, BitVec.ofNat 8 k, hne, (h e he _).mpr rfl⟩⟩
  rw [h e he]
  exact fun h => hne h.symm

/-! ## The example meets the hypotheses -/

theorem exLay_main_optionFree : exLay.OptionFree (Id32.rep 9) := by
  intro r t hr ht
  have hlt : exLayRank r ≤ 9 := by
    have : ∀ r, Reach exLay.types (· = Id32.rep 9) r → exLayRank r ≤ 9 := by
      intro r hr
      induction hr with
      | root h => rw [h]; decide
      | step _ h1 h2 ih => have := (exLay_outlined false).ranked _ _ h1 _ h2; omega
    exact this r hr
  have hm : (r, t) ∈ exLayTypes := OMap.get_mem ht
  have : ∀ p ∈ exLayTypes, exLayRank p.1 ≤ 9 → p.2.asSome = none := by decide +kernel
  exact this _ hm hlt

theorem exLay_isOptional {r : SemId} (h : exLay.IsOptional r) : r = Id32.rep 11 := by
  induction h with
  | @here id r t h1 h2 =>
    have : ∀ p ∈ exLayTypes, p.2.asSome ≠ none → p.1 = Id32.rep 11 := by decide +kernel
    exact this _ (OMap.get_mem h1) (by simp [h2])
  | @wrapped id r h1 _ ih =>
    subst ih
    have : ∀ p ∈ exLayTypes, p.2 ≠ .tuple [Id32.rep 11] := by decide +kernel
    exact absurd rfl (this _ (OMap.get_mem h1))

/-- The main type of the example has an outline of six items and no optional types; its layout lists
them. -/
example (debug : Bool) : (∃ T, Outline toyHash exLay (Id32.rep 9) T) ∧ exLay.OptionFree (Id32.rep 9) ∧
    ¬ exLay.IsOptional (Id32.rep 9) ∧
    (match layout toyHash debug 100 exLay (Id32.rep 9) with
    | .ok l => decide (l.length = 6 ∧
      (∀ i ∈ l, i.ty.enumSize + 3 * i.nested.length + 3 ≤ 255) ∧
      l.map TypeInfo.item = [none, some (.namedField 0 n!"name"), some (.namedField 1 n!"cases"),
        some .listItem, some (.unionVariant 0 n!"a"), some (.unionVariant 1 n!"b")])
    | _ => false) = true := by
  refine ⟨(C49_items toyHash debug (exLay_outlined debug)
      (Option.isSome_iff_exists.mp (by decide +kernel))).1, exLay_main_optionFree, fun h => ?_, ?_⟩
  · have := exLay_isOptional h; revert this; decide +kernel
  · cases debug <;> decide +kernel

/-- The optional type of the example is outlined, but no expression is made from it. -/
example (debug : Bool) : exLay.IsOptional (Id32.rep 11) ∧ (∃ T, Outline toyHash exLay (Id32.rep 11) T) ∧
    (match layout toyHash debug 100 exLay (Id32.rep 11) with
    | .ok l => match toVesper toyHash debug 255 255 l with
      | .panic => true
      | _ => false
    | _ => false) = true := by
  refine ⟨.here (t := .union [(⟨n!"none", 0⟩, Id32.rep 0), (⟨n!"some", 1⟩, Id32.rep 1)])
    (by decide +kernel) (r := Id32.rep 1) (by decide +kernel),
    (C49_items toyHash debug (exLay_outlined debug)
      (Option.isSome_iff_exists.mp (by decide +kernel))).1, ?_⟩
  cases debug <;> decide +kernel

/-- The second variant of this union has the tag 7, shown is 1. -/
example (debug : Bool) : (∃ T, Outline toyHash exLay (Id32.rep 10) T) ∧ ¬ exLay.IsOptional (Id32.rep 6) ∧
    (match layout toyHash debug 100 exLay (Id32.rep 10) with
    | .ok [_, _, b] => match b.toVesper toyHash 255 with
      | .ok e => decide (e.subject = n!"b" ∧ Attr.tag 1 ∈ e.attributes ∧ Attr.tag 7 ∉ e.attributes)
      | _ => false
    | _ => false) = true := by
  refine ⟨(C49_items toyHash debug (exLay_outlined debug)
      (Option.isSome_iff_exists.mp (by decide +kernel))).1, fun h => ?_, ?_⟩
  · have := exLay_isOptional h; revert this; decide +kernel
  · cases debug <;> decide +kernel

end Verif
