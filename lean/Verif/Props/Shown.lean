import Verif.Spec.Shown
import Verif.Props.Layout

/-!
# C89: what layouts show of types
-/

namespace Verif

variable {H : Hash} {S : SymbolicSys}

/-- A wrapper or an option. -/
def NestedCase.layer? : NestedCase → Option (Option (Option Name))
  | .newType f => some (some (f.map TypeFqn.name))
  | .option => some none
  | _ => none

theorem shownAs_layer {t : Ty SemId} {n : NestedCase} (h : ShownAs S t n) : n.layer? = none := by cases h <;> rfl

theorem shownAs_unique {t : Ty SemId} {n n' : NestedCase} (h : ShownAs S t n) (h' : ShownAs S t n') : n = n' := by
  cases h with
  | ascii h1 => cases h' with
    | ascii => rfl
    | bytes h2 => rw [h1] at h2; cases h2
    | unicode h2 => rw [h1] at h2; cases h2
  | bytes h1 => cases h' with
    | ascii h2 => rw [h1] at h2; cases h2
    | bytes => rfl
    | unicode h2 => rw [h1] at h2; cases h2
  | unicode h1 => cases h' with
    | ascii h2 => rw [h1] at h2; cases h2
    | bytes h2 => rw [h1] at h2; cases h2
    | unicode => rfl
  | rstring _ _ h1 => cases h' with
    | rstring _ _ h2 => rw [h1] at h2; cases h2; rfl

/-- The last of the nested cases tells about the type, the others are layers. -/
def Ends (S : SymbolicSys) (t : Ty SemId) (ws nested : List NestedCase) : Prop :=
  (∀ w ∈ ws, ∃ l, w.layer? = some l) ∧
  ((∃ n, nested = ws ++ [n] ∧ ShownAs S t n) ∨ (nested = ws ∧ ∀ n, ¬ ShownAs S t n))

theorem shape_top {n : Nat} {id : SemId} {d : Nat} {item : Option Ty.ItemCase} {nested : List NestedCase} {T : LTree}
    (h : ShapeN H S n id d item nested T) (hn : ∀ w ∈ nested, ∃ l, w.layer? = some l) :
    ∃ i l ws, Leads S id l i ∧ S.types.get i = some T.top.ty ∧ T.top.fqn = S.lookup i ∧
      ws.filterMap NestedCase.layer? = nested.filterMap NestedCase.layer? ++ l ∧ Ends S T.top.ty ws T.top.nested := by
  induction n generalizing id d item nested T with
  | zero => exact h.elim
  | succ n ih =>
    cases h with
    | wrapper ht hR =>
      obtain ⟨i, l, ws, h1, h2, h3, h4, h5⟩ := ih hR (by
        intro w hw
        rcases List.mem_append.1 hw with hw | hw
        · exact hn w hw
        · rw [List.mem_singleton] at hw; subst hw; exact ⟨_, rfl⟩)
      refine ⟨i, _, ws, .wrapper ht h1, h2, h3, ?_, h5⟩
      rw [h4, List.filterMap_append]
      simp [NestedCase.layer?]
    | optional ht hs hR =>
      obtain ⟨i, l, ws, h1, h2, h3, h4, h5⟩ := ih hR (by
        intro w hw
        rcases List.mem_append.1 hw with hw | hw
        · exact hn w hw
        · rw [List.mem_singleton] at hw; subst hw; exact ⟨_, rfl⟩)
      refine ⟨i, _, ws, .option ht hs h1, h2, h3, ?_, h5⟩
      rw [h4, List.filterMap_append]
      simp [NestedCase.layer?]
    | text ht hs => exact ⟨_, [], nested, .here, ht, rfl, by simp, hn, .inl ⟨_, rfl, hs⟩⟩
    | bytes ht hb => exact ⟨_, [], nested, .here, ht, rfl, by simp, hn, .inr ⟨rfl, fun n h => by cases h⟩⟩
    | plain ht h1 h2 h3 h4 h5 => exact ⟨_, [], nested, .here, ht, rfl, by simp, hn, .inr ⟨rfl, h3⟩⟩

/-- Every item is the top of an outline of its own, without wrappers around it that belong to another item. -/
theorem shape_sub {n : Nat} {id : SemId} {d : Nat} {item : Option Ty.ItemCase} {nested : List NestedCase} {T X : LTree}
    (h : ShapeN H S n id d item nested T) (hn : ∀ w ∈ nested, ∃ l, w.layer? = some l) (hX : X.Within T) :
    ∃ m i e it ns, ShapeN H S m i e it ns X ∧ ∀ w ∈ ns, ∃ l, w.layer? = some l := by
  induction n generalizing id d item nested T with
  | zero => exact h.elim
  | succ n ih =>
    cases hX with
    | refl => exact ⟨_, _, _, _, _, h, hn⟩
    | down hc hX' =>
      cases h with
      | wrapper ht hR =>
        exact ih hR (by
          intro w hw
          rcases List.mem_append.1 hw with hw | hw
          · exact hn w hw
          · rw [List.mem_singleton] at hw; subst hw; exact ⟨_, rfl⟩) (.down hc hX')
      | optional ht hs hR =>
        exact ih hR (by
          intro w hw
          rcases List.mem_append.1 hw with hw | hw
          · exact hn w hw
          · rw [List.mem_singleton] at hw; subst hw; exact ⟨_, rfl⟩) (.down hc hX')
      | text => cases hc
      | bytes => cases hc
      | plain ht h1 h2 h3 h4 h5 =>
        obtain ⟨p, hp, hR⟩ := all2_right h5 hc
        exact ih hR (by simp) hX'

/-- The attributes which tell the place of an item. -/
theorem subject_typeNames {fqn : Option TypeFqn} {item : Option Ty.ItemCase} {n : Name} {attrs : List Attr}
    (h : subject fqn item = .ok (n, attrs)) : ∀ a ∈ attrs, ∃ m, a = .typeName m := by
  unfold subject at h
  intro a ha
  dsimp only at h
  repeat' split at h
  all_goals first
    | cases h; done
    | (simp only [Out.ok.injEq, Prod.mk.injEq] at h
       obtain ⟨-, rfl⟩ := h
       simp_all)

theorem layer_attrs {ws : List NestedCase} (hw : ∀ w ∈ ws, ∃ l, w.layer? = some l) :
    (ws.flatMap nestedAttrs).filterMap Attr.layer? = ws.filterMap NestedCase.layer? ∧
    ∀ a ∈ ws.flatMap nestedAttrs, a.layer? ≠ none := by
  induction ws with
  | nil => simp
  | cons w ws ih =>
    obtain ⟨h1, h2⟩ := ih fun x hx => hw x (List.mem_cons_of_mem _ hx)
    obtain ⟨l, hl⟩ := hw w List.mem_cons_self
    have hw' : (nestedAttrs w).filterMap Attr.layer? = [l] ∧ ∀ a ∈ nestedAttrs w, a.layer? ≠ none := by
      cases w <;> simp_all [NestedCase.layer?, nestedAttrs, Attr.layer?]
    rw [List.flatMap_cons, List.filterMap_append, h1, hw'.1, List.filterMap_cons, hl]
    refine ⟨rfl, fun a ha => ?_⟩
    rcases List.mem_append.1 ha with ha | ha
    · exact hw'.2 a ha
    · exact h2 a ha

theorem layer_pred {ws : List NestedCase} (hw : ∀ w ∈ ws, ∃ l, w.layer? = some l) (p : Pred) : ws.foldl nestedPred p = p := by
  induction ws with
  | nil => rfl
  | cons w ws ih =>
    obtain ⟨l, hl⟩ := hw w List.mem_cons_self
    rw [List.foldl_cons]
    have : nestedPred p w = p := by cases w <;> simp_all [NestedCase.layer?, nestedPred]
    rw [this]
    exact ih fun x hx => hw x (List.mem_cons_of_mem _ hx)

theorem toVesper_pred {m : Nat} {i : TypeInfo} {e : VHead} (h : i.toVesper H m = .ok e) :
    e.predicate = i.nested.foldl nestedPred (if i.ty.isCharEnum then Pred.char
      else if i.ty.isByteArray H then .bytes else Pred.ofCls i.ty.cls) := by
  unfold TypeInfo.toVesper at h
  rw [Out.bind_eq_ok] at h
  obtain ⟨⟨s, attrs⟩, hs, h⟩ := h
  dsimp only at h
  split at h
  · simp only [Out.pure_eq, Out.ok.injEq] at h
    subst h; rfl
  · cases h

theorem tells_kind {m : Nat} {i : TypeInfo} {e : VHead} {ws : List NestedCase} (h : i.toVesper H m = .ok e)
    (hE : Ends S i.ty ws i.nested) : KindOf H S i.ty e.predicate := by
  rw [toVesper_pred h]
  obtain ⟨hw, ⟨n, hn, hs⟩ | ⟨hn, hs⟩⟩ := hE
  · rw [hn, List.foldl_append, layer_pred hw]
    show KindOf H S i.ty (nestedPred _ n)
    cases n with
    | asciiStr f => exact .ascii hs
    | rStr f g sz => exact .rstring hs
    | byteStr => exact .byteList hs
    | uniStr => exact .unicodeList hs
    | newType => exact nomatch shownAs_layer hs
    | option => exact nomatch shownAs_layer hs
  · rw [hn, layer_pred hw]
    have hc := isCharEnum_iff_chars (t := i.ty)
    have hb := isByteArray_iff (H := H) (t := i.ty)
    cases ht : i.ty with
    | enum vs =>
      rw [ht] at hc
      split
      · rename_i h'; obtain ⟨C, h1, h2⟩ := hc.1 h'; cases h1; exact .char h2
      · rename_i h'; exact .enum fun h2 => h' (hc.2 ⟨_, rfl, h2⟩)
    | array r len =>
      rw [ht] at hb
      rw [if_neg (by simp [Ty.isCharEnum])]
      split
      · rename_i h'; obtain ⟨_, _, h1, h2⟩ := hb.1 h'; cases h1; exact .byteArray h2
      · rename_i h'; exact .array fun h2 => h' (hb.2 ⟨_, _, rfl, h2⟩)
    | list r sz => exact .list (ht ▸ hs)
    | tuple rs => exact .tuple (ht ▸ hs)
    | set => exact .set
    | map => exact .map
    | struct => exact .struct
    | union => exact .union
    | primitive => exact .primitive
    | unicodeChar => exact .unicodeChar

/-- Where an attribute comes from, other than those of the place and of wrappers. -/
theorem attr_iff {m : Nat} {i : TypeInfo} {e : VHead} {ws : List NestedCase} (h : i.toVesper H m = .ok e)
    (hE : Ends S i.ty ws i.nested) {a : Attr} (h1 : ∀ n, a ≠ .typeName n) (h2 : a.layer? = none) (h3 : ∀ t, a ≠ .tag t) :
    a ∈ e.attributes ↔ a ∈ tyAttrs i.ty ∨ (∃ n, ShownAs S i.ty n ∧ a ∈ nestedAttrs n) ∨ a ∈ enumAttrs i.ty := by
  obtain ⟨attrs, hs, he⟩ := toVesper_place h
  have n1 : a ∉ attrs := fun ha => (subject_typeNames hs a ha).elim fun n hn => h1 n hn
  have n3 : a ∉ tagAttrs i.item := by
    unfold tagAttrs
    split
    · simp [h3]
    · simp
  have hn : a ∈ i.nested.flatMap nestedAttrs ↔ ∃ n, ShownAs S i.ty n ∧ a ∈ nestedAttrs n := by
    obtain ⟨hw, ⟨n, hn, hsh⟩ | ⟨hn, hsh⟩⟩ := hE
    · have nw : a ∉ ws.flatMap nestedAttrs := fun ha => (layer_attrs hw).2 a ha h2
      rw [hn, List.flatMap_append, List.mem_append]
      constructor
      · rintro (ha | ha)
        · exact absurd ha nw
        · exact ⟨n, hsh, by simpa using ha⟩
      · rintro ⟨n', hsh', ha⟩
        rw [shownAs_unique hsh' hsh] at ha
        exact .inr (by simpa using ha)
    · have nw : a ∉ ws.flatMap nestedAttrs := fun ha => (layer_attrs hw).2 a ha h2
      rw [hn]
      exact ⟨fun ha => absurd ha nw, fun ⟨n, h', _⟩ => absurd h' (hsh n)⟩
  rw [he]
  simp only [List.mem_append, hn]
  constructor
  · rintro ((((h | h) | h) | h) | h)
    · exact absurd h n1
    · exact .inl h
    · exact .inr (.inl h)
    · exact .inr (.inr h)
    · exact absurd h n3
  · rintro (h | h | h)
    · exact .inl (.inl (.inl (.inr h)))
    · exact .inl (.inl (.inr h))
    · exact .inl (.inr h)

theorem tells {m : Nat} {i : TypeInfo} {e : VHead} {ws : List NestedCase} (h : i.toVesper H m = .ok e)
    (hE : Ends S i.ty ws i.nested) : Tells H S i.ty e := by
  have ha := @attr_iff H S m i e ws h hE
  refine ⟨tells_kind h hE, ?_, ?_, ?_, ?_, ?_, ?_, ?_, ?_⟩
  · intro a b
    rw [ha (by simp) rfl (by simp)]
    constructor
    · rintro (h | ⟨n, hs, h⟩ | h)
      · revert h
        cases i.ty <;> simp only [tyAttrs] <;> intro h
        case primitive p => split at h <;> simp at h
        all_goals first
          | (simp only [List.mem_cons, Attr.lenRange.injEq, List.not_mem_nil, or_false] at h
             obtain ⟨rfl, rfl⟩ := h
             constructor)
          | simp at h
      · cases n with
        | rStr f g sz =>
          simp [nestedAttrs] at h
          rw [h.1, h.2]
          exact .rstring hs
        | _ => simp [nestedAttrs] at h
      · revert h; cases i.ty <;> simp [enumAttrs]
    · intro hb
      generalize i.ty = t at *
      cases hb with
      | list => exact .inl (by simp [tyAttrs])
      | set => exact .inl (by simp [tyAttrs])
      | map => exact .inl (by simp [tyAttrs])
      | rstring hs => exact .inr (.inl ⟨_, hs, by simp [nestedAttrs]⟩)
  · intro n
    rw [ha (by simp) rfl (by simp)]
    constructor
    · rintro (h | ⟨n, hs, h⟩ | h)
      · revert h; cases i.ty <;> simp [tyAttrs]
        · split <;> simp
        · exact Eq.symm
      · cases n <;> simp [nestedAttrs] at h
      · revert h; cases i.ty <;> simp [enumAttrs]
    · rintro ⟨r, h⟩
      exact .inl (by rw [h]; simp [tyAttrs])
  · intro n tag
    rw [ha (by simp) rfl (by simp)]
    constructor
    · rintro (h | ⟨n, hs, h⟩ | h)
      · revert h; cases i.ty <;> simp [tyAttrs]
        split <;> simp
      · cases n <;> simp [nestedAttrs] at h
      · cases ht : i.ty with
        | enum vs =>
          rw [ht] at h
          simp only [enumAttrs, List.mem_map, Attr.enumVariant.injEq] at h
          obtain ⟨v, hv, rfl, rfl⟩ := h
          exact ⟨vs, rfl, hv⟩
        | _ => rw [ht] at h; simp [enumAttrs] at h
    · rintro ⟨vs, h, hv⟩
      refine .inr (.inr ?_)
      rw [h]
      exact List.mem_map.2 ⟨_, hv, rfl⟩
  · intro p
    rw [ha (by simp) rfl (by simp)]
    constructor
    · rintro (h | ⟨n, hs, h⟩ | h)
      · cases ht : i.ty with
        | primitive q =>
          rw [ht] at h
          simp only [tyAttrs] at h
          split at h
          · simp at h
          · rename_i hq
            simp only [List.mem_cons, Attr.prim.injEq, List.not_mem_nil, or_false] at h
            subst h; exact ⟨rfl, hq⟩
        | _ => rw [ht] at h; simp [tyAttrs] at h
      · cases n <;> simp [nestedAttrs] at h
      · revert h; cases i.ty <;> simp [enumAttrs]
    · rintro ⟨h, hp⟩
      exact .inl (by rw [h]; simp [tyAttrs, hp])
  · rw [ha (by simp) rfl (by simp)]
    constructor
    · rintro (h | ⟨n, hs, h⟩ | h)
      · cases ht : i.ty with
        | primitive q =>
          rw [ht] at h
          simp only [tyAttrs] at h
          split at h
          · rename_i hq; rw [hq]
          · simp at h
        | _ => rw [ht] at h; simp [tyAttrs] at h
      · cases n <;> simp [nestedAttrs] at h
      · revert h; cases i.ty <;> simp [enumAttrs]
    · intro h
      exact .inl (by rw [h]; simp [tyAttrs])
  · intro n
    rw [ha (by simp) rfl (by simp)]
    constructor
    · rintro (h | ⟨k, hs, h⟩ | h)
      · revert h; cases i.ty <;> simp [tyAttrs]
        split <;> simp
      · generalize i.ty = t at *
        cases hs with
        | ascii h1 h2 =>
          simp only [nestedAttrs, Option.mem_toList, Option.map_eq_some_iff, Attr.asciiEnum.injEq] at h
          exact ⟨_, _, _, rfl, h1, h2, h⟩
        | _ => simp [nestedAttrs] at h
      · revert h; cases i.ty <;> simp [enumAttrs]
    · rintro ⟨r, sz, C, h, h1, h2, f, hf, rfl⟩
      refine .inr (.inl ⟨_, by rw [h]; exact .ascii h1 h2, ?_⟩)
      simp [nestedAttrs, hf]
  · intro n
    rw [ha (by simp) rfl (by simp)]
    constructor
    · rintro (h | ⟨k, hs, h⟩ | h)
      · revert h; cases i.ty <;> simp [tyAttrs]
        split <;> simp
      · generalize i.ty = t at *
        cases hs with
        | rstring h1 h2 h3 h4 h5 =>
          simp only [nestedAttrs, List.mem_append, Option.mem_toList, Option.map_eq_some_iff, Attr.asciiFirst.injEq,
            reduceCtorEq, and_false, exists_false, List.mem_cons, List.not_mem_nil, or_false] at h
          exact ⟨_, _, _, _, _, _, rfl, h1, h2, h3, h4, h5, h⟩
        | _ => simp [nestedAttrs] at h
      · revert h; cases i.ty <;> simp [enumAttrs]
    · rintro ⟨a, b, r, sz, A, C, h, h1, h2, h3, h4, h5, f, hf, rfl⟩
      refine .inr (.inl ⟨_, by rw [h]; exact .rstring h1 h2 h3 h4 h5, ?_⟩)
      simp [nestedAttrs, hf]
  · intro n
    rw [ha (by simp) rfl (by simp)]
    constructor
    · rintro (h | ⟨k, hs, h⟩ | h)
      · revert h; cases i.ty <;> simp [tyAttrs]
        split <;> simp
      · generalize i.ty = t at *
        cases hs with
        | rstring h1 h2 h3 h4 h5 =>
          simp only [nestedAttrs, List.mem_append, Option.mem_toList, Option.map_eq_some_iff, Attr.asciiRest.injEq,
            reduceCtorEq, and_false, exists_false, List.mem_cons, List.not_mem_nil, or_false, false_or] at h
          exact ⟨_, _, _, _, _, _, rfl, h1, h2, h3, h4, h5, h⟩
        | _ => simp [nestedAttrs] at h
      · revert h; cases i.ty <;> simp [enumAttrs]
    · rintro ⟨a, b, r, sz, A, C, h, h1, h2, h3, h4, h5, f, hf, rfl⟩
      refine .inr (.inl ⟨_, by rw [h]; exact .rstring h1 h2 h3 h4 h5, ?_⟩)
      simp [nestedAttrs, hf]

theorem layers {m : Nat} {i : TypeInfo} {e : VHead} {ws : List NestedCase} (h : i.toVesper H m = .ok e)
    (hE : Ends S i.ty ws i.nested) : e.attributes.filterMap Attr.layer? = ws.filterMap NestedCase.layer? := by
  obtain ⟨attrs, hs, he⟩ := toVesper_place h
  have none : ∀ {l : List Attr}, (∀ a ∈ l, a.layer? = .none) → l.filterMap Attr.layer? = [] := by
    intro l hl; exact List.filterMap_eq_nil_iff.2 hl
  rw [he]
  simp only [List.filterMap_append]
  rw [none (l := attrs), none (l := tyAttrs i.ty), none (l := enumAttrs i.ty), none (l := tagAttrs i.item)]
  · simp only [List.nil_append, List.append_nil]
    obtain ⟨hw, ⟨n, hn, hsh⟩ | ⟨hn, hsh⟩⟩ := hE
    · rw [hn, List.flatMap_append, List.filterMap_append, (layer_attrs hw).1]
      rw [none (l := [n].flatMap nestedAttrs), List.append_nil]
      intro a ha
      generalize i.ty = t at hsh
      cases hsh <;> simp [nestedAttrs] at ha
      · obtain ⟨_, _, rfl⟩ := ha; rfl
      · rcases ha with ⟨_, _, rfl⟩ | ⟨_, _, rfl⟩ | rfl <;> rfl
    · rw [hn, (layer_attrs hw).1]
  · intro a ha
    unfold tagAttrs at ha
    split at ha
    · rw [List.mem_singleton] at ha; subst ha; rfl
    · cases ha
  · intro a ha
    unfold enumAttrs at ha
    split at ha
    · obtain ⟨v, -, rfl⟩ := List.mem_map.1 ha; rfl
    · cases ha
  · intro a ha
    unfold tyAttrs at ha
    repeat' split at ha
    all_goals first
      | (rw [List.mem_singleton] at ha; subst ha; rfl)
      | cases ha
  · intro a ha
    obtain ⟨n, rfl⟩ := subject_typeNames hs a ha
    rfl

theorem shape_leads {m n : Nat} {id : SemId} {d : Nat} {item : Option Ty.ItemCase} {T : LTree}
    (h : ShapeN H S n id d item [] T) {e : VHead} (he : T.top.toVesper H m = .ok e) :
    ∃ i, Leads S id (e.attributes.filterMap Attr.layer?) i ∧ S.types.get i = some T.top.ty ∧ T.top.fqn = S.lookup i := by
  obtain ⟨i, l, ws, h1, h2, h3, h4, h5⟩ := shape_top h (by simp)
  rw [layers he h5, h4]
  exact ⟨i, by simpa using h1, h2, h3⟩

/-- **C89**: every item of a layout tells the kind of a type of the system, its bounds or length, the values of an
enumeration, and the character sets of a string by their names; and nothing of this kind which is not so. -/
theorem C89_tells (H : Hash) {m : Nat} {S : SymbolicSys} {id : SemId} {T X : LTree} (hT : Outline H S id T)
    (hX : X.Within T) (e : VHead) (he : X.top.toVesper H m = .ok e) :
    (∃ i, S.types.get i = some X.top.ty) ∧ Tells H S X.top.ty e := by
  obtain ⟨n, hT⟩ := hT
  obtain ⟨_, _, _, _, _, h, hn⟩ := shape_sub hT (by simp) hX
  obtain ⟨i, l, ws, h1, h2, h3, h4, h5⟩ := shape_top h hn
  exact ⟨⟨i, h2⟩, tells he h5⟩

/-- **C89**: the first item is that of the type behind the wrappers and options of the given one, and lists them with
their names, outermost first. -/
theorem C89_top (H : Hash) {m : Nat} {S : SymbolicSys} {id : SemId} {T : LTree} (hT : Outline H S id T) (e : VHead)
    (he : T.top.toVesper H m = .ok e) :
    ∃ i, Leads S id (e.attributes.filterMap Attr.layer?) i ∧ S.types.get i = some T.top.ty ∧ T.top.fqn = S.lookup i := by
  obtain ⟨n, hT⟩ := hT
  exact shape_leads hT he

/-- **C89**: the same holds of the items below any item, which stand for the references of its type in order. -/
theorem C89_below (H : Hash) {m : Nat} {S : SymbolicSys} {id : SemId} {T X : LTree} (hT : Outline H S id T)
    (hX : X.Within T) : X.kids = [] ∨ All2 (fun r c => ∀ e, c.top.toVesper H m = .ok e →
      ∃ i, Leads S r (e.attributes.filterMap Attr.layer?) i ∧ S.types.get i = some c.top.ty ∧ c.top.fqn = S.lookup i)
      X.top.ty.refs X.kids := by
  obtain ⟨n, hT⟩ := hT
  rcases shape_within hT hX with ⟨h, -⟩ | ⟨k, d, h⟩
  · exact .inl h
  · right
    rw [← Ty.places_map_fst]
    generalize X.top.ty.places = ps at h
    generalize X.kids = cs at h
    induction ps generalizing cs with
    | nil => cases cs with
      | nil => trivial
      | cons => exact h.elim
    | cons p ps ih => cases cs with
      | nil => exact h.elim
      | cons c cs => exact ⟨fun e he => shape_leads h.1 he, ih _ h.2⟩

theorem typeName_tyAttrs {n : Name} (t : Ty SemId) : Attr.typeName n ∉ tyAttrs t := by
  unfold tyAttrs
  repeat' split
  all_goals simp

theorem typeName_nestedAttrs {n : Name} (c : NestedCase) : Attr.typeName n ∉ nestedAttrs c := by
  unfold nestedAttrs
  split <;> simp

theorem typeName_enumAttrs {n : Name} (t : Ty SemId) : Attr.typeName n ∉ enumAttrs t := by
  unfold enumAttrs
  split <;> simp

theorem typeName_tagAttrs {n : Name} (c : Option Ty.ItemCase) : Attr.typeName n ∉ tagAttrs c := by
  unfold tagAttrs
  split <;> simp

/-- **C89**: an item is shown under the name of its place, or else of its type; if the place has a name, the name of the
type (other than `_`) is listed beside it. Nothing is shown for unnamed fields of unnamed types: this panics. -/
theorem C89_names (H : Hash) {m : Nat} (i : TypeInfo) :
    (∀ e, i.toVesper H m = .ok e → Headed i.fqn i.item e.subject ∧ e.comment = none ∧
      ∀ n, Attr.typeName n ∈ e.attributes ↔
        (∃ c p, i.item = some c ∧ NamedPlace c p) ∧ ∃ f, i.fqn = some f ∧ f.name = n ∧ n ≠ n!"_") ∧
    (∀ p, i.item = some (.unnamedField p) → (∀ f, i.fqn = some f → f.name = n!"_") → i.toVesper H m = .panic) := by
  constructor
  · intro e he
    have hcm : e.comment = none := by
      unfold TypeInfo.toVesper at he
      rw [Out.bind_eq_ok] at he
      obtain ⟨⟨s, attrs⟩, hs, he⟩ := he
      dsimp only at he
      split at he
      · simp only [Out.pure_eq, Out.ok.injEq] at he
        subst he; rfl
      · cases he
    obtain ⟨attrs, hs, hat⟩ := toVesper_place he
    have hmem : ∀ n, Attr.typeName n ∈ e.attributes ↔ Attr.typeName n ∈ attrs := by
      intro n
      rw [hat]
      simp [typeName_tyAttrs, typeName_nestedAttrs, typeName_enumAttrs, typeName_tagAttrs]
    have hnn : ∀ (c : Option Ty.ItemCase), (∀ p n, c = some p → ¬ NamedPlace p n) →
        ¬ ∃ q p, c = some q ∧ NamedPlace q p := fun c hc ⟨q, p, h, h'⟩ => hc q p h h'
    have hnamed : ∀ n, Attr.typeName n ∈ (if (i.fqn.map TypeFqn.name).getD n!"_" ≠ n!"_" then
        [Attr.typeName ((i.fqn.map TypeFqn.name).getD n!"_")] else []) ↔ ∃ f, i.fqn = some f ∧ f.name = n ∧ n ≠ n!"_" := by
      intro n
      cases i.fqn with
      | none => simp
      | some f =>
        by_cases hf : f.name = n!"_"
        · simp [hf]
          intro h; exact h.symm
        · simp [hf]
          constructor
          · rintro rfl; exact ⟨rfl, hf⟩
          · rintro ⟨h, -⟩; exact h.symm
    have hplace : ∀ {c : Ty.ItemCase} {p : Name}, NamedPlace c p → i.item = some c →
        (subject i.fqn i.item = .ok (p, if (i.fqn.map TypeFqn.name).getD n!"_" ≠ n!"_" then
          [Attr.typeName ((i.fqn.map TypeFqn.name).getD n!"_")] else [])) →
        Headed i.fqn i.item e.subject ∧ e.comment = none ∧ ∀ n, Attr.typeName n ∈ e.attributes ↔
          (∃ c p, i.item = some c ∧ NamedPlace c p) ∧ ∃ f, i.fqn = some f ∧ f.name = n ∧ n ≠ n!"_" := by
      intro c p hp hi hs'
      rw [hs] at hs'
      simp only [Out.ok.injEq, Prod.mk.injEq] at hs'
      obtain ⟨h1, h2⟩ := hs'
      refine ⟨by rw [hi, h1]; exact .place hp, hcm, fun n => ?_⟩
      rw [hmem, h2, hnamed]
      exact ⟨fun h => ⟨⟨c, p, hi, hp⟩, h⟩, fun h => h.2⟩
    have hplain : (∀ p n, i.item = some p → ¬ NamedPlace p n) → attrs = [] → Headed i.fqn i.item e.subject →
        Headed i.fqn i.item e.subject ∧ e.comment = none ∧ ∀ n, Attr.typeName n ∈ e.attributes ↔
          (∃ c p, i.item = some c ∧ NamedPlace c p) ∧ ∃ f, i.fqn = some f ∧ f.name = n ∧ n ≠ n!"_" := by
      intro hno ha hh
      refine ⟨hh, hcm, fun n => ?_⟩
      rw [hmem, ha]
      exact ⟨fun h => (by cases h), fun h => absurd h.1 (hnn _ hno)⟩
    cases hi : i.item with
    | none =>
      have hno : ∀ p n, i.item = some p → ¬ NamedPlace p n := by rw [hi]; nofun
      rw [hi] at hs
      simp only [subject, Out.ok.injEq, Prod.mk.injEq] at hs
      rw [← hi]
      refine hplain hno hs.2.symm ?_
      rw [← hs.1]
      cases hf : i.fqn with
      | none => rw [hi]; exact .root rfl
      | some f => exact .type rfl hno
    | some c =>
      rw [← hi]
      cases c with
      | namedField p n => exact hplace (.field p n) hi (by rw [hi]; rfl)
      | unionVariant p n => exact hplace (.variant p n) hi (by rw [hi]; rfl)
      | mapKey =>
        refine hplace .key hi ?_
        rw [hi]
        cases i.fqn with
        | none => rfl
        | some f => rfl
      | mapValue =>
        refine hplace .value hi ?_
        rw [hi]
        cases i.fqn with
        | none => rfl
        | some f => rfl
      | unnamedField p =>
        have hno : ∀ p n, i.item = some p → ¬ NamedPlace p n := by rw [hi]; rintro _ n ⟨⟩ ⟨⟩
        rw [hi] at hs
        simp only [subject] at hs
        split at hs
        · cases hs
        · rename_i hne
          simp only [Out.ok.injEq, Prod.mk.injEq] at hs
          refine hplain hno hs.2.symm ?_
          rw [← hs.1]
          cases hf : i.fqn with
          | none => rw [hf] at hne; exact absurd rfl hne
          | some f => exact .type rfl hno
      | arrayItem =>
        have hno : ∀ p n, i.item = some p → ¬ NamedPlace p n := by rw [hi]; rintro _ n ⟨⟩ ⟨⟩
        rw [hi] at hs
        simp only [subject, Out.ok.injEq, Prod.mk.injEq] at hs
        refine hplain hno hs.2.symm ?_
        rw [← hs.1]
        cases hf : i.fqn with
        | none => rw [hi]; exact .arrayItem rfl
        | some f => exact .type rfl hno
      | listItem =>
        have hno : ∀ p n, i.item = some p → ¬ NamedPlace p n := by rw [hi]; rintro _ n ⟨⟩ ⟨⟩
        rw [hi] at hs
        simp only [subject, Out.ok.injEq, Prod.mk.injEq] at hs
        refine hplain hno hs.2.symm ?_
        rw [← hs.1]
        cases hf : i.fqn with
        | none => rw [hi]; exact .listItem rfl
        | some f => exact .type rfl hno
      | setItem =>
        have hno : ∀ p n, i.item = some p → ¬ NamedPlace p n := by rw [hi]; rintro _ n ⟨⟩ ⟨⟩
        rw [hi] at hs
        simp only [subject, Out.ok.injEq, Prod.mk.injEq] at hs
        refine hplain hno hs.2.symm ?_
        rw [← hs.1]
        cases hf : i.fqn with
        | none => rw [hi]; exact .setItem rfl
        | some f => exact .type rfl hno
  · intro p hp hf
    unfold TypeInfo.toVesper
    rw [hp]
    have : subject i.fqn (some (.unnamedField p)) = .panic := by
      simp only [subject]
      rw [if_pos]
      cases hq : i.fqn with
      | none => rfl
      | some f => exact hf f hq
    rw [this]
    rfl

/-- A field of a named type, an item of a list of an unnamed type and a field which cannot be shown. -/
example : (TypeInfo.toVesper toyHash 255 ⟨1, .primitive 1, some ⟨n!"Lib", n!"Age"⟩, some (.namedField 0 n!"age"), []⟩ =
      .ok ⟨n!"age", .is, [.typeName n!"Age", .prim 1], none⟩) ∧
    (TypeInfo.toVesper toyHash 255 ⟨1, .primitive 1, none, some .listItem, []⟩ = .ok ⟨n!"element", .is, [.prim 1], none⟩) ∧
    TypeInfo.toVesper toyHash 255 ⟨1, .primitive 1, none, some (.unnamedField 0), []⟩ = .panic := by
  decide +kernel

/-- **C89**: the kind is determined by the type. -/
theorem C89_kind_unique (H : Hash) (S : SymbolicSys) (t : Ty SemId) (p q : Pred) (hp : KindOf H S t p) (hq : KindOf H S t q) :
    p = q := by
  have no : ∀ {n}, ShownAs S t n → (∀ n, ¬ ShownAs S t n) → False := fun h h' => h' _ h
  cases hp with
  | ascii h => cases hq with
    | ascii => rfl
    | rstring => rfl
    | byteList h' => cases shownAs_unique h h'
    | unicodeList h' => cases shownAs_unique h h'
    | list h' => exact (no h h').elim
    | tuple h' => exact (no h h').elim
    | _ => cases h
  | rstring h => cases hq with
    | ascii => rfl
    | rstring => rfl
    | byteList h' => cases shownAs_unique h h'
    | unicodeList h' => cases shownAs_unique h h'
    | list h' => exact (no h h').elim
    | tuple h' => exact (no h h').elim
    | _ => cases h
  | byteList h => cases hq with
    | ascii h' => cases shownAs_unique h h'
    | rstring h' => cases shownAs_unique h h'
    | unicodeList h' => cases shownAs_unique h h'
    | byteList => rfl
    | list h' => exact (no h h').elim
    | tuple h' => exact (no h h').elim
    | _ => cases h
  | unicodeList h => cases hq with
    | ascii h' => cases shownAs_unique h h'
    | rstring h' => cases shownAs_unique h h'
    | byteList h' => cases shownAs_unique h h'
    | unicodeList => rfl
    | list h' => exact (no h h').elim
    | tuple h' => exact (no h h').elim
    | _ => cases h
  | char h => cases hq with
    | char => rfl
    | enum h' => exact absurd h h'
    | ascii h' | rstring h' | byteList h' | unicodeList h' => cases h'
  | enum h => cases hq with
    | enum => rfl
    | char h' => exact absurd h' h
    | ascii h' | rstring h' | byteList h' | unicodeList h' => cases h'
  | byteArray h => cases hq with
    | byteArray => rfl
    | array h' => exact absurd h h'
    | ascii h' | rstring h' | byteList h' | unicodeList h' => cases h'
  | array h => cases hq with
    | array => rfl
    | byteArray h' => exact absurd h' h
    | ascii h' | rstring h' | byteList h' | unicodeList h' => cases h'
  | list h => cases hq with
    | list => rfl
    | ascii h' | rstring h' | byteList h' | unicodeList h' => exact (no h' h).elim
  | tuple h => cases hq with
    | tuple => rfl
    | ascii h' | rstring h' | byteList h' | unicodeList h' => exact (no h' h).elim
  | set | map | struct | union | primitive | unicodeChar => cases hq with
    | ascii h' | rstring h' | byteList h' | unicodeList h' => cases h'
    | _ => rfl

/-- The example of C49 with a name for the alphabet. -/
def exShownSys : SymbolicSys :=
  ⟨⟨[], [⟨Id32.rep 2, some ⟨n!"Lib", n!"Alpha"⟩⟩, ⟨Id32.rep 5, some ⟨n!"Lib", n!"Name"⟩⟩,
    ⟨Id32.rep 9, some ⟨n!"Lib", n!"Main"⟩⟩]⟩, exLayTypes⟩

/-- It has a layout, and the item of the wrapped string tells the wrapper, the character sets and the bounds. -/
example (debug : Bool) : (∃ T, Outline toyHash exShownSys (Id32.rep 9) T) ∧
    (match layout toyHash debug 100 exShownSys (Id32.rep 9) with
    | .ok [_, b, _, _, _, _] => match b.toVesper toyHash 255 with
      | .ok e => decide (e.subject = n!"name" ∧ e.predicate = .ascii ∧
        e.attributes = [.wrapped (some n!"Name"), .asciiFirst n!"Alpha", .asciiRest n!"Alpha", .lenRange 1 11])
      | _ => false
    | _ => false) = true := by
  have h := exLay_outlined debug
  refine ⟨(C49_items toyHash debug (S := exShownSys)
    ⟨h.closed, h.iterable, h.ranked, h.deep, h.wrapped, h.few, h.strings⟩
    (Option.isSome_iff_exists.mp (by decide +kernel))).1, ?_⟩
  cases debug <;> decide +kernel

end Verif
