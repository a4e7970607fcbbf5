import Verif.Spec.Tree
import Verif.Lemmas.Ast

/-!
# The iterator over the type tree follows the outline
-/

namespace Verif

variable {H : Hash} {debug : Bool} {S : SymbolicSys}

/-! ## Small steps -/

/-- One turn of `TreeIter.next`; `none` at the end. -/
def TreeIter.tick (H : Hash) (debug : Bool) (S : SymbolicSys) (s : TreeIter) :
    Out Unit (Option (Option TypeInfo × TreeIter)) :=
  match s.ty with
  | some ty => do
    let r ← s.enter H debug S ty
    pure (some r)
  | none =>
    match s.path with
    | [] => pure none
    | (depth, it) :: path => do
      let (o, it) ← Ty.iterNext debug it
      match o with
      | none => pure (some (none, { s with depth := depth, path := path, nested := [] }))
      | some (id, item) =>
        pure (some (none,
          { semId := id
            ty := S.types.get id
            item := if lastIsNewType s.nested then s.item else item
            depth := depth
            path := (depth, it) :: path
            nested := s.nested }))

theorem TreeIter.next_silent {s s' : TreeIter} (h : s.tick H debug S = .ok (some (none, s')))
    (f : Nat) : TreeIter.next H debug S (f + 1) s = TreeIter.next H debug S f s' := by
  unfold TreeIter.tick at h
  conv => lhs; unfold TreeIter.next
  cases hty : s.ty with
  | some ty =>
    simp only [hty] at h
    rw [Out.bind_eq_ok] at h
    obtain ⟨⟨o, s1⟩, h1, h2⟩ := h
    simp only [Out.pure_eq, Out.ok.injEq, Option.some.injEq, Prod.mk.injEq] at h2
    obtain ⟨rfl, rfl⟩ := h2
    simp only [h1, Out.bind_ok]
  | none =>
    simp only [hty] at h
    cases hp : s.path with
    | nil => simp [hp] at h
    | cons q path =>
      obtain ⟨d, it⟩ := q
      simp only [hp] at h
      rw [Out.bind_eq_ok] at h
      obtain ⟨⟨o, it'⟩, h1, h2⟩ := h
      simp only [h1, Out.bind_ok]
      cases o with
      | none => simp at h2; simp [h2]
      | some p => simp at h2; simp [h2]

theorem TreeIter.next_emit {s s' : TreeIter} {i : TypeInfo}
    (h : s.tick H debug S = .ok (some (some i, s'))) (f : Nat) :
    TreeIter.next H debug S (f + 1) s = .ok (some i, s') := by
  unfold TreeIter.tick at h
  unfold TreeIter.next
  cases hty : s.ty with
  | some ty =>
    simp only [hty] at h
    rw [Out.bind_eq_ok] at h
    obtain ⟨⟨o, s1⟩, h1, h2⟩ := h
    simp only [Out.pure_eq, Out.ok.injEq, Option.some.injEq, Prod.mk.injEq] at h2
    obtain ⟨rfl, rfl⟩ := h2
    simp only [h1, Out.bind_ok, Out.pure_eq]
  | none =>
    simp only [hty] at h
    cases hp : s.path with
    | nil => simp [hp] at h
    | cons q path =>
      obtain ⟨d, it⟩ := q
      simp only [hp] at h
      rw [Out.bind_eq_ok] at h
      obtain ⟨⟨o, it'⟩, h1, h2⟩ := h
      cases o with
      | none => simp at h2
      | some p => simp at h2

theorem TreeIter.next_mono {s : TreeIter} {x : Option TypeInfo × TreeIter} {f : Nat}
    (h : TreeIter.next H debug S f s = .ok x) : TreeIter.next H debug S (f + 1) s = .ok x := by
  induction f generalizing s with
  | zero => simp [TreeIter.next] at h
  | succ f ih =>
    unfold TreeIter.next at h ⊢
    cases hty : s.ty with
    | some ty =>
      simp only [hty] at h ⊢
      rw [Out.bind_eq_ok] at h ⊢
      obtain ⟨⟨o, s1⟩, h1, h2⟩ := h
      refine ⟨_, h1, ?_⟩
      cases o with
      | some i => exact h2
      | none => exact ih h2
    | none =>
      simp only [hty] at h ⊢
      cases hp : s.path with
      | nil => simpa [hp] using h
      | cons q path =>
        obtain ⟨d, it⟩ := q
        simp only [hp] at h ⊢
        rw [Out.bind_eq_ok] at h ⊢
        obtain ⟨⟨o, it'⟩, h1, h2⟩ := h
        refine ⟨_, h1, ?_⟩
        cases o with
        | none => exact ih h2
        | some p => exact ih h2

theorem TreeIter.collect_mono {s : TreeIter} {l : List TypeInfo} {f room : Nat}
    (h : TreeIter.collect H debug S f room s = .ok l) :
    TreeIter.collect H debug S (f + 1) room s = .ok l := by
  induction f generalizing s l room with
  | zero => simp [TreeIter.collect] at h
  | succ f ih =>
    unfold TreeIter.collect at h ⊢
    rw [Out.bind_eq_ok] at h ⊢
    obtain ⟨⟨o, s1⟩, h1, h2⟩ := h
    refine ⟨_, TreeIter.next_mono h1, ?_⟩
    cases o with
    | none => exact h2
    | some i =>
      cases room with
      | zero => exact h2
      | succ room =>
        dsimp only at h2 ⊢
        rw [Out.bind_eq_ok] at h2 ⊢
        obtain ⟨r, h3, h4⟩ := h2
        exact ⟨r, ih h3, h4⟩

theorem TreeIter.collect_le {s : TreeIter} {l : List TypeInfo} {f g room : Nat}
    (h : TreeIter.collect H debug S f room s = .ok l) (hg : f ≤ g) :
    TreeIter.collect H debug S g room s = .ok l := by
  induction hg with
  | refl => exact h
  | step _ ih => exact TreeIter.collect_mono ih

/-- Several turns that report the items `l`. -/
inductive Steps (H : Hash) (debug : Bool) (S : SymbolicSys) : TreeIter → List TypeInfo → TreeIter → Prop
  | refl (s : TreeIter) : Steps H debug S s [] s
  | silent {s s' s'' : TreeIter} {l : List TypeInfo} :
    s.tick H debug S = .ok (some (none, s')) → Steps H debug S s' l s'' → Steps H debug S s l s''
  | emit {s s' s'' : TreeIter} {i : TypeInfo} {l : List TypeInfo} :
    s.tick H debug S = .ok (some (some i, s')) → Steps H debug S s' l s'' →
    Steps H debug S s (i :: l) s''

theorem Steps.trans {s s' s'' : TreeIter} {l m : List TypeInfo} (h : Steps H debug S s l s')
    (h' : Steps H debug S s' m s'') : Steps H debug S s (l ++ m) s'' := by
  induction h with
  | refl => exact h'
  | silent h _ ih => exact .silent h (ih h')
  | emit h _ ih => exact .emit h (ih h')

theorem Steps.one {s s' : TreeIter} (h : s.tick H debug S = .ok (some (none, s'))) :
    Steps H debug S s [] s' := .silent h (.refl _)

theorem Steps.collect {s s' : TreeIter} {l : List TypeInfo} (h : Steps H debug S s l s')
    (hty : s'.ty = none) (hp : s'.path = []) {room : Nat} (hr : l.length ≤ room) :
    ∃ f, TreeIter.collect H debug S f room s = .ok l := by
  induction h generalizing room with
  | refl s => exact ⟨1, by simp [TreeIter.collect, TreeIter.next, hty, hp]⟩
  | @silent s s1 s2 l h _ ih =>
    obtain ⟨f, hf⟩ := ih hty hp hr
    cases f with
    | zero => simp [TreeIter.collect] at hf
    | succ f =>
      refine ⟨f + 2, ?_⟩
      unfold TreeIter.collect at hf ⊢
      rw [Out.bind_eq_ok] at hf ⊢
      obtain ⟨⟨o, t⟩, h1, h2⟩ := hf
      refine ⟨(o, t), by rw [TreeIter.next_silent h]; exact h1, ?_⟩
      cases o with
      | none => exact h2
      | some i =>
        cases room with
        | zero => exact h2
        | succ room =>
          dsimp only at h2 ⊢
          rw [Out.bind_eq_ok] at h2 ⊢
          obtain ⟨r, h3, h4⟩ := h2
          exact ⟨r, TreeIter.collect_mono h3, h4⟩
  | @emit s s1 s2 i l h _ ih =>
    cases room with
    | zero => simp at hr
    | succ room =>
      obtain ⟨f, hf⟩ := ih hty hp (room := room) (by simpa using hr)
      refine ⟨f + 1, ?_⟩
      unfold TreeIter.collect
      rw [TreeIter.next_emit h]
      simp [hf]

theorem Steps.next {s s' : TreeIter} {i : TypeInfo} {l : List TypeInfo} (h : Steps H debug S s (i :: l) s') :
    ∃ f s1, (∀ fuel, f ≤ fuel → TreeIter.next H debug S fuel s = .ok (some i, s1)) ∧ Steps H debug S s1 l s' := by
  generalize hm : i :: l = m at h
  induction h with
  | refl => cases hm
  | silent h _ ih =>
    obtain ⟨f, s1, h1, h2⟩ := ih hm
    refine ⟨f + 1, s1, fun fuel hf => ?_, h2⟩
    match fuel, hf with
    | fuel + 1, hf => rw [TreeIter.next_silent h, h1 fuel (by omega)]
  | emit h h' =>
    cases hm
    refine ⟨1, _, fun fuel hf => ?_, h'⟩
    match fuel, hf with
    | fuel + 1, _ => exact TreeIter.next_emit h fuel

/-- More items than there is room for are a panic. -/
theorem Steps.overflow {l : List TypeInfo} : ∀ {s s' : TreeIter} {room : Nat}, Steps H debug S s l s' →
    room < l.length → ∃ f, ∀ fuel, f ≤ fuel → TreeIter.collect H debug S fuel room s = .panic := by
  induction l with
  | nil => intro s s' room _ h; simp at h
  | cons i l ih =>
    intro s s' room h hr
    obtain ⟨f, s1, h1, h2⟩ := h.next
    cases room with
    | zero =>
      refine ⟨f + 1, fun fuel hf => ?_⟩
      match fuel, hf with
      | fuel + 1, hf => simp [TreeIter.collect, h1 (fuel + 1) (by omega)]
    | succ room =>
      obtain ⟨g, hg⟩ := ih h2 (room := room) (by simpa using hr)
      refine ⟨f + g + 1, fun fuel hf => ?_⟩
      match fuel, hf with
      | fuel + 1, hf => simp [TreeIter.collect, h1 (fuel + 1) (by omega), hg fuel (by omega)]

/-! ## The children of a type -/

theorem Ty.places_map_fst (t : Ty SemId) : t.places.map Prod.fst = t.refs := by
  cases t with
  | union vs =>
    simp only [places, refs, List.map_map]
    conv => rhs; rw [← numbered_map_snd vs 0, List.map_map]
    rfl
  | struct vs =>
    simp only [places, refs, List.map_map]
    conv => rhs; rw [← numbered_map_snd vs 0, List.map_map]
    rfl
  | tuple vs => simp [places, refs, Function.comp_def]
  | _ => rfl

theorem Ty.places_get (t : Ty SemId) (h : t.WF) (pos : Byte) :
    t.places[pos.toNat]? = (t.tyAt pos).map fun r => (r, t.caseAt pos) := by
  by_cases ht : ∃ fs, t = .tuple fs
  · obtain ⟨fs, rfl⟩ := ht
    have hl := Ty.refs_length_le h
    simp only [refs] at hl
    simp only [places, tyAt, caseAt, List.getElem?_map]
    cases hg : fs[pos.toNat]? with
    | none => rfl
    | some r =>
      have hlt : pos.toNat < fs.length := by
        rcases Nat.lt_or_ge pos.toNat fs.length with h' | h'
        · exact h'
        · rw [List.getElem?_eq_none h'] at hg; simp at hg
      have hne : BitVec.ofNat 8 fs.length ≠ pos := by
        intro he
        have := congrArg BitVec.toNat he
        rw [BitVec.toNat_ofNat] at this
        omega
      simp [hne]
  · have ht' : ∀ fs, t ≠ .tuple fs := fun fs he => ht ⟨fs, he⟩
    have hpl : t.places = t.items.map fun p => (p.1, some p.2) := by
      cases t with
      | tuple fs => exact absurd rfl (ht' fs)
      | union vs => simp [places, items, Function.comp_def]
      | struct vs => simp [places, items, Function.comp_def]
      | _ => rfl
    rw [hpl, Ty.caseAt_eq t pos ht', Ty.tyAt_eq, ← Ty.items_map_fst]
    simp only [List.getElem?_map]
    cases t.items[pos.toNat]? <;> rfl

theorem Ty.iterNext_places {t : Ty SemId} (h : t.WF) (hd : debug = true → t.refs.length < 255)
    {k : Nat} (hk : k ≤ t.refs.length) :
    Ty.iterNext debug ⟨t, BitVec.ofNat 8 k⟩ = .ok (t.places[k]?, ⟨t, BitVec.ofNat 8 (k + 1)⟩) := by
  have hl := Ty.refs_length_le h
  have hk' : (BitVec.ofNat 8 k).toNat = k := by rw [BitVec.toNat_ofNat]; omega
  have hinc : Ty.incPos debug (BitVec.ofNat 8 k) = .ok (BitVec.ofNat 8 (k + 1)) := by
    unfold Ty.incPos
    have : (debug && BitVec.ofNat 8 k == 255) = false := by
      cases debug with
      | false => rfl
      | true =>
        have := hd rfl
        simp only [Bool.true_and, beq_eq_false_iff_ne]
        intro he
        have := congrArg BitVec.toNat he
        rw [hk'] at this
        simp at this
        omega
    simp only [this, Bool.false_eq_true, if_false, Out.ok.injEq]
    apply BitVec.eq_of_toNat_eq
    simp
  unfold Ty.iterNext
  simp only [hinc, Out.bind_ok, Out.pure_eq]
  have := Ty.places_get t h (BitVec.ofNat 8 k)
  rw [hk'] at this
  rw [this]

/-! ## The case distinction -/

theorem incr_ok {n : Nat} {k : BitVec n} (h : debug = true → k.toNat + 1 < 2 ^ n) :
    incr debug k = .ok (k + 1) := by
  unfold incr
  have : (debug && k == BitVec.allOnes n) = false := by
    cases debug with
    | false => rfl
    | true =>
      have := h rfl
      simp only [Bool.true_and, beq_eq_false_iff_ne]
      rintro rfl
      simp at this
      omega
  simp [this]

theorem Ty.asSome_union {t : Ty SemId} {r : SemId} (h : t.asSome = some r) :
    ∃ r0, t = .union [(⟨noneName, 0⟩, r0), (⟨someName, 1⟩, r)] := by
  cases t with
  | union vs =>
    simp only [asSome] at h
    split at h
    · next hl =>
      match vs, hl with
      | [(v, r0), (w, r1)], _ =>
        simp only [List.head?_cons, List.getLast?_cons_cons, List.getLast?_singleton] at h
        split at h
        · next hc =>
          obtain ⟨h1, h2, h3, h4⟩ := hc
          obtain ⟨vn, vt⟩ := v
          obtain ⟨wn, wt⟩ := w
          simp only at h1 h2 h3 h4
          subst h1 h2 h3 h4
          simp only [Option.some.injEq] at h
          subst h
          exact ⟨r0, rfl⟩
        · simp at h
    · simp at h
  | _ => simp [asSome] at h

theorem isCharEnum_iff_chars {t : Ty SemId} : t.isCharEnum = true ↔ ∃ C, t = .enum C ∧ CharVariants C := by
  cases t <;> simp [Ty.isCharEnum, CharVariants]

theorem isByteArray_iff {t : Ty SemId} :
    t.isByteArray H = true ↔ ∃ r len, t = .array r len ∧ ByteId H r := by
  cases t with
  | array r len =>
    simp only [Ty.isByteArray, SemId.isByte, Bool.or_eq_true, decide_eq_true_eq]
    constructor
    · intro h; exact ⟨r, len, rfl, h.imp Eq.symm Eq.symm⟩
    · rintro ⟨r', len', e, h⟩
      simp only [Ty.array.injEq] at e
      obtain ⟨rfl, rfl⟩ := e
      exact h.imp Eq.symm Eq.symm
  | _ => simp [Ty.isByteArray]

theorem visit_wrapper {r : SemId} (fqn : Option TypeFqn) :
    visit H debug S fqn (.tuple [r]) =
      .ok ⟨[.newType fqn], false, some ⟨.tuple [r], BitVec.ofNat 8 0⟩, false⟩ := by
  simp [visit, Ty.isNewtype, Ty.iterStart]

theorem visit_optional {t : Ty SemId} {r : SemId} (h : t.asSome = some r) (fqn : Option TypeFqn) :
    visit H debug S fqn t = .ok ⟨[.option], true, some ⟨t, BitVec.ofNat 8 1⟩, false⟩ := by
  obtain ⟨r0, rfl⟩ := Ty.asSome_union h
  have : Ty.isOption (.union [(⟨Ty.noneName, 0⟩, r0), (⟨Ty.someName, 1⟩, r)]) = true := by
    rw [Ty.isOption, h]; rfl
  have hn : Ty.isNewtype (.union [(⟨Ty.noneName, 0⟩, r0), (⟨Ty.someName, 1⟩, r)]) = false := rfl
  unfold visit
  rw [hn, this]
  cases debug <;> rfl

theorem visit_text {t : Ty SemId} {n : NestedCase} (h : ShownAs S t n)
    (hs : debug = true → ∀ id r sz, S.types.get id = some (.list r sz) →
      sz.min.toNat < 2 ^ 64 - 1 ∧ sz.max.toNat < 2 ^ 64 - 1) (fqn : Option TypeFqn) :
    (∃ v, visit H debug S fqn t = .ok v ∧ v.nested = [n] ∧ v.ret = true ∧
      (v.push = none ∨ v.push = some ⟨t, BitVec.ofNat 8 2⟩ ∧ t.refs.length = 2)) := by
  cases h with
  | @ascii r sz C hr hC =>
    refine ⟨⟨[.asciiStr (S.lookup r)], false, none, true⟩, ?_, rfl, rfl, .inl rfl⟩
    have := isCharEnum_iff_chars.mpr ⟨C, rfl, hC⟩
    simp [visit, Ty.isNewtype, Ty.isOption, Ty.asSome, hr, this, SymbolicSys.lookup]
  | @bytes r sz c hr hc =>
    refine ⟨⟨[.byteStr], false, none, true⟩, ?_, rfl, rfl, .inl rfl⟩
    simp [visit, Ty.isNewtype, Ty.isOption, Ty.asSome, hr, Ty.isCharEnum, Ty.isByte, hc]
  | @unicode r sz hr =>
    refine ⟨⟨[.uniStr], false, none, true⟩, ?_, rfl, rfl, .inl rfl⟩
    simp [visit, Ty.isNewtype, Ty.isOption, Ty.asSome, hr, Ty.isCharEnum, Ty.isByte, Ty.isUnicodeChar]
  | @rstring a b r sz A C ha hA hb hr hC =>
    refine ⟨⟨[.rStr (S.lookup a) (S.lookup r) ⟨sz.min + 1, sz.max + 1⟩], true,
      some ⟨.tuple [a, b], BitVec.ofNat 8 2⟩, true⟩, ?_, rfl, rfl, .inr ⟨rfl, rfl⟩⟩
    have h1 := isCharEnum_iff_chars.mpr ⟨A, rfl, hA⟩
    have h2 := isCharEnum_iff_chars.mpr ⟨C, rfl, hC⟩
    have hm : incr debug sz.min = .ok (sz.min + 1) := incr_ok fun hd => by
      have := (hs hd b r sz hb).1; omega
    have hM : incr debug sz.max = .ok (sz.max + 1) := incr_ok fun hd => by
      have := (hs hd b r sz hb).2; omega
    cases debug <;>
    simp [visit, Ty.isNewtype, Ty.isOption, Ty.asSome, ha, hb, hr, h1, h2, hm, hM, SymbolicSys.lookup,
      Ty.iterNext, Ty.incPos, Ty.iterStart]

theorem visit_bytes {r : SemId} {len : BitVec 16} (h : ByteId H r) (fqn : Option TypeFqn) :
    visit H debug S fqn (.array r len) = .ok ⟨[], true, none, true⟩ := by
  have := isByteArray_iff.mpr ⟨r, len, rfl, h⟩
  simp [visit, Ty.isNewtype, Ty.isOption, Ty.asSome, this]

theorem visit_plain {t : Ty SemId} (h0 : t.asSome = none) (h1 : ∀ r, t ≠ .tuple [r])
    (h2 : ∀ n, ¬ ShownAs S t n) (h3 : ∀ r len, t = .array r len → ¬ ByteId H r)
    (hc : ∀ r ∈ t.refs, ∃ u, S.types.get r = some u) (fqn : Option TypeFqn) :
    visit H debug S fqn t = .ok ⟨[], true, some ⟨t, BitVec.ofNat 8 0⟩, true⟩ := by
  have hn : t.isNewtype = false := by
    match t, h1 with
    | .tuple [], _ => rfl
    | .tuple [r], h => exact absurd rfl (h r)
    | .tuple (a :: b :: l), _ => simp [Ty.isNewtype]
    | .primitive _, _ => rfl
    | .unicodeChar, _ => rfl
    | .enum _, _ => rfl
    | .union _, _ => rfl
    | .struct _, _ => rfl
    | .array .., _ => rfl
    | .list .., _ => rfl
    | .set .., _ => rfl
    | .map .., _ => rfl
  have ho : t.isOption = false := by simp [Ty.isOption, h0]
  have hb : t.isByteArray H = false := by
    cases h : t.isByteArray H with
    | false => rfl
    | true => obtain ⟨r, len, e, hr⟩ := isByteArray_iff.mp h; exact absurd hr (h3 r len e)
  unfold visit
  simp only [hn, ho, Bool.false_eq_true, if_false]
  match t, hc, h2, hb with
  | .tuple [a, b], hc, h2, hb =>
    obtain ⟨ua, ha⟩ := hc a (by simp [Ty.refs])
    obtain ⟨ub, hbb⟩ := hc b (by simp [Ty.refs])
    simp only [ha, hbb]
    cases ub with
    | list r sz =>
      dsimp only
      have hneg : (ua.isCharEnum && ((S.types.get r).map Ty.isCharEnum).getD false) = false := by
        cases hr : S.types.get r with
        | none => simp
        | some u =>
          simp only [Option.map_some, Option.getD_some]
          cases hA : ua.isCharEnum with
          | false => rfl
          | true =>
            cases hC : u.isCharEnum with
            | false => rfl
            | true =>
              obtain ⟨A, eA, hA'⟩ := isCharEnum_iff_chars.mp hA
              obtain ⟨C, eC, hC'⟩ := isCharEnum_iff_chars.mp hC
              rw [eA] at ha
              rw [eC] at hr
              exact absurd (ShownAs.rstring ha hA' hbb hr hC') (h2 _)
      simp [hneg, Ty.iterStart]
    | _ => rfl
  | .list r sz, hc, h2, hb =>
    obtain ⟨u, hr⟩ := hc r (by simp [Ty.refs])
    simp only [hr]
    have e1 : u.isCharEnum = false := by
      cases h : u.isCharEnum with
      | false => rfl
      | true =>
        obtain ⟨C, rfl, hC⟩ := isCharEnum_iff_chars.mp h
        exact absurd (ShownAs.ascii hr hC) (h2 _)
    have e2 : u.isByte = false := by
      cases h : u.isByte with
      | false => rfl
      | true =>
        cases u with
        | primitive c => exact absurd (ShownAs.bytes hr (by simpa [Ty.isByte] using h)) (h2 _)
        | _ => simp [Ty.isByte] at h
    have e3 : u.isUnicodeChar = false := by
      cases u with
      | unicodeChar => exact absurd (ShownAs.unicode hr) (h2 _)
      | _ => rfl
    simp [e1, e2, e3, Ty.iterStart]
  | .tuple [], hc, h2, hb => simp [hb, Ty.iterStart]
  | .tuple [_], hc, h2, hb => simp [hb, Ty.iterStart]
  | .tuple (_ :: _ :: _ :: _), hc, h2, hb => simp [hb, Ty.iterStart]
  | .primitive _, hc, h2, hb => simp [hb, Ty.iterStart]
  | .unicodeChar, hc, h2, hb => simp [hb, Ty.iterStart]
  | .enum _, hc, h2, hb => simp [hb, Ty.iterStart]
  | .union _, hc, h2, hb => simp [hb, Ty.iterStart]
  | .struct _, hc, h2, hb => simp [hb, Ty.iterStart]
  | .array .., hc, h2, hb => simp [hb, Ty.iterStart]
  | .set .., hc, h2, hb => simp [hb, Ty.iterStart]
  | .map .., hc, h2, hb => simp [hb, Ty.iterStart]

/-! ## Turns of the iterator -/

/-- The state in which `id` is about to be entered. -/
def entering (S : SymbolicSys) (id : SemId) (d : Nat) (item : Option Ty.ItemCase)
    (nested : List NestedCase) (p : List (BitVec 32 × Ty.IterState SemId)) : TreeIter :=
  ⟨id, S.types.get id, item, BitVec.ofNat 32 d, p, nested⟩

/-- The iterator is done with everything above `p`. -/
def Done (s : TreeIter) (p : List (BitVec 32 × Ty.IterState SemId)) : Prop :=
  s.ty = none ∧ s.path = p ∧ s.nested = []

theorem incr_depth {d : Nat} (h : d + 1 < 2 ^ 32) :
    incr debug (BitVec.ofNat 32 d) = .ok (BitVec.ofNat 32 (d + 1)) := by
  rw [incr_ok]
  · congr 1; apply BitVec.eq_of_toNat_eq; simp
  · intro _; rw [BitVec.toNat_ofNat]; omega

theorem tick_report {id : SemId} {t : Ty SemId} {v : Visit} {d : Nat} {item : Option Ty.ItemCase}
    {nested : List NestedCase} {p : List (BitVec 32 × Ty.IterState SemId)}
    (ht : S.types.get id = some t) (hv : visit H debug S (S.lookup id) t = .ok v)
    (hret : v.ret = true) (hn : nested.length + v.nested.length ≤ 255) (hd : d + 1 < 2 ^ 32) :
    ∃ s', (entering S id d item nested p).tick H debug S =
        .ok (some (some ⟨BitVec.ofNat 32 d, t, S.lookup id, item, nested ++ v.nested⟩, s')) ∧
      s'.ty = none ∧ s'.nested = [] ∧
      s'.path = (match v.push with
        | some it => (if v.dive then BitVec.ofNat 32 (d + 1) else BitVec.ofNat 32 d, it) :: p
        | none => p) := by
  unfold TreeIter.tick entering
  simp only [ht]
  unfold TreeIter.enter
  have hv' : visit H debug S (S.symbols.lookup id) t = .ok v := hv
  simp only [hv', Out.bind_ok, hret, if_true]
  have hl : (nested ++ v.nested).length ≤ 255 := by simpa using hn
  cases hdive : v.dive with
  | true =>
    simp only [if_true, incr_depth hd, Out.bind_ok, hl, Out.pure_eq]
    exact ⟨_, rfl, rfl, rfl, rfl⟩
  | false =>
    simp only [Bool.false_eq_true, if_false, Out.bind_ok, hl, if_true, Out.pure_eq]
    exact ⟨_, rfl, rfl, rfl, rfl⟩

theorem tick_skip {id : SemId} {t : Ty SemId} {v : Visit} {d : Nat} {item : Option Ty.ItemCase}
    {nested : List NestedCase} {p : List (BitVec 32 × Ty.IterState SemId)}
    {it : Ty.IterState SemId}
    (ht : S.types.get id = some t) (hv : visit H debug S (S.lookup id) t = .ok v)
    (hret : v.ret = false) (hp : v.push = some it) (hd : d + 1 < 2 ^ 32) :
    ∃ s', (entering S id d item nested p).tick H debug S = .ok (some (none, s')) ∧
      s'.ty = none ∧ s'.nested = nested ++ v.nested ∧ s'.item = item ∧
      s'.path = (if v.dive then BitVec.ofNat 32 (d + 1) else BitVec.ofNat 32 d, it) :: p := by
  unfold TreeIter.tick entering
  simp only [ht]
  unfold TreeIter.enter
  have hv' : visit H debug S (S.symbols.lookup id) t = .ok v := hv
  simp only [hv', Out.bind_ok, hret, Bool.false_eq_true, if_false, hp]
  cases hdive : v.dive with
  | true =>
    simp only [if_true, incr_depth hd, Out.bind_ok, Out.pure_eq]
    exact ⟨_, rfl, rfl, rfl, rfl, rfl⟩
  | false =>
    simp only [Bool.false_eq_true, if_false, Out.bind_ok, Out.pure_eq]
    exact ⟨_, rfl, rfl, rfl, rfl, rfl⟩

theorem tick_child {s : TreeIter} {t : Ty SemId} {d k : Nat} {r : SemId}
    {item : Option Ty.ItemCase} {p : List (BitVec 32 × Ty.IterState SemId)}
    (hwf : t.WF) (hdb : debug = true → t.refs.length < 255) (hty : s.ty = none)
    (hp : s.path = (BitVec.ofNat 32 d, ⟨t, BitVec.ofNat 8 k⟩) :: p)
    (hk : t.places[k]? = some (r, item)) :
    s.tick H debug S = .ok (some (none,
      entering S r d (if lastIsNewType s.nested then s.item else item) s.nested
        ((BitVec.ofNat 32 d, ⟨t, BitVec.ofNat 8 (k + 1)⟩) :: p))) := by
  have hlen : k ≤ t.refs.length := by
    rw [← Ty.places_map_fst, List.length_map]
    rcases Nat.lt_or_ge k t.places.length with h | h
    · omega
    · rw [List.getElem?_eq_none h] at hk; simp at hk
  unfold TreeIter.tick
  simp only [hty, hp, Ty.iterNext_places hwf hdb hlen, Out.bind_ok, hk]
  rfl

theorem tick_pop {s : TreeIter} {t : Ty SemId} {d : BitVec 32} {k : Nat}
    {p : List (BitVec 32 × Ty.IterState SemId)}
    (hwf : t.WF) (hdb : debug = true → t.refs.length < 255) (hty : s.ty = none)
    (hp : s.path = (d, ⟨t, BitVec.ofNat 8 k⟩) :: p) (hk : k = t.refs.length) :
    ∃ s', s.tick H debug S = .ok (some (none, s')) ∧ Done s' p := by
  have hlen : t.places[k]? = none := by
    apply List.getElem?_eq_none
    rw [hk, ← Ty.places_map_fst, List.length_map]
    exact Nat.le_refl _
  unfold TreeIter.tick
  simp only [hty, hp, Ty.iterNext_places hwf hdb (Nat.le_of_eq hk), Out.bind_ok, hlen]
  exact ⟨_, rfl, rfl, rfl, rfl⟩

/-! ## The iterator follows the outline -/

theorem lastIsNewType_append (l : List NestedCase) (n : NestedCase) :
    lastIsNewType (l ++ [n]) = match n with | .newType _ => true | _ => false := by
  simp only [lastIsNewType, List.getLast?_concat]
  cases n <;> rfl

theorem steps_children {t : Ty SemId} {d : Nat}
    {p : List (BitVec 32 × Ty.IterState SemId)}
    (hwf : t.WF) (hdb : debug = true → t.refs.length < 255)
    {R : SemId → Option Ty.ItemCase → LTree → Prop}
    (hR : ∀ r ∈ t.refs, ∀ item c, R r item c → ∀ p, ∃ s', Steps H debug S (entering S r d item [] p)
      c.items s' ∧ Done s' p) :
    ∀ (l : List (SemId × Option Ty.ItemCase)) (cs : List LTree) (k : Nat) (s : TreeIter),
      t.places.drop k = l → k ≤ t.places.length →
      All2 (fun q c => R q.1 q.2 c) l cs →
      s.ty = none → s.nested = [] → s.path = (BitVec.ofNat 32 d, ⟨t, BitVec.ofNat 8 k⟩) :: p →
      ∃ s', Steps H debug S s (LTree.itemsOf cs) s' ∧ Done s' p := by
  have hlen : t.places.length = t.refs.length := by
    rw [← Ty.places_map_fst, List.length_map]
  intro l
  induction l with
  | nil =>
    intro cs k s hl hk hall hty hn hp
    cases cs with
    | cons => exact absurd hall (by simp [All2])
    | nil =>
      have hk' : k = t.refs.length := by
        have := congrArg List.length hl
        simp only [List.length_drop, List.length_nil] at this
        omega
      obtain ⟨s', h1, h2⟩ := tick_pop (S := S) (H := H) hwf hdb hty hp hk'
      exact ⟨s', Steps.one h1, h2⟩
  | cons q l ih =>
    intro cs k s hl hk hall hty hn hp
    cases cs with
    | nil => exact absurd hall (by simp [All2])
    | cons c cs =>
      obtain ⟨h1, h2⟩ := hall
      obtain ⟨r, item⟩ := q
      have hget : t.places[k]? = some (r, item) := by
        have := congrArg (·[0]?) hl
        simpa using this
      have hmem : r ∈ t.refs := by
        rw [← Ty.places_map_fst]
        exact List.mem_map.mpr ⟨(r, item), List.mem_of_getElem? hget, rfl⟩
      have htick := tick_child (S := S) (H := H) hwf hdb hty hp hget
      rw [hn] at htick
      have hnt : lastIsNewType [] = false := rfl
      rw [hnt, if_neg (by simp)] at htick
      obtain ⟨s1, hs1, hd1⟩ := hR r hmem item c h1 ((BitVec.ofNat 32 d, ⟨t, BitVec.ofNat 8 (k + 1)⟩) :: p)
      have hklt : k < t.places.length := by
        rcases Nat.lt_or_ge k t.places.length with h | h
        · exact h
        · rw [List.getElem?_eq_none h] at hget; simp at hget
      have hdrop : t.places.drop (k + 1) = l := by
        rw [← List.drop_drop, hl]; rfl
      obtain ⟨s2, hs2, hd2⟩ := ih cs (k + 1) s1 hdrop hklt h2 hd1.1 hd1.2.2 hd1.2.1
      exact ⟨s2, .silent htick (hs1.trans hs2), hd2⟩

theorem steps_shape {rank wraps : SemId → Nat} (hS : S.Outlined debug rank wraps) :
    ∀ (n : Nat) (id : SemId) (d : Nat) (item : Option Ty.ItemCase) (nested : List NestedCase)
      (T : LTree), ShapeN H S n id d item nested T → d + rank id < 2 ^ 32 - 1 →
      nested.length + wraps id < 255 →
      ∀ p, ∃ s', Steps H debug S (entering S id d item nested p) T.items s' ∧ Done s' p := by
  intro n
  induction n with
  | zero => intro id d item nested T h; exact h.elim
  | succ n ih =>
    intro id d item nested T h hd hn p
    have hd1 : d + 1 < 2 ^ 32 := by omega
    cases h with
    | @wrapper r _ _ _ _ ht hR =>
      have hit := hS.iterable _ _ ht
      have hr := hS.ranked _ _ ht r (by simp [Ty.refs])
      have hw := hS.wrapped _ _ ht r (.inl rfl)
      obtain ⟨s1, h1, hty, hne, hitem, hpath⟩ := tick_skip (p := p) (item := item) (nested := nested)
        (d := d) ht (visit_wrapper (H := H) (debug := debug) (S := S) (S.lookup id)) rfl rfl hd1
      simp only [Bool.false_eq_true, if_false] at hpath
      have h2 := tick_child (H := H) (S := S) (debug := debug) (k := 0) (r := r) (item := none)
        hit.1 hit.2 hty hpath (by rfl)
      rw [hne, lastIsNewType_append] at h2
      simp only [if_true, hitem] at h2
      obtain ⟨s3, h3, hd3⟩ := ih r d item _ T hR (by omega) (by simp; omega)
        ((BitVec.ofNat 32 d, ⟨.tuple [r], BitVec.ofNat 8 (0 + 1)⟩) :: p)
      obtain ⟨s4, h4, hd4⟩ := tick_pop (H := H) (S := S) hit.1 hit.2 hd3.1 hd3.2.1 rfl
      refine ⟨s4, .silent h1 (.silent h2 ?_), hd4⟩
      have := h3.trans (Steps.one h4)
      rwa [List.append_nil] at this
    | @optional r _ _ _ t _ ht hsome hR =>
      have hit := hS.iterable _ _ ht
      obtain ⟨r0, he⟩ := Ty.asSome_union hsome
      have hmem : r ∈ t.refs := by rw [he]; simp [Ty.refs]
      have hr := hS.ranked _ _ ht r hmem
      have hw := hS.wrapped _ _ ht r (.inr hsome)
      obtain ⟨s1, h1, hty, hne, hitem, hpath⟩ := tick_skip (p := p) (item := item) (nested := nested)
        (d := d) ht (visit_optional (H := H) (debug := debug) (S := S) hsome (S.lookup id)) rfl rfl hd1
      simp only [if_true] at hpath
      have h2 := tick_child (H := H) (S := S) (debug := debug) (k := 1) (r := r)
        (item := some (.unionVariant 1 Ty.someName))
        hit.1 hit.2 hty hpath (by rw [he]; rfl)
      rw [hne, lastIsNewType_append] at h2
      simp only [Bool.false_eq_true, if_false] at h2
      obtain ⟨s3, h3, hd3⟩ := ih r (d + 1) _ _ T hR (by omega) (by simp; omega)
        ((BitVec.ofNat 32 (d + 1), ⟨t, BitVec.ofNat 8 (1 + 1)⟩) :: p)
      obtain ⟨s4, h4, hd4⟩ := tick_pop (H := H) (S := S) hit.1 hit.2 hd3.1 hd3.2.1
        (by rw [he]; rfl)
      refine ⟨s4, .silent h1 (.silent h2 ?_), hd4⟩
      have := h3.trans (Steps.one h4)
      rwa [List.append_nil] at this
    | @text _ _ _ t m ht hm =>
      have hit := hS.iterable _ _ ht
      obtain ⟨v, hv, hvn, hret, hpush⟩ := visit_text (H := H) hm hS.strings (S.lookup id)
      obtain ⟨s1, h1, hty, hne, hpath⟩ := tick_report (p := p) (item := item) (nested := nested)
        (d := d) ht hv hret (by rw [hvn]; simp; omega) hd1
      rw [hvn] at h1
      rcases hpush with hpush | ⟨hpush, hl⟩
      · rw [hpush] at hpath
        exact ⟨s1, .emit h1 (.refl _), hty, hpath, hne⟩
      · rw [hpush] at hpath
        obtain ⟨s2, h2, hd2⟩ := tick_pop (H := H) (S := S) hit.1 hit.2 hty hpath hl.symm
        exact ⟨s2, .emit h1 (.silent h2 (.refl _)), hd2⟩
    | @bytes r _ _ _ len ht hb =>
      obtain ⟨s1, h1, hty, hne, hpath⟩ := tick_report (p := p) (item := item) (nested := nested)
        (d := d) ht (visit_bytes (S := S) (debug := debug) hb (S.lookup id)) rfl (by simp; omega) hd1
      rw [List.append_nil] at h1
      exact ⟨s1, .emit h1 (.refl _), hty, hpath, hne⟩
    | @plain _ _ _ t cs ht h0 h1 h2 h3 hcs =>
      have hit := hS.iterable _ _ ht
      obtain ⟨s1, hs1, hty, hne, hpath⟩ := tick_report (p := p) (item := item) (nested := nested)
        (d := d) ht (visit_plain (debug := debug) h0 h1 h2 h3 (hS.closed _ _ ht) (S.lookup id)) rfl
        (by simp; omega) hd1
      rw [List.append_nil] at hs1
      simp only [if_true] at hpath
      obtain ⟨s2, hs2, hd2⟩ := steps_children (H := H) (S := S) (p := p) (d := d + 1)
        (R := fun r it c => ShapeN H S n r (d + 1) it [] c) hit.1 hit.2
        (fun r hr it c hc p => by
          have := hS.ranked _ _ ht r hr
          exact ih r (d + 1) it [] c hc (by omega) (by have := hS.few r; simp; omega) p)
        t.places cs 0 s1 rfl (Nat.zero_le _) hcs hty hne hpath
      exact ⟨s2, .emit hs1 hs2, hd2⟩

end Verif
