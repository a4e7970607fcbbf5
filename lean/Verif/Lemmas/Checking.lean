import Verif.Spec.Checking
import Verif.Lemmas.Typify
import Verif.Lemmas.Fuel
import Verif.Lemmas.TypifyErrors

/-!
# Checking and writing values come to an end
-/

namespace Verif

/-- Does not panic, and (for `d`) comes to an end. -/
def Fine {ε α : Type} (d : Bool) (o : Out ε α) : Prop := o ≠ .panic ∧ (d = true → o ≠ .diverge)

namespace Fine
variable {ε α β : Type} {d : Bool}

theorem ok {a : α} : Fine d (.ok a : Out ε α) := ⟨nofun, nofun⟩
theorem err {e : ε} : Fine d (.err e : Out ε α) := ⟨nofun, nofun⟩

theorem bind {o : Out ε α} {f : α → Out ε β} (h : Fine d o) (hf : ∀ a, Fine d (f a)) : Fine d (o >>= f) := by
  cases o with
  | ok a => exact hf a
  | err e => exact err
  | panic => exact absurd rfl h.1
  | diverge => exact ⟨nofun, fun hd => absurd rfl (h.2 hd)⟩

theorem bind_eq {o : Out ε α} {f : α → Out ε β} (h : Fine d o) (hf : ∀ a, o = .ok a → Fine d (f a)) :
    Fine d (o >>= f) := by
  cases o with
  | ok a => exact hf a rfl
  | err e => exact err
  | panic => exact absurd rfl h.1
  | diverge => exact ⟨nofun, fun hd => absurd rfl (h.2 hd)⟩

theorem returned {o : Out ε α} (h : Fine true o) : o.returned = true := by
  cases o with
  | ok a => rfl
  | err e => rfl
  | panic => exact absurd rfl h.1
  | diverge => exact absurd rfl (h.2 rfl)

end Fine

theorem Out.returned_ne {ε α : Type} {o : Out ε α} (h : o.returned = true) : o ≠ .diverge := by
  intro e; rw [e] at h; cases h

section
variable {rec : Val → SemId → Out TErr Val} {d : Bool} {n : Nat}

theorem typifyPrim_fine (p : Byte) (v : Val) : Fine d (typifyPrim p v) := by
  unfold typifyPrim
  repeat' split
  all_goals first | exact .ok | exact .err

theorem typifyUnicode_fine (v : Val) : Fine d (typifyUnicode v) := by
  unfold typifyUnicode
  repeat' split
  all_goals first | exact .ok | exact .err

theorem typifyEnum_fine (vs : List Variant) (v : Val) : Fine d (typifyEnum vs v) := by
  unfold typifyEnum
  repeat' split
  all_goals first | exact .ok | exact .err

theorem typifyZip_fine : ∀ {l : List Val} {ids : List SemId}, (∀ v ∈ l, ∀ r ∈ ids, Fine d (rec v r)) →
    Fine d (typifyZip rec l ids)
  | [], _, _ => by unfold typifyZip; exact .ok
  | _ :: _, [], _ => .ok
  | v :: l, id :: ids, h => (h v (by simp) id (by simp)).bind fun _ =>
    (typifyZip_fine fun u hu r hr => h u (by simp [hu]) r (by simp [hr])).bind fun _ => .ok

theorem outMap_fine {f : Val → Out TErr Val} : ∀ {l : List Val}, (∀ v ∈ l, Fine d (f v)) → Fine d (outMap f l)
  | [], _ => .ok
  | v :: l, h => (h v (by simp)).bind fun _ => (outMap_fine fun u hu => h u (by simp [hu])).bind fun _ => .ok

theorem typifySetItems_fine {id : SemId} : ∀ {l acc : List Val}, (∀ v ∈ l, Fine d (rec v id)) →
    Fine d (typifySetItems rec id l acc)
  | [], _, _ => .ok
  | v :: l, acc, h => (h v (by simp)).bind fun w => by
    split
    · exact .err
    · exact typifySetItems_fine fun u hu => h u (by simp [hu])

theorem typifyMapItems_fine {kid id : SemId} : ∀ {l acc : List (Val × Val)},
    (∀ p ∈ l, Fine d (rec p.1 kid) ∧ Fine d (rec p.2 id)) → Fine d (typifyMapItems rec kid id l acc)
  | [], _, _ => .ok
  | (k, v) :: l, acc, h => (h (k, v) (by simp)).1.bind fun _ => (h (k, v) (by simp)).2.bind fun _ => by
    split
    · exact .err
    · exact typifyMapItems_fine fun u hu => h u (by simp [hu])

theorem typifyFields_fine {req : List (Name × SemId)} : ∀ {l acc : List (Name × Val)},
    (∀ p ∈ l, ∀ r ∈ req.map Prod.snd, Fine d (rec p.2 r)) → Fine d (typifyFields rec req l acc)
  | [], _, _ => .ok
  | (k, v) :: l, acc, h => by
    unfold typifyFields
    split
    · exact .err
    · rename_i id hid
      exact (h (k, v) (by simp) id (fieldTy_mem hid)).bind fun _ =>
        typifyFields_fine fun u hu => h u (by simp [hu])

theorem typifyMapFields_fine {req : List (Name × SemId)} {l : List (Val × Val)} :
    ∀ {acc : List (Name × Val)}, (∀ p ∈ l, ∀ r ∈ req.map Prod.snd, Fine d (rec p.2 r)) →
    Fine d (typifyMapFields rec req l acc) := by
  induction l with
  | nil => intro acc _; unfold typifyMapFields; exact .ok
  | cons p l ih =>
    intro acc h
    obtain ⟨k, v⟩ := p
    cases k with
    | str s =>
      unfold typifyMapFields
      split
      · exact .err
      · split
        · exact .err
        · rename_i id hid
          exact (h (.str s, v) (by simp) id (fieldTy_mem hid)).bind fun _ => ih fun u hu => h u (by simp [hu])
    | _ => exact .err

/-- Wrapping, by the description of the type alone. -/
def EnclosesTy (t : Ty SemId) (r : SemId) : Prop :=
  t = .tuple [r] ∨ ∃ u, t = .union [(⟨n!"none", 0⟩, u), (⟨n!"some", 1⟩, r)]

theorem EnclosesTy.refs {t : Ty SemId} {r : SemId} (h : EnclosesTy t r) : r ∈ t.refs := by
  rcases h with rfl | ⟨u, rfl⟩ <;> simp [Ty.refs]

theorem sizeOf_pair_fst {l : List (Val × Val)} {p : Val × Val} (h : p ∈ l) : sizeOf p.1 < sizeOf l ∧ sizeOf p.2 < sizeOf l := by
  have := List.sizeOf_lt_of_mem h
  obtain ⟨a, b⟩ := p
  simp only [Prod.mk.sizeOf_spec] at this
  constructor <;> dsimp only <;> omega

theorem sizeOf_field {l : List (Name × Val)} {p : Name × Val} (h : p ∈ l) : sizeOf p.2 < sizeOf l := by
  have := List.sizeOf_lt_of_mem h
  obtain ⟨a, b⟩ := p
  simp only [Prod.mk.sizeOf_spec] at this
  dsimp only
  omega

theorem unionTyByTag_refs {vs : List (Variant × SemId)} {t : Byte} {r : SemId} (h : Ty.unionTyByTag vs t = some r) :
    r ∈ (Ty.union vs).refs := by
  unfold Ty.unionTyByTag at h
  simp only [Option.map_eq_some_iff] at h
  obtain ⟨p, hp, rfl⟩ := h
  exact List.mem_map_of_mem (List.mem_of_find?_eq_some hp)

theorem unionTyByName_refs {vs : List (Variant × SemId)} {n : Name} {r : SemId} (h : Ty.unionTyByName vs n = some r) :
    r ∈ (Ty.union vs).refs := by
  unfold Ty.unionTyByName at h
  simp only [Option.map_eq_some_iff] at h
  obtain ⟨p, hp, rfl⟩ := h
  exact List.mem_map_of_mem (List.mem_of_find?_eq_some hp)

theorem typifySome_fine {vs : List (Variant × SemId)} {v : Val} (ho : (Ty.union vs).isOption = true)
    (hw : ∀ r, EnclosesTy (.union vs) r → Fine d (rec v r)) : Fine d (typifySome rec vs v) := by
  obtain ⟨u, r, rfl⟩ := isOption_iff.mp ho
  exact (hw r (.inr ⟨u, rfl⟩)).bind fun _ => .ok

theorem typifyUnion_fine {vs : List (Variant × SemId)} {v : Val}
    (hc : ∀ r ∈ (Ty.union vs).refs, ∀ u, sizeOf u < sizeOf v → Fine d (rec u r))
    (hw : ∀ r, EnclosesTy (.union vs) r → Fine d (rec v r)) : Fine d (typifyUnion rec vs v) := by
  unfold typifyUnion
  split
  · split
    · rename_i tag content _ id hid
      refine (hc id ?_ content (by simp only [Val.union.sizeOf_spec]; omega)).bind fun _ => .ok
      cases tag with
      | name n => exact unionTyByName_refs hid
      | ord t => exact unionTyByTag_refs hid
    · exact .err
  · split
    · exact .ok
    · exact .err
  · split
    · rename_i a b ho
      obtain ⟨u, r, rfl⟩ := isOption_iff.mp ho
      have hr : r ∈ (Ty.union [(⟨n!"none", 0⟩, u), (⟨n!"some", 1⟩, r)]).refs := by simp [Ty.refs]
      refine Fine.bind_eq (o := Out.expect (Ty.unionTyByTag [(⟨n!"none", 0⟩, u), (⟨n!"some", 1⟩, r)] 1)) .ok fun c he => ?_
      cases he
      split
      · exact .ok
      · split
        · exact (hc r hr b (by simp; omega)).bind fun _ => .ok
        · exact .err
    · exact .err
  · split
    · rename_i ho
      exact typifySome_fine ho hw
    · exact .err

theorem typifyTuple_fine {ids : List SemId} {v : Val}
    (hc : ∀ r ∈ ids, ∀ u, sizeOf u < sizeOf v → Fine d (rec u r))
    (hw : ∀ r, EnclosesTy (.tuple ids) r → Fine d (rec v r)) : Fine d (typifyTuple rec ids v) := by
  have hn : Fine d (typifyTuple.newtype rec ids v) := by
    unfold typifyTuple.newtype
    split
    · exact (hw _ (.inl rfl)).bind fun _ => .ok
    · exact .err
  have hz : ∀ l, sizeOf l < sizeOf v → Fine d (typifyZip rec l ids) := fun l hl =>
    typifyZip_fine fun u hu r hr => hc r hr u (Nat.lt_trans (List.sizeOf_lt_of_mem hu) hl)
  unfold typifyTuple
  split
  · split
    · exact .ok
    · exact hn
  · split
    · exact .err
    · exact (hz _ (by simp only [Val.tuple.sizeOf_spec]; omega)).bind fun _ => .ok
  · exact (hz _ (by simp only [Val.list.sizeOf_spec]; omega)).bind fun _ => .ok
  · exact hn

/-- One layer: asked about are smaller values, and the same value for what the type wraps. -/
theorem typifyTy_fine {E : Env} {v : Val} {t : Ty SemId}
    (hc : ∀ r ∈ t.refs, ∀ u, sizeOf u < sizeOf v → Fine d (rec u r))
    (hw : ∀ r, EnclosesTy t r → Fine d (rec v r)) : Fine d (typifyTy rec E v t) := by
  cases t with
  | primitive p => exact typifyPrim_fine p v
  | unicodeChar => exact typifyUnicode_fine v
  | enum vs => exact typifyEnum_fine vs v
  | union vs => exact typifyUnion_fine hc hw
  | tuple ids => exact typifyTuple_fine hc hw
  | struct req =>
    show Fine d (typifyStruct rec req v)
    unfold typifyStruct
    split
    · split
      · exact .err
      · refine Fine.bind (typifyFields_fine fun p hp r hr => hc r hr p.2 ?_) fun _ => .ok
        have := sizeOf_field hp
        simp only [Val.struct.sizeOf_spec]
        omega
    · refine Fine.bind (typifyMapFields_fine fun p hp r hr => hc r hr p.2 ?_) fun _ => .ok
      have := sizeOf_pair_fst hp
      simp only [Val.map.sizeOf_spec]
      omega
    · exact .err
  | array id len =>
    show Fine d (typifyArray E id len v)
    unfold typifyArray
    repeat' split
    all_goals first | exact .ok | exact .err
  | list id sz =>
    show Fine d (typifyList rec E id sz v)
    unfold typifyList
    split
    · repeat' split
      all_goals first | exact .ok | exact .err
    · repeat' split
      all_goals first | exact .ok | exact .err
    · split
      · exact .err
      · refine Fine.bind (outMap_fine fun u hu => hc id (by simp [Ty.refs]) u ?_) fun _ => .ok
        have := List.sizeOf_lt_of_mem hu
        simp only [Val.list.sizeOf_spec]
        omega
    · exact .err
  | set id sz =>
    show Fine d (typifySet rec id sz v)
    unfold typifySet
    split
    · split
      · exact .err
      · refine Fine.bind (typifySetItems_fine fun u hu => hc id (by simp [Ty.refs]) u ?_) fun _ => .ok
        have := List.sizeOf_lt_of_mem hu
        simp only [Val.set.sizeOf_spec]
        omega
    · exact .err
  | map kid id sz =>
    show Fine d (typifyMap rec kid id sz v)
    unfold typifyMap
    split
    · split
      · exact .err
      · refine Fine.bind (typifyMapItems_fine fun p hp => ?_) fun _ => .ok
        have := sizeOf_pair_fst hp
        exact ⟨hc kid (by simp [Ty.refs]) p.1 (by simp only [Val.map.sizeOf_spec]; omega),
          hc id (by simp [Ty.refs]) p.2 (by simp only [Val.map.sizeOf_spec]; omega)⟩
    · exact .err

end

variable {E : Env}

theorem typify_no_panic (n : Nat) (v : Val) (id : SemId) : typify E n v id ≠ .panic := by
  induction n generalizing v id with
  | zero => exact nofun
  | succ n ih =>
    unfold typify
    split
    · exact nofun
    · exact (typifyTy_fine (d := false) (fun r _ u _ => ⟨ih u r, nofun⟩) fun r _ => ⟨ih v r, nofun⟩).1

theorem typify_mono_ne {n m : Nat} (h : n ≤ m) {v : Val} {id : SemId} (hv : typify E n v id ≠ .diverge) :
    typify E m v id = typify E n v id :=
  (typify_le (Env.Agree.refl E) h trivial v).ne hv

theorem write_mono_ne {n m : Nat} (h : n ≤ m) {v : Val} {id : SemId} (hv : write E n v id ≠ .diverge) :
    write E m v id = write E n v id :=
  (write_le (Env.Agree.refl E) h trivial v).ne hv

/-- One fuel for all of a list. -/
theorem common_fuel {P : SemId → Nat → Prop} (hm : ∀ r n m, n ≤ m → P r n → P r m) :
    ∀ {l : List SemId}, (∀ r ∈ l, ∃ n, P r n) → ∃ n, ∀ r ∈ l, P r n
  | [], _ => ⟨0, nofun⟩
  | r :: l, h => by
    obtain ⟨n, hn⟩ := h r (by simp)
    obtain ⟨m, hm'⟩ := common_fuel hm (l := l) fun r hr => h r (by simp [hr])
    refine ⟨max n m, fun x hx => ?_⟩
    rcases List.mem_cons.mp hx with rfl | hx
    · exact hm _ _ _ (Nat.le_max_left n m) hn
    · exact hm _ _ _ (Nat.le_max_right n m) (hm' x hx)

/-- Without an endless chain every place has been reached from below. -/
theorem acc_wraps {id : SemId} (h : ¬ Endless E id) : Acc (fun a b => Encloses E b a) id := by
  refine Classical.byContradiction fun hn => h ?_
  let P := { p : SemId // ¬ Acc (fun a b => Encloses E b a) p }
  have step : ∀ p : P, ∃ q : P, Encloses E p.1 q.1 := fun p => by
    refine Classical.byContradiction fun hq => p.2 ⟨_, fun r hr => ?_⟩
    exact Classical.byContradiction fun hr' => hq ⟨⟨r, hr'⟩, hr⟩
  let g : Nat → P := fun k => Nat.rec (⟨id, hn⟩ : P) (fun _ p => Classical.choose (step p)) k
  exact ⟨fun k => (g k).1, rfl, fun k => Classical.choose_spec (step (g k))⟩

theorem EnclosesTy.wraps {t : Ty SemId} {id r : SemId} (h : EnclosesTy t r) (hf : E.find id = some t) : Encloses E id r := by
  rcases h with rfl | ⟨u, rfl⟩
  · exact .tuple hf
  · exact .option hf

theorem Encloses.ty {id r : SemId} (h : Encloses E id r) : ∃ t, E.find id = some t ∧ EnclosesTy t r := by
  cases h with
  | tuple h => exact ⟨_, h, .inl rfl⟩
  | option h => exact ⟨_, h, .inr ⟨_, rfl⟩⟩

theorem typify_ends (hs : E.Sane) {id : SemId} (h : ∀ j, Reach E.sys (· = id) j → ¬ Endless E j) (s : Nat) :
    ∀ j, Reach E.sys (· = id) j → ∃ n, ∀ v, sizeOf v ≤ s → Fine true (typify E n v j) := by
  have hm : ∀ s r n m, n ≤ m → (∀ v : Val, sizeOf v ≤ s → Fine true (typify E n v r)) →
      ∀ v : Val, sizeOf v ≤ s → Fine true (typify E m v r) := fun s r n m hnm hv v hs => by
    rw [typify_mono_ne hnm ((hv v hs).2 rfl)]; exact hv v hs
  induction s with
  | zero => exact fun j _ => ⟨0, fun v hv => by cases v <;> simp at hv⟩
  | succ s ih =>
    intro j hj
    have hacc := acc_wraps (h j hj)
    induction hacc with
    | intro j _ iha =>
    cases ht : E.find j with
    | none =>
      refine ⟨1, fun v _ => ?_⟩
      unfold typify
      split
      · exact .err
      · rename_i t ht'
        unfold Env.typeOf at ht'
        split at ht'
        · cases ht'
          exact typifyPrim_fine _ _
        · rw [ht] at ht'; cases ht'
    | some t =>
      obtain ⟨n, hn⟩ := common_fuel (P := fun r n => ∀ v : Val, sizeOf v ≤ s → Fine true (typify E n v r))
        (fun r n m => hm s r n m) (l := t.refs) fun r hr => ih r (.step hj ht hr)
      obtain ⟨m, hm'⟩ := common_fuel
        (P := fun r n => EnclosesTy t r → ∀ v : Val, sizeOf v ≤ s + 1 → Fine true (typify E n v r))
        (fun r n m hnm hv hw => hm (s + 1) r n m hnm (hv hw)) (l := t.refs) fun r hr => by
          by_cases hw : EnclosesTy t r
          · obtain ⟨k, hk⟩ := iha r (hw.wraps ht) (.step hj ht hr)
            exact ⟨k, fun _ => hk⟩
          · exact ⟨0, fun h => absurd h hw⟩
      refine ⟨max n m + 1, fun v hv => ?_⟩
      simp only [typify, hs.typeOf ht]
      refine typifyTy_fine (fun r hr u hu => ?_) fun r hr => ?_
      · exact hm s r n _ (Nat.le_max_left n m) (hn r hr) u (by omega)
      · exact hm (s + 1) r m _ (Nat.le_max_right n m) (hm' r hr.refs hr) v hv

/-- A number is asked about exactly along the wrappers. -/
theorem typify_num {t : Ty SemId} {rec : Val → SemId → Out TErr Val} {x : Num} :
    typifyTy rec E (.num x) t = .diverge ↔ ∃ r, EnclosesTy t r ∧ rec (.num x) r = .diverge := by
  constructor
  · intro h
    cases t with
    | primitive p =>
      exact absurd h ((typifyPrim_fine (d := true) p (.num x)).2 rfl)
    | enum vs =>
      exact absurd h ((typifyEnum_fine (d := true) vs (.num x)).2 rfl)
    | union vs =>
      have h : (if (Ty.union vs).isOption then typifySome rec vs (.num x) else .err .typeMismatch) = .diverge := h
      split at h
      · rename_i ho
        obtain ⟨u, r, rfl⟩ := isOption_iff.mp ho
        have h : (rec (.num x) r >>= fun i => pure (Val.some i)) = .diverge := h
        refine ⟨r, .inr ⟨u, rfl⟩, ?_⟩
        cases hr : rec (.num x) r with
        | diverge => rfl
        | _ => rw [hr] at h; cases h
      · cases h
    | tuple ids =>
      rcases ids with _ | ⟨r, _ | ⟨r', ids⟩⟩
      · cases h
      · have h : (rec (.num x) r >>= fun i => pure (Val.tuple [i])) = .diverge := h
        refine ⟨r, .inl rfl, ?_⟩
        cases hr : rec (.num x) r with
        | diverge => rfl
        | _ => rw [hr] at h; cases h
      · cases h
    | _ => cases h
  · rintro ⟨r, rfl | ⟨u, rfl⟩, h⟩
    · show (rec (.num x) r >>= _) = _
      rw [h]; rfl
    · have : typifyTy rec E (.num x) (.union [(⟨n!"none", 0⟩, u), (⟨n!"some", 1⟩, r)]) =
          (rec (.num x) r >>= fun i => pure (.some i)) := rfl
      rw [this, h]; rfl

/-- Checking a number never ends exactly for endless wrappers. -/
theorem typify_num_diverge (hs : E.Sane) {x : Num} {id : SemId} :
    (∀ n, typify E n (.num x) id = .diverge) ↔ Endless E id := by
  constructor
  · intro h
    let P := { p : SemId // ∀ n, typify E n (.num x) p = .diverge }
    have step : ∀ p : P, ∃ q : P, Encloses E p.1 q.1 := fun p => by
      cases ht : E.find p.1 with
      | none =>
        have := p.2 1
        unfold typify at this
        split at this
        · cases this
        · rename_i t ht'
          unfold Env.typeOf at ht'
          split at ht'
          · cases ht'
            exact absurd this ((typifyPrim_fine (d := true) _ (.num x)).2 rfl)
          · rw [ht] at ht'; cases ht'
      | some t =>
        refine Classical.byContradiction fun hq => ?_
        have hend : ∀ r ∈ t.refs, ∃ n, EnclosesTy t r → typify E n (.num x) r ≠ .diverge := fun r _ => by
          refine Classical.byContradiction fun hr => ?_
          have hr : ∀ n, EnclosesTy t r ∧ typify E n (.num x) r = .diverge := fun n =>
            Classical.byContradiction fun hc => hr ⟨n, fun hw he => hc ⟨hw, he⟩⟩
          exact hq ⟨⟨r, fun n => (hr n).2⟩, (hr 0).1.wraps ht⟩
        obtain ⟨n, hn⟩ := common_fuel (P := fun r n => EnclosesTy t r → typify E n (.num x) r ≠ .diverge)
          (fun r n m hnm hr hw => by rw [typify_mono_ne hnm (hr hw)]; exact hr hw) hend
        have hd := p.2 (n + 1)
        simp only [typify, hs.typeOf ht] at hd
        obtain ⟨r, hw, hr⟩ := typify_num.mp hd
        exact hn r hw.refs hw hr
    let g : Nat → P := fun k => Nat.rec (⟨id, h⟩ : P) (fun _ p => Classical.choose (step p)) k
    exact ⟨fun k => (g k).1, rfl, fun k => Classical.choose_spec (step (g k))⟩
  · rintro ⟨f, rfl, h⟩ n
    have : ∀ n k, typify E n (.num x) (f k) = .diverge := fun n => by
      induction n with
      | zero => exact fun _ => rfl
      | succ n ih =>
        intro k
        obtain ⟨t, ht, hw⟩ := (h k).ty
        simp only [typify, hs.typeOf ht]
        exact typify_num.mpr ⟨_, hw, ih (k + 1)⟩
    exact this n 0

/-! ### Writing -/

section
variable {rec : Val → SemId → Out EErr Bytes}

theorem Out.bind_ne {ε α β : Type} {o : Out ε α} {f : α → Out ε β} (h : o ≠ .diverge) (hf : ∀ a, f a ≠ .diverge) :
    (o >>= f) ≠ .diverge := by
  cases o with
  | ok a => exact hf a
  | err e => exact nofun
  | panic => exact nofun
  | diverge => exact absurd rfl h

theorem Out.expect_ne {ε α : Type} {o : Option α} : (Out.expect o : Out ε α) ≠ .diverge := by
  cases o <;> exact nofun

theorem Out.debugAssert_ne {ε : Type} {d b : Bool} : (Out.debugAssert d b : Out ε Unit) ≠ .diverge := by
  unfold Out.debugAssert
  split <;> exact nofun

theorem leSlice_ne {w c n : Nat} : leSlice w c n ≠ .diverge := by
  unfold leSlice
  split <;> exact nofun

theorem writeZip_ne : ∀ {l : List Val} {ids : List SemId}, (∀ v ∈ l, ∀ r, rec v r ≠ .diverge) →
    writeZip rec l ids ≠ .diverge
  | [], _, _ => by unfold writeZip; exact nofun
  | _ :: _, [], _ => nofun
  | v :: l, id :: ids, h => Out.bind_ne (h v (by simp) id) fun _ =>
    Out.bind_ne (writeZip_ne fun u hu r => h u (by simp [hu]) r) fun _ => nofun

theorem writeItems_ne {id : SemId} : ∀ {l : List Val}, (∀ v ∈ l, ∀ r, rec v r ≠ .diverge) →
    writeItems rec id l ≠ .diverge
  | [], _ => nofun
  | v :: l, h => Out.bind_ne (h v (by simp) id) fun _ =>
    Out.bind_ne (writeItems_ne fun u hu r => h u (by simp [hu]) r) fun _ => nofun

theorem writePairs_ne {kid id : SemId} : ∀ {l : List (Val × Val)},
    (∀ p ∈ l, ∀ r, rec p.1 r ≠ .diverge ∧ rec p.2 r ≠ .diverge) → writePairs rec kid id l ≠ .diverge
  | [], _ => nofun
  | (k, v) :: l, h => Out.bind_ne (h (k, v) (by simp) kid).1 fun _ => Out.bind_ne (h (k, v) (by simp) id).2 fun _ =>
    Out.bind_ne (writePairs_ne fun u hu r => h u (by simp [hu]) r) fun _ => nofun

theorem writeFields_ne {vals : List (Name × Val)} (h : ∀ p ∈ vals, ∀ r, rec p.2 r ≠ .diverge) :
    ∀ {req : List (Name × SemId)}, writeFields rec vals req ≠ .diverge
  | [] => nofun
  | (n, id) :: req => by
    unfold writeFields
    split
    · exact nofun
    · rename_i v hv
      exact Out.bind_ne (h (n, v) (imGet_in hv) id) fun _ => Out.bind_ne (writeFields_ne h) fun _ => nofun

theorem rstringSizing_ne {E : Env} {ids : List SemId} : E.rstringSizing ids ≠ .diverge := by
  unfold Env.rstringSizing
  refine Out.bind_ne Out.expect_ne fun _ => ?_
  repeat' split
  all_goals exact nofun

theorem isRString_ne {E : Env} {ids : List SemId} : E.isRString ids ≠ .diverge := by
  unfold Env.isRString
  split
  · exact nofun
  · refine Out.bind_ne Out.expect_ne fun _ => Out.bind_ne rstringSizing_ne fun a => ?_
    repeat' split
    all_goals exact nofun

/-- One layer of writing: only parts of the value are written. -/
theorem writeTy_ne {E : Env} {v : Val} {t : Ty SemId} (h : ∀ u, sizeOf u < sizeOf v → ∀ r, rec u r ≠ .diverge) :
    writeTy rec E v t ≠ .diverge := by
  have hl : ∀ l : List Val, sizeOf l < sizeOf v → ∀ u ∈ l, ∀ r, rec u r ≠ .diverge := fun l hl u hu =>
    h u (Nat.lt_trans (List.sizeOf_lt_of_mem hu) hl)
  cases t with
  | primitive p =>
    show writePrim E p v ≠ _
    unfold writePrim
    split
    · exact Out.bind_ne Out.debugAssert_ne fun _ => nofun
    all_goals first | exact leSlice_ne | exact nofun
  | unicodeChar =>
    cases v with
    | str s => exact Out.bind_ne Out.debugAssert_ne fun _ => nofun
    | _ => exact nofun
  | enum vs =>
    show writeEnum E vs v ≠ _
    unfold writeEnum
    split
    · exact Out.bind_ne Out.debugAssert_ne fun _ => nofun
    · exact Out.bind_ne Out.expect_ne fun _ => nofun
    · exact nofun
  | union vs =>
    show writeUnion rec vs v ≠ _
    unfold writeUnion
    split
    · refine Out.bind_ne Out.expect_ne fun _ => Out.bind_ne (h _ ?_ _) fun _ => nofun
      simp only [Val.union.sizeOf_spec]
      omega
    · refine Out.bind_ne Out.expect_ne fun _ => Out.bind_ne (h _ ?_ _) fun _ => nofun
      simp only [Val.union.sizeOf_spec]
      omega
    · exact nofun
  | tuple ids =>
    show writeTuple rec E ids v ≠ _
    unfold writeTuple
    split
    · exact Out.bind_ne Out.debugAssert_ne fun _ => writeZip_ne (hl _ (by simp only [Val.tuple.sizeOf_spec]; omega))
    · split
      · split
        · split
          · exact Out.bind_ne Out.debugAssert_ne fun _ => nofun
          · rename_i h; exact absurd h rstringSizing_ne
          · exact nofun
        · exact nofun
        · rename_i h; exact absurd h isRString_ne
        · exact nofun
      · exact nofun
    · exact nofun
  | struct req =>
    show writeStruct rec E req v ≠ _
    unfold writeStruct
    split
    · refine Out.bind_ne Out.debugAssert_ne fun _ => writeFields_ne fun p hp => h _ ?_
      have := sizeOf_field hp
      simp only [Val.struct.sizeOf_spec]
      omega
    · exact nofun
  | array id len =>
    show writeArray E len v ≠ _
    unfold writeArray
    split
    · exact Out.bind_ne Out.debugAssert_ne fun _ => nofun
    · exact Out.bind_ne Out.debugAssert_ne fun _ => nofun
    · exact nofun
  | list id sz =>
    show writeList rec id sz v ≠ _
    unfold writeList
    split
    · exact nofun
    · exact nofun
    · exact Out.bind_ne (writeItems_ne (hl _ (by simp only [Val.list.sizeOf_spec]; omega))) fun _ => nofun
    · exact nofun
  | set id sz =>
    show writeSet rec id sz v ≠ _
    unfold writeSet
    split
    · exact Out.bind_ne (writeItems_ne (hl _ (by simp only [Val.set.sizeOf_spec]; omega))) fun _ => nofun
    · exact nofun
  | map kid id sz =>
    show writeMap rec kid id sz v ≠ _
    unfold writeMap
    split
    · refine Out.bind_ne (writePairs_ne fun p hp r => ?_) fun _ => nofun
      have := sizeOf_pair_fst hp
      exact ⟨h _ (by simp only [Val.map.sizeOf_spec]; omega) r, h _ (by simp only [Val.map.sizeOf_spec]; omega) r⟩
    · exact nofun

end

/-- Writing follows the value. -/
theorem write_ends {n : Nat} {v : Val} (h : sizeOf v ≤ n) (id : SemId) : write E n v id ≠ .diverge := by
  induction n generalizing v id with
  | zero => cases v <;> simp at h
  | succ n ih =>
    unfold write
    split
    · exact nofun
    · exact writeTy_ne fun u hu r => ih (by omega) r

end Verif
