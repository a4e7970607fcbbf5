import Verif.Lemmas.RoundTripExact

/-! # Values that are never written -/

namespace Verif

variable {E : Env}

theorem leSlice_never {w c n : Nat} (h : w < c) (bs : Bytes) : leSlice w c n ≠ .ok bs := by
  unfold leSlice
  rw [if_neg (by omega)]
  intro h; cases h

theorem debugAssert_false {α : Type} {d b : Bool} {f : Unit → Out EErr α} (hd : d = true) (hb : b = false) :
    (Out.debugAssert d b >>= f) = .panic := by
  subst hd hb
  rfl

theorem refused_never (hs : E.Sane) {v : Val} {id : SemId} (h : Refused E v id) (n : Nat) (bs : Bytes) :
    write E n v id ≠ .ok bs := by
  cases n with
  | zero => intro h; cases h
  | succ n =>
    cases h with
    | arrayList hf => simp [write, hs.typeOf hf, writeTy, writeArray]
    | shortBytes hd hf hl =>
      simp only [write, hs.typeOf hf, writeTy, writeArray]
      rw [debugAssert_false hd (by simp; omega)]
      simp
    | shortString hd hf hl =>
      simp only [write, hs.typeOf hf, writeTy, writeArray]
      rw [debugAssert_false hd (by simp; omega)]
      simp
    | charString hf => simp [write, hs.typeOf hf, writeTy, writeEnum]
    | notRString hf hn =>
      simp only [write, hs.typeOf hf, writeTy, writeTuple]
      split
      · split
        · rename_i h
          obtain ⟨A, C, sz, hr, -⟩ := rstring_of_isRString h
          exact absurd hr (hn A C sz)
        all_goals simp
      · simp
    | @longRString _ ids A C sz s hd hf hr hl =>
      simp only [write, hs.typeOf hf, writeTy, writeTuple]
      split
      · split
        · rename_i h
          obtain ⟨a, b, c, rfl, ha, hA, hb, hc, hC⟩ := hr
          obtain ⟨A', C', sz', ⟨a', b', c', he, -, -, hb', -, -⟩, x, hx⟩ := rstring_of_isRString h
          cases he
          cases hb.symm.trans hb'
          rw [hx]
          by_cases hm : sz.min.toNat = 2 ^ 64 - 1 ∨ sz.max.toNat = 2 ^ 64 - 1
          · rw [(rstringSizing_panic hb hm hd).1] at hx
            cases hx
          · have h1 := sz.max.isLt
            have h2 := succ_toNat (x := sz.max) (by omega)
            dsimp only
            rw [debugAssert_false hd (by simp only [decide_eq_false_iff_not]; omega)]
            simp
        all_goals simp
      · simp
    | shortTuple hd hf hl =>
      simp only [write, hs.typeOf hf, writeTy, writeTuple]
      rw [debugAssert_false hd (by simp; omega)]
      simp
    | @missingField _ i req fs m hf hm hn =>
      simp only [write, hs.typeOf hf, writeTy, writeStruct]
      intro h
      obtain ⟨-, -, h4⟩ := Out.bind_eq_ok.mp h
      obtain ⟨v, c, h5, -⟩ := writeFields_each h4 _ hm
      simp only [imGet, Option.map_eq_some_iff] at h5
      obtain ⟨p, h6, -⟩ := h5
      have h7 := List.find?_some h6
      rw [beq_iff_eq] at h7
      exact hn (h7 ▸ List.mem_map_of_mem (f := Prod.fst) (List.mem_of_find?_eq_some h6))
    | wideUint hf hl =>
      simp only [write, hs.typeOf hf, writeTy, writePrim]
      exact leSlice_never hl bs
    | wideInt hf hl =>
      simp only [write, hs.typeOf hf, writeTy, writePrim]
      exact leSlice_never hl bs
    | hugeUint hf hl =>
      simp only [write, hs.typeOf hf, writeTy, writePrim]
      exact leSlice_never hl bs
    | hugeInt hf hl =>
      simp only [write, hs.typeOf hf, writeTy, writePrim]
      exact leSlice_never hl bs
    | @fullNone _ i s hf h1 h2 h3 =>
      have : Ty.unionByName [(⟨n!"none", 0⟩, i), (⟨n!"some", 1⟩, s)] Ty.noneName = some (⟨n!"none", 0⟩, i) := rfl
      simp only [write, hs.typeOf hf, writeTy, writeUnion, Val.none, this, Out.expect_some, Out.bind_ok]
      intro h
      obtain ⟨c, h4, -⟩ := Out.bind_eq_ok.mp h
      cases n with
      | zero => cases h4
      | succ n =>
        simp only [write] at h4
        have ht : E.typeOf i = E.find i := by
          unfold Env.typeOf
          rw [if_neg h1]
        rw [ht] at h4
        split at h4
        · cases h4
        · rename_i t hi
          cases t with
          | primitive p =>
            rcases h3 with h3 | h3
            · simp only [writeTy, writePrim] at h4
              rw [debugAssert_false h3 (by
                rw [beq_eq_false_iff_ne]
                rintro rfl
                exact h2 hi)] at h4
              cases h4
            · exact h3 p hi
          | _ => cases h4
    | @invalidChar _ b hd hf h1 h2 =>
      simp only [write, hs.typeOf hf, writeTy]
      have : isCont b = true := by simp only [isCont, Bool.and_eq_true, decide_eq_true_eq]; omega
      rw [debugAssert_false hd (by simp [charCount, this])]
      simp

theorem part_find {v w : Val} {id i : SemId} (h : Part E v id w i) : ∃ t, E.find id = some t := by
  cases h <;> exact ⟨_, ‹_›⟩

/-- A value with a refused part is not written, provided that the fields of its structs have distinct names. -/
theorem sub_refused {P : Val → SemId → Prop} (hs : E.Sane)
    (hd : ∀ v id fs, P v id → v = .struct fs → (fs.map Prod.fst).Nodup)
    (hp : ∀ v id w i, P v id → Part E v id w i → P w i) {v w : Val} {id i : SemId} (h : P v id) (hsub : Sub E v id w i)
    (hr : Refused E w i) : ∀ (n : Nat) bs, write E n v id ≠ .ok bs := by
  induction hsub with
  | refl => exact refused_never hs hr
  | @step v w u a b c hpart _ ih =>
    intro n bs hw
    cases n with
    | zero => cases hw
    | succ n =>
      obtain ⟨t, hf⟩ := part_find hpart
      simp only [write, hs.typeOf hf] at hw
      obtain ⟨c, hc⟩ := part_written hs hf (fun fs he => hd _ _ fs h he) hpart hw
      exact ih (hp _ _ _ _ h hpart) hr n c hc

/-- What `typify` returns, and the empty value in `none`. -/
def Returned (E : Env) (w : Val) (id : SemId) : Prop := (∃ n v, typify E n v id = .ok w) ∨ w = .unit

theorem returned_part (hs : E.Sane) {v w : Val} {id i : SemId} (h : Returned E v id) (hp : Part E v id w i) :
    Returned E w i := by
  rcases h with ⟨n, u, h⟩ | rfl
  · cases n with
    | zero => cases h
    | succ n =>
      obtain ⟨t, ht, ho⟩ := typify_out hs h
      have res : ∀ {w i}, IsResult (typify E n) w i → Returned E w i := fun ⟨v, hv⟩ => .inl ⟨n, v, hv⟩
      obtain ⟨t', hf⟩ := part_find hp
      rw [hs.typeOf hf] at ht
      cases ht
      cases hp with
      | listItem hf' hm =>
        cases hf.symm.trans hf'
        cases ho with
        | list _ hr => exact res (hr _ hm)
      | setItem hf' hm =>
        cases hf.symm.trans hf'
        cases ho with
        | set _ hr => exact res (hr _ hm)
      | mapKey hf' hm =>
        cases hf.symm.trans hf'
        cases ho with
        | map _ hr => exact res (hr _ hm).1
      | mapValue hf' hm =>
        cases hf.symm.trans hf'
        cases ho with
        | map _ hr => exact res (hr _ hm).2
      | tupleField hf' h1 h2 =>
        cases hf.symm.trans hf'
        generalize ht : Ty.tuple _ = t at ho
        cases ho with
        | @tuple ids ids' l ha =>
          cases ht
          have hl := all2_length ha
          have hk := (List.getElem?_eq_some_iff.mp h1).1
          rw [List.getElem?_append_left (by omega)] at h2
          exact res (all2_get ha h1 h2)
        | _ => cases ht
      | structField hf' h1 h2 =>
        cases hf.symm.trans hf'
        have hd : (List.map Prod.fst _).Nodup := hs.fields _ _ hf
        cases ho with
        | struct _ hr =>
          obtain ⟨j, h3, h4⟩ := hr _ h1
          rw [(fieldTy_iff hd _ _).mpr h2] at h3
          cases h3
          exact res h4
      | byName hf' h1 =>
        cases hf.symm.trans hf'
        have hwf : VariantsWF _ := hs.wf _ _ hf
        cases ho with
        | byName h2 hr =>
          rw [(unionTyByName_iff hwf _ _).mpr ⟨_, h1⟩] at h2
          cases h2
          exact res hr
        | none => exact .inr rfl
      | byTag hf' h1 =>
        cases hf.symm.trans hf'
        have hwf : VariantsWF _ := hs.wf _ _ hf
        cases ho with
        | byTag h2 hr =>
          rw [(unionTyByTag_iff hwf _ _).mpr ⟨_, h1⟩] at h2
          cases h2
          exact res hr
  · cases hp

theorem returned_distinct (hs : E.Sane) {v : Val} {id : SemId} (fs : List (Name × Val)) (h : Returned E v id)
    (he : v = .struct fs) : (fs.map Prod.fst).Nodup := by
  subst he
  rcases h with ⟨n, u, h⟩ | h
  · cases n with
    | zero => cases h
    | succ n =>
      obtain ⟨t, ht, ho⟩ := typify_out hs h
      cases ho with
      | struct hn => exact hn
  · cases h

theorem typifyFields_mem {rec : Val → SemId → Out TErr Val} {req : List (Name × SemId)}
    {fs acc new : List (Name × Val)} (h : typifyFields rec req fs acc = .ok new) :
    ∀ f ∈ fs, f.1 ∈ req.map Prod.fst := by
  induction fs generalizing acc with
  | nil => simp
  | cons f fs ih =>
    obtain ⟨n, v⟩ := f
    simp only [typifyFields] at h
    split at h
    · cases h
    · rename_i id hid
      obtain ⟨w, -, h2⟩ := Out.bind_eq_ok.mp h
      intro f hf
      rcases List.mem_cons.mp hf with rfl | hf
      · exact List.mem_map.mpr ⟨_, fieldTy_key hid, rfl⟩
      · exact ih h2 f hf

/-- Values with an incomplete part are not kept by `typify`. -/
theorem incomplete_changed (hs : E.Sane) {v w : Val} {id i : SemId} (hsub : Sub E v id w i) (h : Returned E v id)
    (hi : Incomplete E w i) : ∀ m, typify E m v id ≠ .ok v := by
  induction hsub with
  | refl v id =>
    intro m hm
    have hd := returned_distinct hs (v := v) (id := id)
    cases m with
    | zero => cases hm
    | succ m =>
      cases hi with
      | shortTuple hf hl =>
        simp only [typify, hs.typeOf hf, typifyTy, typifyTuple] at hm
        rw [if_pos (by omega)] at hm
        cases hm
      | @missingField _ j req fs n hf hr hn =>
        simp only [typify, hs.typeOf hf, typifyTy, typifyStruct] at hm
        split at hm
        · cases hm
        · rename_i hlen
          obtain ⟨ws, h1, -⟩ := Out.bind_eq_ok.mp hm
          have h2 := nodup_length_le (l := n :: fs.map Prod.fst) (m := req.map Prod.fst)
            (List.nodup_cons.mpr ⟨hn, hd fs h rfl⟩) (by
              intro a ha
              rcases List.mem_cons.mp ha with rfl | ha
              · exact List.mem_map_of_mem (f := Prod.fst) hr
              · obtain ⟨f, hf, rfl⟩ := List.mem_map.mp ha
                exact typifyFields_mem h1 f hf)
          simp at h2
          omega
      | @fullNone _ j s hf h1 h2 =>
        simp only [typify, hs.typeOf hf] at hm
        have hp : Part E .none _ .unit j := Part.byName (n := Ty.noneName) (t := 0) hf (.head _)
        have h3 := typify_parts hs hf (fun _ he => by cases he) hp hm
        cases m with
        | zero => cases h3
        | succ m =>
          obtain ⟨t, h4, h5⟩ := typify_out hs h3
          cases h5
          unfold Env.typeOf at h4
          rw [if_neg h1] at h4
          exact h2 h4
  | step hp _ ih =>
    intro m hm
    cases m with
    | zero => cases hm
    | succ m =>
      obtain ⟨t, hf⟩ := part_find hp
      simp only [typify, hs.typeOf hf] at hm
      exact ih (returned_part hs h hp) hi m (typify_parts hs hf (fun fs he => returned_distinct hs fs h he) hp hm)

theorem read_part (hs : E.Sane) {v w : Val} {id i : SemId} (h : ∃ n bs rest, read E n id bs = .ok (v, rest))
    (hp : Part E v id w i) : ∃ n bs rest, read E n i bs = .ok (w, rest) := by
  obtain ⟨n, bs, rest, h⟩ := h
  cases n with
  | zero => cases h
  | succ n =>
    obtain ⟨t, hf⟩ := part_find hp
    simp only [read, hf] at h
    obtain ⟨c, r, hr⟩ := part_read hs hf hp h
    exact ⟨n, c, r, hr⟩

theorem read_distinct (hs : E.Sane) {v : Val} {id : SemId} (fs : List (Name × Val))
    (h : ∃ n bs rest, read E n id bs = .ok (v, rest)) (he : v = .struct fs) : (fs.map Prod.fst).Nodup := by
  subst he
  obtain ⟨n, bs, rest, h⟩ := h
  cases n with
  | zero => cases h
  | succ n =>
    simp only [read] at h
    split at h
    · cases h
    rename_i t hf
    cases t with
    | primitive p => cases (back_prim (E := E) (R := fun _ _ => True) (D := True) hs h).1
    | unicodeChar => cases h
    | enum vs =>
      obtain ⟨⟨x, r⟩, -, h2⟩ := Out.bind_eq_ok.mp h
      dsimp only at h2
      split at h2 <;> cases h2
    | union vs =>
      obtain ⟨⟨x, r⟩, -, h2⟩ := Out.bind_eq_ok.mp h
      dsimp only at h2
      split at h2
      · cases h2
      · obtain ⟨⟨w, r'⟩, -, h4⟩ := Out.bind_eq_ok.mp h2
        cases h4
    | tuple ids =>
      replace h : readTupleTy _ E ids bs = .ok _ := h
      unfold readTupleTy at h
      obtain ⟨b, -, h⟩ := Out.bind_eq_ok.mp h
      split at h
      · obtain ⟨b, -, h⟩ := Out.bind_eq_ok.mp h
        split at h
        · obtain ⟨s, h, -⟩ := readAscii_ok h
          cases h
        · cases h
      · obtain ⟨⟨l, r⟩, -, h⟩ := Out.bind_eq_ok.mp h
        cases h
    | struct req =>
      obtain ⟨⟨fs', r⟩, h1, h2⟩ := Out.bind_eq_ok.mp h
      cases h2
      have hn : (req.map Prod.fst).Nodup := hs.fields _ _ hf
      obtain ⟨new, hnew, ha, -⟩ := back_fields (R := fun _ _ => True) (rd := read E n) (wr := write E n)
        (G := fun v id => ∀ w i, Sub E v id w i → ¬ Overread E w i) (fun id bs v rest hr => ⟨trivial, read_back hs hr⟩) (acc := []) (by simpa using hn) h1
      simp only [List.nil_append] at hnew
      subst hnew
      rw [typed_fields_names (R := fun _ _ => True) ha]
      exact hn
    | array id len =>
      simp only [readTy] at h
      split at h
      · obtain ⟨⟨b, r⟩, -, h⟩ := Out.bind_eq_ok.mp h
        cases h
      · obtain ⟨⟨b, r⟩, -, h⟩ := Out.bind_eq_ok.mp h
        cases h
    | list id sz =>
      simp only [readTy, readList] at h
      split at h
      · cases h
      · split at h
        · obtain ⟨s, h, -⟩ := readAscii_ok h
          cases h
        · split at h
          · obtain ⟨s, h, -⟩ := readBlob_ok h
            cases h
          · split at h
            · obtain ⟨s, h, -⟩ := readString_ok h
              cases h
            · obtain ⟨⟨b, r⟩, -, h⟩ := Out.bind_eq_ok.mp h
              cases h
    | set id sz =>
      obtain ⟨⟨b, r⟩, -, h⟩ := Out.bind_eq_ok.mp h
      cases h
    | map kid id sz =>
      obtain ⟨⟨b, r⟩, -, h⟩ := Out.bind_eq_ok.mp h
      cases h

theorem Overread.refused {v : Val} {id : SemId} (h : Overread E v id) : Refused E v id := by
  cases h with
  | array hf => exact .arrayList hf
  | longRString hd hf hr hl => exact .longRString hd hf hr (Or.inr (Or.inr hl))

theorem sub_keeps {P : Val → SemId → Prop} (hp : ∀ v id w i, P v id → Part E v id w i → P w i) {v w : Val} {id i : SemId}
    (h : P v id) (hs : Sub E v id w i) : P w i := by
  induction hs with
  | refl => exact h
  | step hpart _ ih => exact ih (hp _ _ _ _ h hpart)

/-- The system has no types whose values are read but not written. -/
theorem read_not_over (ha : E.ByteArrays) (hd : E.debug = false ∨ E.TightRStrings) {n : Nat} {id : SemId} {bs rest : Bytes}
    {v : Val} (h : read E n id bs = .ok (v, rest)) : ¬ Overread E v id := by
  intro ho
  cases n with
  | zero => cases h
  | succ n =>
    cases ho with
    | array hf =>
      simp only [read, hf, readTy, ha _ _ _ hf, if_true] at h
      obtain ⟨⟨b, r⟩, -, h⟩ := Out.bind_eq_ok.mp h
      cases h
    | @longRString _ ids A C sz s hdb hf hr hl =>
      have ht : E.TightRStrings := by
        rcases hd with hd | hd
        · rw [hd] at hdb; cases hdb
        · exact hd
      simp only [read, hf, readTy, readTupleTy] at h
      obtain ⟨b, h1, h2⟩ := Out.bind_eq_ok.mp h
      have h1' : E.isRString ids = .ok b := by
        unfold ofUnknown Out.mapErr at h1
        split at h1 <;> simp_all
      cases b with
      | false => exact isRString_ne_false hr h1'
      | true =>
        obtain ⟨A', C', sz', hr', c, hsz⟩ := rstring_of_isRString h1'
        obtain ⟨a, b, c, rfl, -, -, hb, -⟩ := hr
        obtain ⟨a', b', c', he, -, -, hb', -⟩ := _root_.id hr'
        cases he
        cases hb.symm.trans hb'
        rw [if_pos rfl] at h2
        simp only [hsz, ofUnknown, Out.mapErr, Out.bind_ok] at h2
        obtain ⟨s', he, -, hl', -⟩ := readAscii_ok h2
        cases he
        have hle : (sz.max + 1).toNat ≤ sz.max.toNat + 1 := by
          have h1 : (1 : BitVec 64).toNat = 1 := rfl
          rw [BitVec.toNat_add, h1]
          exact Nat.mod_le _ _
        have hl'' : s.length < 256 ^ prefixWidth (sz.max.toNat + 1) := by
          rw [byteSize_eq] at hl'
          exact Nat.lt_of_lt_of_le hl' (Nat.pow_le_pow_right (by decide) (prefixWidth_mono hle))
        have := ht _ _ _ _ _ hf hr' s.length hl''
        omega

end Verif
