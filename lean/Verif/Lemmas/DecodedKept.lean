import Verif.Lemmas.Refused

/-! # Which decoded values `typify` keeps -/

namespace Verif

variable {E : Env} {rec : Val → SemId → Out TErr Val}

theorem prim_strict {R : Val → SemId → Prop} {v : Val} {p : Byte} (h : Inhabits E false R v (.primitive p)) :
    Inhabits E true R v (.primitive p) := by
  cases h with
  | unit => exact .unit
  | uint h1 h2 h3 => exact .uint h1 h2 h3
  | byte h => exact .byte h
  | int h1 h2 h3 h4 => exact .int h1 h2 h3 h4
  | bigUint h1 h2 h3 => exact .bigUint h1 h2 h3
  | bigInt h1 h2 h3 h4 => exact .bigInt h1 h2 h3 h4

theorem prim_kept (hs : E.Sane) {id : SemId} {p : Byte} (hf : E.find id = some (.primitive p)) {v : Val}
    (hi : Inhabits E true (fun _ _ => False) v (.primitive p)) (ha : ¬ Altered E v id) :
    typifyTy rec E v (.primitive p) = .ok v := by
  have := typify_keeps hs (n := 1) (v := v) (id := id) ⟨_, hf, by
    cases hi with
    | unit => exact .unit
    | uint h1 h2 h3 => exact .uint h1 h2 h3
    | byte h => exact .byte h
    | int h1 h2 h3 h4 => exact .int h1 h2 h3 h4
    | bigUint h1 h2 h3 => exact .bigUint h1 h2 h3
    | bigInt h1 h2 h3 h4 => exact .bigInt h1 h2 h3 h4⟩ fun w i hsub => by
      cases hsub with
      | refl => exact ha
      | step hp => cases hp <;> cases hi
  simp only [typify, hs.typeOf hf] at this
  exact this

theorem check_of {sz : Sizing} {n : Nat} (h : ¬ (n < sz.min.toNat ∨ sz.max.toNat < n)) : sz.check n = true := by
  simp only [Sizing.check, Bool.and_eq_true, decide_eq_true_eq]
  omega

theorem read_kept_layer (hs : E.Sane) {n : Nat} {id : SemId} {t : Ty SemId} (hf : E.find id = some t) {bs rest : Bytes} {v : Val}
    (h : readTy (read E n) E id t bs = .ok (v, rest)) (ha : ¬ Altered E v id) (hu : ¬ Unfit E v id)
    (hp : ∀ w i, Part E v id w i → rec w i = .ok w) : typifyTy rec E v t = .ok v := by
  cases t with
  | primitive p => exact prim_kept hs hf (prim_strict (back_prim (D := True) hs h).1) ha
  | unicodeChar => cases h
  | enum vs =>
    have hwf : VariantsWF vs := hs.wf _ _ hf
    obtain ⟨⟨x, r⟩, -, h2⟩ := Out.bind_eq_ok.mp h
    dsimp only at h2
    split at h2
    · cases h2
    · rename_i m hm
      cases h2
      have hm := (enumNameByTag_iff hwf _ _).mp hm
      simp [typifyTy, typifyEnum, (enumTagByName_iff hwf _ _).mpr hm]
  | union vs =>
    have hwf : VariantsWF (vs.map Prod.fst) := hs.wf _ _ hf
    obtain ⟨⟨x, r⟩, -, h2⟩ := Out.bind_eq_ok.mp h
    dsimp only at h2
    split at h2
    · cases h2
    · rename_i p hpt
      obtain ⟨⟨w, r'⟩, -, h4⟩ := Out.bind_eq_ok.mp h2
      cases h4
      obtain ⟨hm, -⟩ := (unionByTag_iff hwf p _).mp hpt
      have := hp _ _ (.byName (t := p.1.tag) hf hm)
      simp [typifyTy, typifyUnion, (unionTyByName_iff hwf _ _).mpr ⟨_, hm⟩, this]
  | tuple ids =>
    replace h : readTupleTy _ E ids bs = .ok _ := h
    unfold readTupleTy at h
    obtain ⟨b, h1, h⟩ := Out.bind_eq_ok.mp h
    have h1' : E.isRString ids = .ok b := by
      unfold ofUnknown Out.mapErr at h1
      split at h1 <;> simp_all
    cases b with
    | true =>
      rw [if_pos rfl] at h
      obtain ⟨o, -, h⟩ := Out.bind_eq_ok.mp h
      have hids : ids.length = 2 := by
        obtain ⟨_, _, _, ⟨a, b, i, he, -⟩, -⟩ := rstring_of_isRString h1'
        rw [he]; rfl
      split at h
      · obtain ⟨s, rfl, -, -, has⟩ := readAscii_ok h
        simp only [typifyTy, typifyTuple]
        rw [if_pos ⟨has, hids⟩]
      · cases h
    | false =>
      rw [if_neg (by decide)] at h
      obtain ⟨⟨l, r⟩, h3, h⟩ := Out.bind_eq_ok.mp h
      cases h
      obtain ⟨hl, -⟩ := back_tuple (R := fun _ _ => True) (rd := read E n) (wr := write E n)
        (G := fun v id => ∀ w i, Sub E v id w i → ¬ Overread E w i) (fun id bs v rest hr => ⟨trivial, read_back hs hr⟩) h3
      have hlen := all2_length hl
      simp only [typifyTy, typifyTuple, hlen, ne_eq, not_true_eq_false, if_false]
      rw [typifyZip_id (all2_of_get hl fun k a b h1 h2 _ => hp _ _ (.tupleField hf h1 h2))]
      rfl
  | struct req =>
    obtain ⟨⟨fs, r⟩, h1, h2⟩ := Out.bind_eq_ok.mp h
    cases h2
    have hn : (req.map Prod.fst).Nodup := hs.fields _ _ hf
    obtain ⟨new, hnew, hall, -⟩ := back_fields (R := fun _ _ => True) (rd := read E n) (wr := write E n)
      (G := fun v id => ∀ w i, Sub E v id w i → ¬ Overread E w i)
      (fun id bs v rest hr => ⟨trivial, read_back hs hr⟩) (acc := []) (by simpa using hn) h1
    simp only [List.nil_append] at hnew
    subst hnew
    have hnames := typed_fields_names (R := fun _ _ => True) hall
    have hlen := all2_length hall
    simp only [typifyTy, typifyStruct, hlen, ne_eq, not_true_eq_false, if_false]
    rw [typifyFields_id (by simpa [hnames] using hn)]
    · rfl
    · intro f hfm
      have : f.1 ∈ req.map Prod.fst := by rw [← hnames]; exact List.mem_map_of_mem (f := Prod.fst) hfm
      obtain ⟨r, hr, he⟩ := List.mem_map.mp this
      refine ⟨r.2, (fieldTy_iff hn _ _).mpr (by rw [← he]; exact hr), hp _ _ (.structField (n := f.1) hf hfm ?_)⟩
      rw [← he]; exact hr
  | array i len =>
    simp only [readTy] at h
    split at h
    · rename_i hib
      obtain ⟨⟨b, r⟩, h1, h⟩ := Out.bind_eq_ok.mp h
      cases h
      obtain ⟨-, hl⟩ := readRaw_ok h1
      simp only [typifyTy, typifyArray, hib, if_true]
      rw [if_neg (by omega)]
    · obtain ⟨⟨l, r⟩, h1, h⟩ := Out.bind_eq_ok.mp h
      cases h
      obtain ⟨hl, -⟩ := back_items (R := fun _ _ => True) (rd := read E n) (wr := write E n)
        (G := fun v id => ∀ w i, Sub E v id w i → ¬ Overread E w i) (fun id bs v rest hr => ⟨trivial, read_back hs hr⟩) h1
      simp only [typifyTy, typifyArray]
      rw [if_neg (by omega)]
  | list i sz =>
    simp only [readTy, readList] at h
    split at h
    · cases h
    · rename_i u hu'
      split at h
      · rename_i hce
        obtain ⟨C, rfl, hC⟩ := (isCharEnum_iff u).mp hce
        obtain ⟨s, rfl, -, -, has⟩ := readAscii_ok h
        have hnby : i.isByte E.H = false := by
          cases hx : i.isByte E.H with
          | false => rfl
          | true =>
            rcases hs.byte i _ hx hu' with h | h <;> simp [Ty.BYTE, Ty.U8] at h
        simp [typifyTy, typifyList, check_of fun hc => hu (.listSize hf (.str s) hc), hnby, has]
      · split at h
        · rename_i hb
          obtain ⟨s, rfl, -⟩ := readBlob_ok h
          simp [typifyTy, typifyList, check_of fun hc => hu (.listSize hf (.bytes s) hc), hb.1]
        · split at h
          · rename_i huc
            obtain ⟨s, rfl, -⟩ := readString_ok h
            simp [typifyTy, typifyList, check_of fun hc => hu (.listSize hf (.str s) hc), huc.1]
          · obtain ⟨⟨l, r⟩, -, h⟩ := Out.bind_eq_ok.mp h
            cases h
            simp only [typifyTy, typifyList, check_of fun hc => hu (.listSize hf (.list l) hc)]
            rw [outMap_id fun u hu => hp _ _ (.listItem hf hu)]
            rfl
  | set i sz =>
    obtain ⟨⟨l, r⟩, -, h⟩ := Out.bind_eq_ok.mp h
    cases h
    simp only [typifyTy, typifySet, check_of fun hc => hu (.setSize hf (.set l) hc)]
    rw [typifySetItems_id (fun u hu => hp _ _ (.setItem hf hu)) (by
      apply Classical.byContradiction
      intro hne
      exact hu (.repeatedItem hf (by simpa using hne)))]
    rfl
  | map kid i sz =>
    obtain ⟨⟨l, r⟩, -, h⟩ := Out.bind_eq_ok.mp h
    cases h
    simp only [typifyTy, typifyMap, check_of fun hc => hu (.mapSize hf (.map l) hc)]
    rw [typifyMapItems_id (fun p hpm => ⟨hp _ _ (.mapKey hf hpm), hp _ _ (.mapValue hf hpm)⟩) (by
      apply Classical.byContradiction
      intro hne
      refine hu (.repeatedKey hf fun hpw => hne ?_)
      simpa [List.pairwise_map] using hpw)]
    rfl

theorem read_kept (hs : E.Sane) {n : Nat} {id : SemId} {bs rest : Bytes} {v : Val} (h : read E n id bs = .ok (v, rest))
    (ha : ∀ w i, Sub E v id w i → ¬ Altered E w i ∧ ¬ Unfit E w i) : typify E n v id = .ok v := by
  induction n generalizing id bs rest v with
  | zero => cases h
  | succ n ih =>
    simp only [read] at h
    split at h
    · cases h
    · rename_i t hf
      simp only [typify, hs.typeOf hf]
      refine read_kept_layer hs hf h (ha _ _ (.refl _ _)).1 (ha _ _ (.refl _ _)).2 fun w i hp => ?_
      obtain ⟨c, r, hr⟩ := part_read hs hf hp h
      exact ih hr fun u j hu => ha u j (.step hp hu)

theorem unfit_changed (hs : E.Sane) {n : Nat} {v : Val} {id : SemId} (hu : Unfit E v id) : typify E n v id ≠ .ok v := by
  intro h
  cases n with
  | zero => cases h
  | succ n =>
    have chk : ∀ {sz : Sizing} {m : Nat}, m < sz.min.toNat ∨ sz.max.toNat < m → sz.check m = false := by
      intro sz m h
      cases hc : sz.check m with
      | false => rfl
      | true =>
        simp only [Sizing.check, Bool.and_eq_true, decide_eq_true_eq] at hc
        omega
    obtain ⟨t, ht, ho⟩ := typify_out hs h
    cases hu with
    | listSize hf hc hb =>
      rw [hs.typeOf hf] at ht
      cases ht
      have := chk hb
      cases ho <;> cases hc <;> simp_all
    | setSize hf hc hb =>
      rw [hs.typeOf hf] at ht
      cases ht
      have := chk hb
      cases ho <;> cases hc <;> simp_all
    | mapSize hf hc hb =>
      rw [hs.typeOf hf] at ht
      cases ht
      have := chk hb
      cases ho <;> cases hc <;> simp_all
    | repeatedItem hf hr =>
      rw [hs.typeOf hf] at ht
      cases ht
      cases ho with
      | set _ _ hpw => exact hr hpw
    | repeatedKey hf hr =>
      rw [hs.typeOf hf] at ht
      cases ht
      cases ho with
      | map _ _ hpw => exact hr (List.pairwise_map.mp hpw)

theorem read_kept_only (hs : E.Sane) {m : Nat} {v w : Val} {id i : SemId} (hsub : Sub E v id w i) :
    (∃ n bs rest, read E n id bs = .ok (v, rest)) → typify E m v id = .ok v → ¬ Altered E w i ∧ ¬ Unfit E w i := by
  induction hsub generalizing m with
  | refl v id => exact fun _ h => ⟨fun ha => altered_changed hs ha h, fun hu => unfit_changed hs hu h⟩
  | step hp _ ih =>
    intro hr h
    cases m with
    | zero => cases h
    | succ m =>
      obtain ⟨t, hf⟩ := part_find hp
      simp only [typify, hs.typeOf hf] at h
      exact ih (read_part hs hr hp) (typify_parts hs hf (fun fs he => read_distinct hs fs hr he) hp h)

end Verif
