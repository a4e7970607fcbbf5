import Verif.Lemmas.Typify
import Verif.Lemmas.Utf8

/-!
# Typifying results again and serialising them
-/

namespace Verif

variable {E : Env} {rec : Val → SemId → Out TErr Val}

theorem sub_result (hs : E.Sane) {n : Nat} {v w w' : Val} {id id' : SemId}
    (h : typify E n v id = .ok w) (hp : Sub E w id w' id') :
    (∃ m v', m ≤ n ∧ typify E m v' id' = .ok w') ∨ w' = .unit := by
  induction hp generalizing n v with
  | refl w id => exact Or.inl ⟨n, v, Nat.le_refl n, h⟩
  | step h1 h2 ih =>
    cases n with
    | zero => cases h
    | succ n =>
      rcases part_result hs h h1 with ⟨v', h'⟩ | ⟨rfl, -⟩
      · rcases ih h' with ⟨m, u, hm, hu⟩ | h
        · exact Or.inl ⟨m, u, by omega, hu⟩
        · exact Or.inr h
      · cases h2 with
        | refl => exact Or.inr rfl
        | step h1 => cases h1

theorem typeOf_find {id : SemId} {t : Ty SemId} (h : E.typeOf id = some t) (hne : t ≠ Ty.UNIT) :
    E.find id = some t := by
  unfold Env.typeOf at h
  split at h
  · exact absurd (Option.some.inj h).symm hne
  · exact h

/-! ## Typifying a value of the right shape -/

theorem outMap_id {id : SemId} {l : List Val} (h : ∀ v ∈ l, rec v id = .ok v) :
    outMap (fun v => rec v id) l = .ok l := by
  induction l with
  | nil => rfl
  | cons v l ih =>
    simp [outMap, h v (by simp), ih fun w hw => h w (by simp [hw])]

theorem typifyZip_id {l : List Val} {ids : List SemId} (h : All2 (fun v i => rec v i = .ok v) l ids) :
    typifyZip rec l ids = .ok l := by
  induction l generalizing ids with
  | nil => rfl
  | cons v l ih =>
    cases ids with
    | nil => exact h.elim
    | cons id ids => simp [typifyZip, h.1, ih h.2]

theorem typifyFields_id {req : List (Name × SemId)} {fs acc : List (Name × Val)}
    (hn : (acc.map Prod.fst ++ fs.map Prod.fst).Nodup)
    (h : ∀ f ∈ fs, ∃ id, Ty.fieldTy req f.1 = some id ∧ rec f.2 id = .ok f.2) :
    typifyFields rec req fs acc = .ok (acc ++ fs) := by
  induction fs generalizing acc with
  | nil => simp [typifyFields]
  | cons f fs ih =>
    obtain ⟨n, v⟩ := f
    obtain ⟨id, h1, h2⟩ := h (n, v) (by simp)
    dsimp only at h1 h2
    have hnot : n ∉ acc.map Prod.fst := by
      intro hmem
      exact (List.nodup_append.mp hn).2.2 n hmem n (by simp) rfl
    simp only [typifyFields, h1, h2, Out.bind_ok, imInsert_append hnot]
    rw [ih (by simpa using hn) fun f hf => h f (by simp [hf])]
    simp

theorem typifySetItems_id {id : SemId} {l acc : List Val} (h : ∀ v ∈ l, rec v id = .ok v)
    (hp : (acc ++ l).Pairwise (fun a b => a.eqv b = false)) :
    typifySetItems rec id l acc = .ok (acc ++ l) := by
  induction l generalizing acc with
  | nil => simp [typifySetItems]
  | cons v l ih =>
    have hany : acc.any (fun a => a.eqv v) = false := by
      rw [List.any_eq_false]
      intro a ha
      have := (List.pairwise_append.mp hp).2.2 a ha v (by simp)
      simp [this]
    simp only [typifySetItems, h v (by simp), Out.bind_ok, hany]
    rw [if_neg (by simp), ih (fun w hw => h w (by simp [hw])) (by simpa using hp)]
    simp

theorem typifyMapItems_id {kid id : SemId} {l acc : List (Val × Val)}
    (h : ∀ p ∈ l, rec p.1 kid = .ok p.1 ∧ rec p.2 id = .ok p.2)
    (hp : ((acc ++ l).map Prod.fst).Pairwise (fun a b => a.eqv b = false)) :
    typifyMapItems rec kid id l acc = .ok (acc ++ l) := by
  induction l generalizing acc with
  | nil => simp [typifyMapItems]
  | cons p l ih =>
    obtain ⟨k, v⟩ := p
    have hany : acc.any (fun a => a.1.eqv k) = false := by
      rw [List.any_eq_false]
      intro a ha
      rw [List.map_append] at hp
      have := (List.pairwise_append.mp hp).2.2 a.1 (List.mem_map.mpr ⟨a, ha, rfl⟩) k (by simp)
      simp [this]
    have h1 := h (k, v) (by simp)
    dsimp only at h1
    simp only [typifyMapItems, h1, Out.bind_ok, hany]
    rw [if_neg (by simp), ih (fun w hw => h w (by simp [hw])) (by simpa using hp)]
    simp

theorem fieldTy_key {req : List (Name × SemId)} {n : Name} {id : SemId}
    (h : Ty.fieldTy req n = some id) : (n, id) ∈ req := by
  simp only [Ty.fieldTy, Option.map_eq_some_iff] at h
  obtain ⟨⟨m, i⟩, h1, rfl⟩ := h
  have := List.find?_some h1
  simp only [beq_iff_eq] at this
  subst this
  exact List.mem_of_find?_eq_some h1

theorem fields_length {req : List (Name × SemId)} {fs : List (Name × Val)}
    (hd : (req.map Prod.fst).Nodup) (hn : (fs.map Prod.fst).Nodup)
    (h1 : ∀ f ∈ fs, f.1 ∈ req.map Prod.fst) (h2 : ∀ r ∈ req, r.1 ∈ fs.map Prod.fst) :
    fs.length = req.length := by
  have a := nodup_length_le (m := req.map Prod.fst) hn fun n hn => by
    obtain ⟨f, hf, rfl⟩ := List.mem_map.mp hn
    exact h1 f hf
  have b := nodup_length_le (m := fs.map Prod.fst) hd fun n hn => by
    obtain ⟨f, hf, rfl⟩ := List.mem_map.mp hn
    exact h2 f hf
  simp only [List.length_map] at a b
  omega

theorem unit_typify {i : SemId} (n : Nat) (h : i = SemId.unit E.H ∨ E.find i = some Ty.UNIT) :
    typify E (n + 1) .unit i = .ok .unit := by
  have : E.typeOf i = some Ty.UNIT := by
    unfold Env.typeOf
    split
    · rfl
    · rcases h with h | h
      · contradiction
      · exact h
  simp [typify, this, typifyTy, typifyPrim, Ty.UNIT]

theorem option_none {vs : List (Variant × SemId)} {id : SemId} (ho : (Ty.union vs).isOption = true)
    (hf : E.find id = some (.union vs)) {Q : Prop}
    (hn : ∀ i s, E.find id = some (.union [(⟨n!"none", 0⟩, i), (⟨n!"some", 1⟩, s)]) →
      i ≠ SemId.unit E.H → E.find i ≠ some Ty.UNIT → Q) (hq : ¬ Q) :
    ∃ i s, vs = [(⟨n!"none", 0⟩, i), (⟨n!"some", 1⟩, s)] ∧
      (i = SemId.unit E.H ∨ E.find i = some Ty.UNIT) := by
  obtain ⟨i, s, rfl⟩ := isOption_iff.mp ho
  refine ⟨i, s, rfl, ?_⟩
  by_cases h1 : i = SemId.unit E.H
  · exact Or.inl h1
  · by_cases h2 : E.find i = some Ty.UNIT
    · exact Or.inr h2
    · exact absurd (hn i s hf h1 h2) hq

theorem typify_again (hs : E.Sane) {n : Nat} {v w : Val} {id : SemId}
    (h : typify E n v id = .ok w) (hc : ∀ w' id', Sub E w id w' id' → ¬ Incomplete E w' id') :
    typify E (n + 1) w id = .ok w := by
  induction n generalizing v w id with
  | zero => cases h
  | succ n ih =>
    obtain ⟨t, ht, ho⟩ := typify_out hs h
    have hpart : ∀ {w' id'}, Part E w id w' id' → IsResult (typify E n) w' id' →
        typify E (n + 1) w' id' = .ok w' := by
      intro w' id' hp hr
      obtain ⟨v', hr⟩ := hr
      exact ih hr fun u i hu => hc u i (.step hp hu)
    have hself := hc w id (.refl w id)
    have hgoal : typifyTy (typify E (n + 1)) E w t = .ok w := by
      cases ho with
      | unit => rfl
      | uint hp => simp [typifyTy, typifyPrim, hp]
      | int hp => simp [typifyTy, typifyPrim, hp]
      | bigUint hp => simp [typifyTy, typifyPrim, hp]
      | bigInt hp => simp [typifyTy, typifyPrim, hp]
      | unicodeChar hl => simp [typifyTy, typifyUnicode, hl]
      | charString hl htag =>
        simp only [typifyTy, typifyEnum]
        rw [if_pos ⟨hl, htag⟩]
      | enum hm =>
        obtain ⟨t, hm⟩ := hm
        have hwf : VariantsWF _ := hs.typeOf_wf ht
        simp [typifyTy, typifyEnum, (enumTagByName_iff hwf _ _).mpr hm]
      | byName hid hr =>
        have hf := typeOf_find ht (by simp [Ty.UNIT])
        have hwf : VariantsWF _ := hs.wf _ _ hf
        obtain ⟨t, hm⟩ := (unionTyByName_iff hwf _ _).mp hid
        simp [typifyTy, typifyUnion, hid, hpart (.byName hf hm) hr]
      | byTag hid hr =>
        have hf := typeOf_find ht (by simp [Ty.UNIT])
        have hwf : VariantsWF _ := hs.wf _ _ hf
        obtain ⟨t, hm⟩ := (unionTyByTag_iff hwf _ _).mp hid
        simp [typifyTy, typifyUnion, hid, hpart (.byTag hf hm) hr]
      | none ho =>
        have hf := typeOf_find ht (by simp [Ty.UNIT])
        obtain ⟨i, s, rfl, hi⟩ := option_none ho hf
          (fun i s hf h1 h2 => Incomplete.fullNone hf h1 h2) hself
        have : Ty.unionTyByName [(⟨n!"none", 0⟩, i), (⟨n!"some", 1⟩, s)] Ty.noneName = some i := rfl
        simp only [typifyTy, typifyUnion, Val.none]
        rw [this]
        simp [unit_typify n hi]
      | @tuple ids ids' l ha =>
        have hf := typeOf_find ht (by simp [Ty.UNIT])
        have hl := all2_length ha
        have hnil : ids' = [] := by
          cases ids' with
          | nil => rfl
          | cons x xs => exact absurd (.shortTuple hf (by simp; omega)) hself
        subst hnil
        rw [List.append_nil] at hf ⊢
        simp only [typifyTy, typifyTuple, hl, ne_eq, not_true_eq_false, if_false]
        rw [typifyZip_id (all2_of_get ha fun k a b ha hb hr => hpart (.tupleField hf ha hb) hr)]
        rfl
      | rstring ha hl =>
        simp only [typifyTy, typifyTuple]
        rw [if_pos ⟨ha, hl⟩]
      | @struct req fs hn hr =>
        have hf := typeOf_find ht (by simp [Ty.UNIT])
        have hd : (req.map Prod.fst).Nodup := hs.fields _ _ hf
        have hlen : fs.length = req.length := by
          apply fields_length hd hn
          · intro f hfm
            obtain ⟨i, h1, -⟩ := hr f hfm
            exact List.mem_map.mpr ⟨_, fieldTy_key h1, rfl⟩
          · intro r hrm
            apply Classical.byContradiction
            intro hne
            exact hself (.missingField (n := r.1) (i := r.2) hf hrm hne)
        simp only [typifyTy, typifyStruct, hlen, ne_eq, not_true_eq_false, if_false]
        rw [typifyFields_id (by simpa using hn)]
        · rfl
        · intro f hfm
          obtain ⟨i, h1, h2⟩ := hr f hfm
          exact ⟨i, h1, hpart (.structField (n := f.1) hf hfm (fieldTy_key h1)) h2⟩
      | arrayBytes hb hl =>
        simp only [typifyTy, typifyArray, hb, if_true]
        rw [if_neg (by omega)]
      | arrayString hl hk =>
        simp only [typifyTy, typifyArray, hk, if_true]
        rw [if_neg (by omega)]
      | arrayList hl =>
        simp only [typifyTy, typifyArray]
        rw [if_neg (by omega)]
      | string hk hkk =>
        rcases hkk with hu | ⟨hb, ha⟩
        · simp [typifyTy, typifyList, hk, hu]
        · simp [typifyTy, typifyList, hk, hb, ha]
      | bytes hk hb => simp [typifyTy, typifyList, hk, hb]
      | list hk hr =>
        have hf := typeOf_find ht (by simp [Ty.UNIT])
        simp only [typifyTy, typifyList, hk]
        rw [outMap_id fun v hv => hpart (.listItem hf hv) (hr v hv)]
        rfl
      | set hk hr hp =>
        have hf := typeOf_find ht (by simp [Ty.UNIT])
        simp only [typifyTy, typifySet, hk]
        rw [typifySetItems_id (fun v hv => hpart (.setItem hf hv) (hr v hv)) (by simpa using hp)]
        rfl
      | map hk hr hp =>
        have hf := typeOf_find ht (by simp [Ty.UNIT])
        simp only [typifyTy, typifyMap, hk]
        rw [typifyMapItems_id (fun p hm => ⟨hpart (.mapKey hf hm) (hr p hm).1,
          hpart (.mapValue hf hm) (hr p hm).2⟩) (by simpa using hp)]
        rfl
    simp only [typify, ht]
    exact hgoal

/-! ## Serialising results -/

/-- The function returns a value. -/
def Oks {ε α : Type} (o : Out ε α) : Prop := ∃ a, o = .ok a

theorem Oks.bind {ε α β : Type} {o : Out ε α} {f : α → Out ε β} (h : Oks o) (hf : ∀ a, Oks (f a)) :
    Oks (o >>= f) := by
  obtain ⟨a, rfl⟩ := h
  exact hf a

theorem Oks.pure {ε α : Type} (a : α) : Oks (.ok a : Out ε α) := ⟨a, rfl⟩

variable {wr : Val → SemId → Out EErr Bytes}

theorem writeItems_oks {id : SemId} {l : List Val} (h : ∀ v ∈ l, Oks (wr v id)) :
    Oks (writeItems wr id l) := by
  induction l with
  | nil => exact .pure _
  | cons v l ih =>
    exact (h v (by simp)).bind fun _ => (ih fun w hw => h w (by simp [hw])).bind fun _ => .pure _

theorem writePairs_oks {kid id : SemId} {l : List (Val × Val)}
    (h : ∀ p ∈ l, Oks (wr p.1 kid) ∧ Oks (wr p.2 id)) : Oks (writePairs wr kid id l) := by
  induction l with
  | nil => exact .pure _
  | cons p l ih =>
    have := h p (by simp)
    exact this.1.bind fun _ => this.2.bind fun _ =>
      (ih fun w hw => h w (by simp [hw])).bind fun _ => .pure _

theorem writeZip_oks {l : List Val} {ids ids' : List SemId} (h : All2 (fun v i => Oks (wr v i)) l ids) :
    Oks (writeZip wr l (ids ++ ids')) := by
  induction l generalizing ids with
  | nil => exact .pure _
  | cons v l ih =>
    cases ids with
    | nil => exact h.elim
    | cons i ids => exact h.1.bind fun _ => (ih h.2).bind fun _ => .pure _

theorem imGet_some {V : Type} {fs : List (Name × V)} {n : Name} (h : n ∈ fs.map Prod.fst) :
    ∃ v, imGet fs n = some v ∧ (n, v) ∈ fs := by
  induction fs with
  | nil => simp at h
  | cons f fs ih =>
    obtain ⟨m, v⟩ := f
    by_cases hm : m = n
    · subst hm
      exact ⟨v, by simp [imGet], by simp⟩
    · simp only [List.map_cons, List.mem_cons] at h
      rcases h with h | h
      · exact absurd h.symm hm
      · obtain ⟨w, h1, h2⟩ := ih h
        refine ⟨w, ?_, by simp [h2]⟩
        have : (m == n) = false := beq_eq_false_iff_ne.mpr hm
        simpa [imGet, List.find?_cons, this] using h1

theorem writeFields_oks {fs : List (Name × Val)} {req : List (Name × SemId)}
    (h : ∀ r ∈ req, ∃ v, imGet fs r.1 = some v ∧ Oks (wr v r.2)) :
    Oks (writeFields wr fs req) := by
  induction req with
  | nil => exact .pure _
  | cons r req ih =>
    obtain ⟨n, i⟩ := r
    obtain ⟨v, h1, h2⟩ := h (n, i) (by simp)
    dsimp only at h1 h2
    simp only [writeFields, h1]
    exact h2.bind fun _ => (ih fun r hr => h r (by simp [hr])).bind fun _ => .pure _

theorem debugAssert_oks {ε : Type} {d b : Bool} (h : d = true → b = true) :
    Oks (Out.debugAssert d b : Out ε Unit) := by
  cases d with
  | false => exact ⟨(), by simp [Out.debugAssert]⟩
  | true => exact ⟨(), debugAssert_true (h rfl)⟩

theorem leSlice_oks {w c n : Nat} (h : c ≤ w) : Oks (leSlice w c n) := by
  unfold leSlice
  rw [if_pos h]
  exact .pure _

theorem unit_write {i : SemId} (n : Nat) (h : i = SemId.unit E.H ∨ E.find i = some Ty.UNIT) :
    Oks (write E (n + 1) .unit i) := by
  have : E.typeOf i = some Ty.UNIT := by
    unfold Env.typeOf
    split
    · rfl
    · rcases h with h | h
      · contradiction
      · exact h
  refine ⟨[], ?_⟩
  simp [write, this, writeTy, writePrim, Ty.UNIT, Out.debugAssert]

theorem utf8_one {s : Bytes} (hl : s.length = 1) (hv : utf8Valid s = true) : charCount s = 1 := by
  match s, hl with
  | [a], _ =>
    unfold utf8Valid at hv
    split at hv
    · rename_i ha
      have hn : isCont a = false := by simp [isCont]; omega
      simp [charCount, hn]
    · simp at hv

theorem write_result (hs : E.Sane) (hsz : E.primSize Ty.UNIT_CODE ≤ 8) {n : Nat} {v w : Val}
    {id : SemId} (h : typify E n v id = .ok w)
    (hc : ∀ w' id', Sub E w id w' id' → ¬ Refused E w' id') : Oks (write E (n + 1) w id) := by
  induction n generalizing v w id with
  | zero => cases h
  | succ n ih =>
    obtain ⟨t, ht, ho⟩ := typify_out hs h
    have hpart : ∀ {w' id'}, Part E w id w' id' → IsResult (typify E n) w' id' →
        Oks (write E (n + 1) w' id') := by
      intro w' id' hp hr
      obtain ⟨v', hr⟩ := hr
      exact ih hr fun u i hu => hc u i (.step hp hu)
    have hself := hc w id (.refl w id)
    have hprim : ∀ {p : Byte} {m : Nat}, t = .primitive p → 8 ≤ m →
        (∀ hf : E.find id = some (.primitive p), m < E.primSize p → Refused E w id) →
        E.primSize p ≤ m := by
      intro p m he hm hr
      by_cases hu : p = Ty.UNIT_CODE
      · subst hu; omega
      · have hf := typeOf_find ht (by rw [he]; simp [Ty.UNIT, hu])
        rw [he] at hf
        apply Classical.byContradiction
        intro hlt
        exact hself (hr hf (by omega))
    have hgoal : Oks (writeTy (write E (n + 1)) E w t) := by
      cases ho with
      | unit => exact (debugAssert_oks (by simp)).bind fun _ => .pure _
      | uint hp => exact leSlice_oks (hprim rfl (by omega) fun hf h => .wideUint hf h)
      | int hp => exact leSlice_oks (hprim rfl (by omega) fun hf h => .wideInt hf h)
      | bigUint hp => exact leSlice_oks (hprim rfl (by omega) fun hf h => .hugeUint hf h)
      | bigInt hp => exact leSlice_oks (hprim rfl (by omega) fun hf h => .hugeInt hf h)
      | unicodeChar hl =>
        have hf := typeOf_find ht (by simp [Ty.UNIT])
        rename_i s
        refine (debugAssert_oks fun hd => ?_).bind fun _ => .pure _
        match s, hl with
        | [a], _ =>
          cases hc : isCont a with
          | false => simp [charCount, hc]
          | true =>
            simp only [isCont, Bool.and_eq_true, decide_eq_true_eq] at hc
            exact absurd (.invalidChar hd hf (by omega) (by omega)) hself
      | charString hl htag =>
        exact absurd (.charString (typeOf_find ht (by simp [Ty.UNIT]))) hself
      | enum hm =>
        obtain ⟨t, hm⟩ := hm
        have hwf : VariantsWF _ := hs.typeOf_wf ht
        simp only [writeTy, writeEnum, (enumTagByName_iff hwf _ _).mpr hm]
        exact .pure _
      | byName hid hr =>
        have hf := typeOf_find ht (by simp [Ty.UNIT])
        have hwf : VariantsWF _ := hs.wf _ _ hf
        obtain ⟨t, hm⟩ := (unionTyByName_iff hwf _ _).mp hid
        have hn := (unionByName_iff hwf _ _).mpr ⟨hm, rfl⟩
        dsimp only at hn
        simp only [writeTy, writeUnion, hn]
        exact (hpart (.byName hf hm) hr).bind fun _ => .pure _
      | byTag hid hr =>
        have hf := typeOf_find ht (by simp [Ty.UNIT])
        have hwf : VariantsWF _ := hs.wf _ _ hf
        obtain ⟨t, hm⟩ := (unionTyByTag_iff hwf _ _).mp hid
        simp only [writeTy, writeUnion, hid]
        exact (hpart (.byTag hf hm) hr).bind fun _ => .pure _
      | none ho =>
        have hf := typeOf_find ht (by simp [Ty.UNIT])
        obtain ⟨i, s, rfl⟩ := isOption_iff.mp ho
        have : Ty.unionByName [(⟨n!"none", 0⟩, i), (⟨n!"some", 1⟩, s)] Ty.noneName =
          some (⟨n!"none", 0⟩, i) := rfl
        simp only [writeTy, writeUnion, Val.none, this, Out.expect_some, Out.bind_ok]
        refine Oks.bind ?_ fun _ => .pure _
        by_cases h1 : i = SemId.unit E.H
        · exact unit_write n (Or.inl h1)
        by_cases h2 : E.find i = some Ty.UNIT
        · exact unit_write n (Or.inr h2)
        by_cases h3 : E.debug = true ∨ ∀ p, E.find i ≠ some (.primitive p)
        · exact absurd (.fullNone hf h1 h2 h3) hself
        · have h4 : E.debug = false := by
            cases hd : E.debug with
            | false => rfl
            | true => exact absurd (Or.inl hd) h3
          obtain ⟨p, hp⟩ : ∃ p, E.find i = some (.primitive p) := by
            apply Classical.byContradiction
            intro hne
            exact h3 (Or.inr fun p hp => hne ⟨p, hp⟩)
          exact ⟨[], by simp [write, hs.typeOf hp, writeTy, writePrim, Out.debugAssert, h4]⟩
      | @tuple ids ids' l ha =>
        have hf := typeOf_find ht (by simp [Ty.UNIT])
        have hl := all2_length ha
        refine (debugAssert_oks fun hd => ?_).bind fun _ => writeZip_oks (all2_of_get ha
          fun k a b ha hb hr => hpart (.tupleField hf ha ?_) hr)
        · cases ids' with
          | nil => simp [hl]
          | cons x xs => exact absurd (.shortTuple hd hf (by simp; omega)) hself
        · rw [List.getElem?_append_left (List.getElem?_eq_some_iff.mp hb).1]
          exact hb
      | @rstring ids s ha hl =>
        have hf := typeOf_find ht (by simp [Ty.UNIT])
        obtain ⟨A, C, sz, hr⟩ : ∃ A C sz, E.RString ids A C sz := by
          apply Classical.byContradiction
          intro hne
          refine hself (.notRString hf fun A C sz hr => hne ⟨A, C, sz, hr⟩)
        have hok : E.debug = true → sz.min.toNat < 2 ^ 64 - 1 ∧ sz.max.toNat < 2 ^ 64 - 1 ∧
            s.length ≤ sz.max.toNat + 1 := by
          intro hd
          have h1 := sz.min.isLt
          have h2 := sz.max.isLt
          apply Classical.byContradiction
          intro hne
          exact hself (.longRString hd hf hr (by omega))
        obtain ⟨h1, c, h2⟩ := isRString_true hr (by
          cases hd : E.debug with
          | false => exact Or.inl rfl
          | true => exact Or.inr ⟨(hok hd).1, (hok hd).2.1⟩)
        simp only [writeTy, writeTuple, ha, h1, h2, if_true]
        refine (debugAssert_oks fun hd => ?_).bind fun _ => .pure _
        have := succ_toNat (hok hd).2.1
        have := (hok hd).2.2
        simp only [decide_eq_true_eq]
        omega
      | @struct req fs hn hr =>
        have hf := typeOf_find ht (by simp [Ty.UNIT])
        have hd : (req.map Prod.fst).Nodup := hs.fields _ _ hf
        have hall : ∀ r ∈ req, r.1 ∈ fs.map Prod.fst := by
          intro r hrm
          apply Classical.byContradiction
          intro hne
          exact hself (.missingField (n := r.1) (i := r.2) hf hrm hne)
        have hlen : fs.length = req.length := by
          apply fields_length hd hn _ hall
          intro f hfm
          obtain ⟨i, h1, -⟩ := hr f hfm
          exact List.mem_map.mpr ⟨_, fieldTy_key h1, rfl⟩
        refine (debugAssert_oks fun _ => by simpa using hlen).bind fun _ =>
          writeFields_oks fun r hrm => ?_
        obtain ⟨u, hu, hum⟩ := imGet_some (hall r hrm)
        refine ⟨u, hu, ?_⟩
        obtain ⟨i, h1, h2⟩ := hr _ hum
        have := (fieldTy_iff hd r.1 r.2).mpr hrm
        rw [this] at h1
        cases h1
        exact hpart (.structField (n := r.1) hf hum hrm) h2
      | arrayBytes hb hl =>
        have hf := typeOf_find ht (by simp [Ty.UNIT])
        refine (debugAssert_oks fun hd => ?_).bind fun _ => .pure _
        rename_i len b
        rw [beq_iff_eq]
        apply Classical.byContradiction
        intro hne
        exact hself (.shortBytes hd hf (by omega))
      | arrayString hl hcs =>
        have hf := typeOf_find ht (by simp [Ty.UNIT])
        refine (debugAssert_oks fun hd => ?_).bind fun _ => .pure _
        rename_i len b
        rw [beq_iff_eq]
        apply Classical.byContradiction
        intro hne
        exact hself (.shortString hd hf (by omega))
      | arrayList hl => exact absurd (.arrayList (typeOf_find ht (by simp [Ty.UNIT]))) hself
      | string hcs hk => exact .pure _
      | bytes hcs hb => exact .pure _
      | list hcs hr =>
        have hf := typeOf_find ht (by simp [Ty.UNIT])
        exact (writeItems_oks fun v hv => hpart (.listItem hf hv) (hr v hv)).bind fun _ => .pure _
      | set hcs hr hp =>
        have hf := typeOf_find ht (by simp [Ty.UNIT])
        exact (writeItems_oks fun v hv => hpart (.setItem hf hv) (hr v hv)).bind fun _ => .pure _
      | map hcs hr hp =>
        have hf := typeOf_find ht (by simp [Ty.UNIT])
        exact (writePairs_oks fun p hm => ⟨hpart (.mapKey hf hm) (hr p hm).1,
          hpart (.mapValue hf hm) (hr p hm).2⟩).bind fun _ => .pure _
    simp only [write, ht]
    exact hgoal

/-! ## Typifying well-typed values -/

/-- One layer: what is well typed stays as it is, if the parts do. Numbers of more than 64 and less than 128 bits,
unsigned numbers of 128 bits, raw bytes and characters are not covered. -/
theorem typify_layer {rec : Val → SemId → Out TErr Val} {R : Val → SemId → Prop} (hs : E.Sane) {id : SemId}
    {t : Ty SemId} (hf : E.find id = some t) {v : Val} (hi : Inhabits E true R v t)
    (hp : ∀ p, t = .primitive p → (p.toNat ≤ 8 ∨ 16 < p.toNat) ∧ (p.toNat ≤ 0x48 ∨ 0x4f < p.toNat) ∧ p ≠ Ty.BYTE_CODE)
    (hnu : t ≠ .unicodeChar)
    (hrec : (∀ i sz, t = .list i sz → i.isByte E.H = false ∧ i.isUnicodeChar E.H = false) →
      (∀ i len, t ≠ .array i len) → ∀ r ∈ t.refs, ∀ u, R u r → rec u r = .ok u) :
    typifyTy rec E v t = .ok v := by
  have hwf := hs.wf id t hf
  have chk : ∀ {sz : Sizing} {m : Nat}, SizeOk true sz.min.toNat sz.max.toNat m →
      sz.check m = true := by
    intro sz m h
    simp only [SizeOk, if_true] at h
    simp [Sizing.check, h]
  cases hi with
  | unit => rfl
  | @uint m x h1 h8 hx =>
    have : isSmallUnsigned (BitVec.ofNat 8 m) = true := by
      simp [isSmallUnsigned, BitVec.toNat_ofNat]; omega
    simp [typifyTy, typifyPrim, this]
  | byte hx => exact absurd rfl (hp _ rfl).2.2
  | @int m x h1 h8 =>
    have : isSmallSigned (BitVec.ofNat 8 (0x40 + m)) = true := by
      simp [isSmallSigned, BitVec.toNat_ofNat]; omega
    simp only [typifyTy, typifyPrim, this, if_true]
  | @bigUint p _ h1 h2 =>
    have : isLargeUnsigned p = true := by have := (hp _ rfl).1; simp [isLargeUnsigned]; omega
    simp only [typifyTy, typifyPrim, this, if_true]
  | @bigInt p _ h1 h2 =>
    have : isLargeSigned p = true := by have := (hp _ rfl).2.1; simp [isLargeSigned]; omega
    simp only [typifyTy, typifyPrim, this, if_true]
  | unicodeChar => exact absurd rfl hnu
  | enum hm =>
    have hwf : VariantsWF _ := hwf
    simp [typifyTy, typifyEnum, (enumTagByName_iff hwf _ _).mpr hm]
  | @union vs n' t' i u hm hu =>
    have hwf : VariantsWF _ := hwf
    have hr : i ∈ (Ty.union vs).refs := List.mem_map.mpr ⟨_, hm, rfl⟩
    have := hrec (by simp) (by simp) i hr u hu
    simp [typifyTy, typifyUnion, (unionTyByName_iff hwf _ _).mpr ⟨_, hm⟩, this]
  | @tuple l ids hnr ha =>
    have hlen := all2_length ha
    simp only [typifyTy, typifyTuple, hlen, ne_eq, not_true_eq_false, if_false]
    rw [typifyZip_id (all2_impR (m := ids) (fun u i hi hu =>
      hrec (by simp) (by simp) i hi u hu) ha)]
    rfl
  | @rstring A C sz ids c s hr hc hcs hl =>
    obtain ⟨a, b, c', rfl, ha, hA, hb', hc', hC⟩ := hr
    have : isAscii (c :: s) = true := isAscii_of fun x hx => by
      rcases List.mem_cons.mp hx with rfl | hx
      · exact charOk_ascii hA hc
      · exact charOk_ascii hC (hcs x hx)
    simp only [typifyTy, typifyTuple]
    rw [if_pos ⟨this, rfl⟩]
  | rstringEmpty _ hst => cases hst
  | @struct fs req ha =>
    have hlen := all2_length ha
    have hd : (req.map Prod.fst).Nodup := hs.fields _ _ hf
    have hnames : fs.map Prod.fst = req.map Prod.fst := by
      clear hf hrec hwf hlen hd hp hnu
      induction fs generalizing req with
      | nil =>
        cases req with
        | nil => rfl
        | cons _ _ => exact ha.elim
      | cons f fs ih' =>
        cases req with
        | nil => exact ha.elim
        | cons r req => simp [ha.1.1, ih' ha.2]
    simp only [typifyTy, typifyStruct, hlen, ne_eq, not_true_eq_false, if_false]
    rw [typifyFields_id (by simpa [hnames] using hd)]
    · rfl
    · intro f hfm
      obtain ⟨k, hk⟩ := List.getElem?_of_mem hfm
      have hk' : k < req.length := by
        rw [← hlen]; exact (List.getElem?_eq_some_iff.mp hk).1
      have hg := all2_get ha hk (List.getElem?_eq_getElem hk')
      have hmem : req[k] ∈ req := List.getElem_mem hk'
      refine ⟨req[k].2, (fieldTy_iff hd _ _).mpr ?_,
        hrec (by simp) (by simp) _ (List.mem_map.mpr ⟨_, hmem, rfl⟩) _ hg.2⟩
      rw [hg.1]
      exact hmem
  | byteArray hib hl =>
    simp only [typifyTy, typifyArray, hib, if_true]
    rw [if_neg (by omega)]
  | array hib hl =>
    simp only [typifyTy, typifyArray]
    rw [if_neg (by omega)]
  | @asciiList i C sz s hce hcs hsz =>
    have hia : isAscii s = true := isAscii_of fun x hx => charOk_ascii hce.2 (hcs x hx)
    have hnby : i.isByte E.H = false := by
      cases hx : i.isByte E.H with
      | false => rfl
      | true =>
        rcases hs.byte i _ hx hce.1 with h | h <;> simp [Ty.BYTE, Ty.U8] at h
    simp [typifyTy, typifyList, chk hsz, hnby, hia]
  | byteList hib hsz => simp [typifyTy, typifyList, chk hsz, hib]
  | unicodeList _ hu _ hsz => simp [typifyTy, typifyList, chk hsz, hu]
  | list hnb' hnu' hnce hmem hsz hr =>
    simp only [typifyTy, typifyList, chk hsz]
    rw [outMap_id fun u hu => hrec
      (fun i sz he => by cases he; exact ⟨hnb', hnu'⟩) (by simp) _ (by simp [Ty.refs]) u (hr u hu)]
    rfl
  | set hmem hsz hr hdis =>
    simp only [typifyTy, typifySet, chk hsz]
    rw [typifySetItems_id (fun u hu => hrec (by simp) (by simp) _ (by simp [Ty.refs]) u
      (hr u hu)) (by simpa using hdis rfl)]
    rfl
  | map hmem hsz hr hdis =>
    simp only [typifyTy, typifyMap, chk hsz]
    rw [typifyMapItems_id (fun p hp => ⟨hrec (by simp) (by simp) _ (by simp [Ty.refs]) _
      (hr p hp).1, hrec (by simp) (by simp) _ (by simp [Ty.refs]) _ (hr p hp).2⟩)
      (by simpa using hdis rfl)]
    rfl

end Verif
