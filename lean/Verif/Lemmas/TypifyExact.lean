import Verif.Lemmas.TypifyOut
import Verif.Lemmas.RoundTrip

/-! # Which well-typed values `typify` leaves as they are -/

namespace Verif

variable {E : Env}

/-! ## Items kept one by one -/

theorem all2_diag {α : Type} {P : α → α → Prop} {l : List α} (h : All2 P l l) : ∀ x ∈ l, P x x := by
  induction l with
  | nil => simp
  | cons a l ih =>
    intro x hx
    rcases List.mem_cons.mp hx with rfl | hx
    · exact h.1
    · exact ih h.2 x hx

theorem outMap_each {f : Val → Out TErr Val} {l ws : List Val} (h : outMap f l = .ok ws) :
    All2 (fun v w => f v = .ok w) l ws := by
  induction l generalizing ws with
  | nil => cases h; trivial
  | cons v l ih =>
    obtain ⟨w, h1, h2⟩ := Out.bind_eq_ok.mp h
    obtain ⟨ws', h3, h4⟩ := Out.bind_eq_ok.mp h2
    cases h4
    exact ⟨h1, ih h3⟩

variable {rec : Val → SemId → Out TErr Val}

theorem typifyZip_each {l : List Val} {ids : List SemId} (h : typifyZip rec l ids = .ok l) :
    ∀ (k : Nat) v i, l[k]? = some v → ids[k]? = some i → rec v i = .ok v := by
  induction l generalizing ids with
  | nil => simp
  | cons v l ih =>
    cases ids with
    | nil => simp
    | cons i ids =>
      obtain ⟨w, h1, h2⟩ := Out.bind_eq_ok.mp h
      obtain ⟨ws', h3, h4⟩ := Out.bind_eq_ok.mp h2
      cases h4
      intro k u j hk hi
      cases k with
      | zero => simp only [List.getElem?_cons_zero, Option.some.injEq] at hk hi; subst hk hi; exact h1
      | succ k => exact ih h3 k u j (by simpa using hk) (by simpa using hi)

theorem typifyFields_each {req : List (Name × SemId)} {fs acc new : List (Name × Val)}
    (hn : (acc.map Prod.fst ++ fs.map Prod.fst).Nodup) (h : typifyFields rec req fs acc = .ok new) :
    ∃ ws, new = acc ++ ws ∧
      All2 (fun f w => f.1 = w.1 ∧ ∃ i, Ty.fieldTy req f.1 = some i ∧ rec f.2 i = .ok w.2) fs ws := by
  induction fs generalizing acc with
  | nil => cases h; exact ⟨[], by simp, trivial⟩
  | cons f fs ih =>
    obtain ⟨n, v⟩ := f
    simp only [typifyFields] at h
    split at h
    · cases h
    · rename_i id hid
      obtain ⟨w, h1, h2⟩ := Out.bind_eq_ok.mp h
      have hni : n ∉ acc.map Prod.fst := by
        intro hm
        rw [List.nodup_append] at hn
        exact hn.2.2 n hm n (by simp) rfl
      rw [imInsert_append hni] at h2
      obtain ⟨ws, rfl, h3⟩ := ih (acc := acc ++ [(n, w)]) (by simpa using hn) h2
      exact ⟨(n, w) :: ws, by simp, ⟨⟨rfl, id, hid, h1⟩, h3⟩⟩

theorem typifySetItems_each {id : SemId} {l acc ws : List Val} (h : typifySetItems rec id l acc = .ok ws) :
    ∃ us, ws = acc ++ us ∧ All2 (fun v w => rec v id = .ok w) l us := by
  induction l generalizing acc with
  | nil => cases h; exact ⟨[], by simp, trivial⟩
  | cons v l ih =>
    obtain ⟨w, h1, h2⟩ := Out.bind_eq_ok.mp h
    split at h2
    · cases h2
    · obtain ⟨us, rfl, h3⟩ := ih h2
      exact ⟨w :: us, by simp, ⟨h1, h3⟩⟩

theorem typifyMapItems_each {kid id : SemId} {l acc ws : List (Val × Val)}
    (h : typifyMapItems rec kid id l acc = .ok ws) :
    ∃ us, ws = acc ++ us ∧ All2 (fun v w => rec v.1 kid = .ok w.1 ∧ rec v.2 id = .ok w.2) l us := by
  induction l generalizing acc with
  | nil => cases h; exact ⟨[], by simp, trivial⟩
  | cons v l ih =>
    obtain ⟨w, h1, h2⟩ := Out.bind_eq_ok.mp h
    obtain ⟨u, h3, h4⟩ := Out.bind_eq_ok.mp h2
    split at h4
    · cases h4
    · obtain ⟨us, rfl, h5⟩ := ih h4
      exact ⟨(w, u) :: us, by simp, ⟨⟨h1, h3⟩, h5⟩⟩

/-! ## One layer -/

/-- The fields of a well-typed struct have the declared names. -/
theorem typed_fields_names {R : Val → SemId → Prop} {fs : List (Name × Val)} {req : List (Name × SemId)}
    (ha : All2 (fun f r => f.1 = r.1 ∧ R f.2 r.2) fs req) : fs.map Prod.fst = req.map Prod.fst := by
  induction fs generalizing req with
  | nil =>
    cases req with
    | nil => rfl
    | cons _ _ => exact ha.elim
  | cons f fs ih' =>
    cases req with
    | nil => exact ha.elim
    | cons r req => simp [ha.1.1, ih' ha.2]

/-- Parts of well-typed values are well typed. -/
theorem part_typed {strict : Bool} {R : Val → SemId → Prop} (hs : E.Sane) {id : SemId} {t : Ty SemId} (hf : E.find id = some t)
    {v w : Val} {i : SemId} (hi : Inhabits E strict R v t) (hp : Part E v id w i) : R w i := by
  cases hp with
  | listItem hf' hm => cases hf.symm.trans hf'; cases hi with | list _ _ _ _ _ h => exact h _ hm
  | setItem hf' hm => cases hf.symm.trans hf'; cases hi with | set _ _ h => exact h _ hm
  | mapKey hf' hm => cases hf.symm.trans hf'; cases hi with | map _ _ h => exact (h _ hm).1
  | mapValue hf' hm => cases hf.symm.trans hf'; cases hi with | map _ _ h => exact (h _ hm).2
  | tupleField hf' h1 h2 => cases hf.symm.trans hf'; cases hi with | tuple _ ha => exact all2_get ha h1 h2
  | @structField _ _ req fs n _ hf' h1 h2 =>
    cases hf.symm.trans hf'
    cases hi with
    | struct ha =>
      have hd : (req.map Prod.fst).Nodup := hs.fields _ _ hf
      obtain ⟨k, hk⟩ := List.getElem?_of_mem h1
      have hk' : k < req.length := by
        rw [← all2_length ha]; exact (List.getElem?_eq_some_iff.mp hk).1
      have hg := all2_get ha hk (List.getElem?_eq_getElem hk')
      have h3 := (fieldTy_iff hd n req[k].2).mpr (by rw [show n = req[k].1 from hg.1]; exact List.getElem_mem hk')
      rw [(fieldTy_iff hd _ _).mpr h2] at h3
      cases h3
      exact hg.2
  | byName hf' h1 =>
    cases hf.symm.trans hf'
    have hwf : VariantsWF _ := hs.wf _ _ hf
    cases hi with
    | union hm hu =>
      have h2 := (unionTyByName_iff hwf _ _).mpr ⟨_, h1⟩
      rw [(unionTyByName_iff hwf _ _).mpr ⟨_, hm⟩] at h2
      cases h2
      exact hu
  | byTag hf' h1 => cases hf.symm.trans hf'; cases hi

/-- If the value is kept, so are its parts. -/
theorem typify_parts (hs : E.Sane) {id : SemId} {t : Ty SemId} (hf : E.find id = some t)
    {v w : Val} {i : SemId} (hi : ∀ fs, v = .struct fs → (fs.map Prod.fst).Nodup) (hp : Part E v id w i)
    (h : typifyTy rec E v t = .ok v) : rec w i = .ok w := by
  cases hp with
  | listItem hf' hm =>
    cases hf.symm.trans hf'
    simp only [typifyTy, typifyList] at h
    split at h
    · cases h
    · obtain ⟨ws, h1, h2⟩ := Out.bind_eq_ok.mp h
      cases h2
      exact all2_diag (outMap_each h1) _ hm
  | setItem hf' hm =>
    cases hf.symm.trans hf'
    simp only [typifyTy, typifySet] at h
    split at h
    · cases h
    · obtain ⟨ws, h1, h2⟩ := Out.bind_eq_ok.mp h
      cases h2
      obtain ⟨us, h3, h4⟩ := typifySetItems_each h1
      rw [List.nil_append] at h3
      subst h3
      exact all2_diag h4 _ hm
  | mapKey hf' hm =>
    cases hf.symm.trans hf'
    simp only [typifyTy, typifyMap] at h
    split at h
    · cases h
    · obtain ⟨ws, h1, h2⟩ := Out.bind_eq_ok.mp h
      cases h2
      obtain ⟨us, h3, h4⟩ := typifyMapItems_each h1
      rw [List.nil_append] at h3
      subst h3
      exact (all2_diag h4 _ hm).1
  | mapValue hf' hm =>
    cases hf.symm.trans hf'
    simp only [typifyTy, typifyMap] at h
    split at h
    · cases h
    · obtain ⟨ws, h1, h2⟩ := Out.bind_eq_ok.mp h
      cases h2
      obtain ⟨us, h3, h4⟩ := typifyMapItems_each h1
      rw [List.nil_append] at h3
      subst h3
      exact (all2_diag h4 _ hm).2
  | tupleField hf' h1 h2 =>
    cases hf.symm.trans hf'
    simp only [typifyTy, typifyTuple] at h
    split at h
    · cases h
    · obtain ⟨ws, h3, h4⟩ := Out.bind_eq_ok.mp h
      cases h4
      exact typifyZip_each h3 _ _ _ h1 h2
  | @structField _ _ req fs n _ hf' h1 h2 =>
    cases hf.symm.trans hf'
    have hd : (req.map Prod.fst).Nodup := hs.fields _ _ hf
    simp only [typifyTy, typifyStruct] at h
    split at h
    · cases h
    · obtain ⟨ws, h3, h4⟩ := Out.bind_eq_ok.mp h
      cases h4
      obtain ⟨us, h5, h6⟩ := typifyFields_each (by simpa using hi _ rfl) h3
      rw [List.nil_append] at h5
      subst h5
      obtain ⟨-, j, h7, h8⟩ := all2_diag h6 _ h1
      rw [(fieldTy_iff hd _ _).mpr h2] at h7
      cases h7
      exact h8
  | byName hf' h1 =>
    cases hf.symm.trans hf'
    have hwf : VariantsWF _ := hs.wf _ _ hf
    simp only [typifyTy, typifyUnion, (unionTyByName_iff hwf _ _).mpr ⟨_, h1⟩] at h
    obtain ⟨ws, h3, h4⟩ := Out.bind_eq_ok.mp h
    cases h4
    exact h3
  | byTag hf' h1 =>
    cases hf.symm.trans hf'
    have hwf : VariantsWF _ := hs.wf _ _ hf
    simp only [typifyTy, typifyUnion, (unionTyByTag_iff hwf _ _).mpr ⟨_, h1⟩] at h
    obtain ⟨ws, h3, h4⟩ := Out.bind_eq_ok.mp h
    cases h4
    exact h3

theorem typed_fields_distinct {strict : Bool} {R : Val → SemId → Prop} (hs : E.Sane) {id : SemId} {t : Ty SemId}
    (hf : E.find id = some t) {v : Val} (hi : Inhabits E strict R v t) (fs : List (Name × Val)) (he : v = .struct fs) :
    (fs.map Prod.fst).Nodup := by
  subst he
  cases hi with
  | struct ha => rw [typed_fields_names ha]; exact hs.fields _ _ hf

/-- Well-typed values, with the parts known as such. -/
theorem inhabits_parts {strict : Bool} {R : Val → SemId → Prop} {id : SemId} {t : Ty SemId} (hf : E.find id = some t) {v : Val}
    (hi : Inhabits E strict R v t) :
    Inhabits E strict (fun w i => R w i ∧ ((∀ a len, t ≠ .array a len) → Part E v id w i)) v t := by
  cases hi with
  | unit => exact .unit
  | uint h1 h2 h3 => exact .uint h1 h2 h3
  | byte h => exact .byte h
  | int h1 h2 h3 h4 => exact .int h1 h2 h3 h4
  | bigUint h1 h2 h3 => exact .bigUint h1 h2 h3
  | bigInt h1 h2 h3 h4 => exact .bigInt h1 h2 h3 h4
  | unicodeChar h => exact .unicodeChar h
  | enum h => exact .enum h
  | union h1 h2 => exact .union h1 ⟨h2, fun _ => .byName hf h1⟩
  | @tuple l ids h1 h2 =>
    refine .tuple h1 (all2_of_get h2 fun k v i hv hi h => ⟨h, fun _ => .tupleField hf hv hi⟩)
  | rstring h1 h2 h3 h4 => exact .rstring h1 h2 h3 h4
  | rstringEmpty h1 h2 => exact .rstringEmpty h1 h2
  | struct h =>
    refine .struct (all2_of_get h fun k v i hv hi hg => ?_)
    refine ⟨hg.1, hg.2, fun _ => .structField hf (List.mem_of_getElem? hv) ?_⟩
    rw [hg.1]
    exact List.mem_of_getElem? hi
  | byteArray h1 h2 => exact .byteArray h1 h2
  | array h1 h2 h3 => exact .array h1 h2 fun v hv => ⟨h3 v hv, fun h => absurd rfl (h _ _)⟩
  | asciiList h1 h2 h3 => exact .asciiList h1 h2 h3
  | byteList h1 h2 => exact .byteList h1 h2
  | unicodeList h1 h2 h3 h4 => exact .unicodeList h1 h2 h3 h4
  | list h1 h2 h3 h4 h5 h6 => exact .list h1 h2 h3 h4 h5 fun v hv => ⟨h6 v hv, fun _ => .listItem hf hv⟩
  | set h1 h2 h3 h4 => exact .set h1 h2 (fun v hv => ⟨h3 v hv, fun _ => .setItem hf hv⟩) h4
  | map h1 h2 h3 h4 =>
    exact .map h1 h2 (fun v hv => ⟨⟨(h3 v hv).1, fun _ => .mapKey hf hv⟩, ⟨(h3 v hv).2, fun _ => .mapValue hf hv⟩⟩) h4

/-! ## All layers -/

theorem utf8Char_ne {c : Nat} : utf8Char c ≠ [] := by
  unfold utf8Char
  repeat' split
  all_goals simp

theorem typify_keeps (hs : E.Sane) {n : Nat} {v : Val} {id : SemId} (h : HasTyN E true n v id)
    (ha : ∀ w i, Sub E v id w i → ¬ Altered E w i) : typify E n v id = .ok v := by
  induction n generalizing v id with
  | zero => exact h.elim
  | succ n ih =>
    obtain ⟨t, hf, hi⟩ := h
    have ha0 := ha _ _ (.refl v id)
    simp only [typify, hs.typeOf hf]
    by_cases hc : t = .unicodeChar
    · subst hc
      cases hi with
      | @unicodeChar s c hu =>
        have : s.length = 1 := by
          rcases Nat.lt_or_ge 1 s.length with h | h
          · exact absurd (.char hf h) ha0
          · have : s ≠ [] := by rintro rfl; exact utf8Char_ne (by simpa using hu.2)
            cases s with
            | nil => exact absurd rfl this
            | cons a s => simp at h ⊢; exact h
        simp [typifyTy, typifyUnicode, this]
    · refine typify_layer hs hf (inhabits_parts hf hi) (fun p hp => ?_) hc fun h2 h3 r hr u hu =>
        ih hu.1 fun w i hw => ha w i (.step (hu.2 h3) hw)
      subst hp
      cases hi with
      | unit => decide
      | @uint m _ h1 h8 => 
        refine ⟨?_, ?_, fun e => ?_⟩
        · rw [BitVec.toNat_ofNat]; omega
        · rw [BitVec.toNat_ofNat]; omega
        · have := congrArg BitVec.toNat e
          rw [BitVec.toNat_ofNat] at this
          change _ = 64 at this
          omega
      | byte h => exact absurd (.byte hf) ha0
      | @int m _ h1 h8 => 
        refine ⟨?_, ?_, fun e => ?_⟩
        · rw [BitVec.toNat_ofNat]; omega
        · rw [BitVec.toNat_ofNat]; omega
        · have := congrArg BitVec.toNat e
          rw [BitVec.toNat_ofNat] at this
          change _ = 64 at this
          omega
      | bigUint h1 h2 =>
        refine ⟨.inr ?_, .inl (by omega), ?_⟩
        · rcases Nat.lt_or_ge 16 p.toNat with h | h
          · exact h
          · exact absurd (.wideUint hf h) ha0
        · rintro rfl; exact absurd h2 (by decide)
      | bigInt h1 h2 =>
        refine ⟨.inr (by omega), .inr ?_, ?_⟩
        · rcases Nat.lt_or_ge 0x4f p.toNat with h | h
          · exact h
          · exact absurd (.wideInt hf h) ha0
        · rintro rfl; exact absurd h1 (by decide)

theorem altered_changed (hs : E.Sane) {n : Nat} {v : Val} {id : SemId} (ha : Altered E v id) :
    typify E n v id ≠ .ok v := by
  cases n with
  | zero => simp [typify]
  | succ n =>
    cases ha with
    | byte hf =>
      simp only [typify, hs.typeOf hf, typifyTy, Ty.BYTE, typifyPrim]
      rw [if_neg (by decide)]
      split <;> simp
    | wideUint hf h =>
      simp only [typify, hs.typeOf hf, typifyTy, typifyPrim]
      rw [if_neg (by simp [isLargeUnsigned]; omega)]
      simp
    | wideInt hf h =>
      simp only [typify, hs.typeOf hf, typifyTy, typifyPrim]
      rw [if_neg (by simp [isLargeSigned]; omega)]
      simp
    | char hf h =>
      simp only [typify, hs.typeOf hf, typifyTy, typifyUnicode]
      rw [if_neg (by omega)]
      simp

theorem typify_kept (hs : E.Sane) {m : Nat} {v : Val} {id : SemId} {w : Val} {i : SemId} (hsub : Sub E v id w i) :
    ∀ n, HasTyN E true n v id → typify E m v id = .ok v → ¬ Altered E w i := by
  induction hsub generalizing m with
  | refl v id => exact fun _ _ h ha => altered_changed hs ha h
  | step hp _ ih =>
    intro n hn h
    cases n with
    | zero => exact hn.elim
    | succ n =>
      obtain ⟨t, hf, hi⟩ := hn
      cases m with
      | zero => simp [typify] at h
      | succ m =>
        simp only [typify, hs.typeOf hf] at h
        exact ih n (part_typed hs hf hi hp) (typify_parts hs hf (typed_fields_distinct hs hf hi) hp h)

end Verif
