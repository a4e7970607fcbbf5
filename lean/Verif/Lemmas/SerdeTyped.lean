import Verif.Lemmas.Serde
import Verif.Lemmas.TypifyExact
import Verif.Lemmas.DecodedKept

/-!
# Typifying values read through `serde`
-/

namespace Verif

variable {E : Env} {rec : Val → SemId → Out TErr Val}

theorem outMap_back {id : SemId} {l : List Val} (h : ∀ v ∈ l, rec v.back id = .ok v) :
    outMap (fun v => rec v id) (l.map Val.back) = .ok l := by
  induction l with
  | nil => rfl
  | cons v l ih =>
    simp [outMap, h v (by simp), ih fun w hw => h w (by simp [hw])]

theorem typifyZip_back {l : List Val} {ids : List SemId}
    (h : All2 (fun v i => rec v.back i = .ok v) l ids) :
    typifyZip rec (l.map Val.back) ids = .ok l := by
  induction l generalizing ids with
  | nil => rfl
  | cons v l ih =>
    cases ids with
    | nil => exact h.elim
    | cons id ids => simp [typifyZip, h.1, ih h.2]

theorem typifyFields_back {req : List (Name × SemId)} {fs acc : List (Name × Val)}
    (hn : (acc.map Prod.fst ++ fs.map Prod.fst).Nodup)
    (h : ∀ f ∈ fs, ∃ id, Ty.fieldTy req f.1 = some id ∧ rec f.2.back id = .ok f.2) :
    typifyFields rec req (fs.map fun f => (f.1, f.2.back)) acc = .ok (acc ++ fs) := by
  induction fs generalizing acc with
  | nil => simp [typifyFields]
  | cons f fs ih =>
    obtain ⟨n, v⟩ := f
    obtain ⟨id, h1, h2⟩ := h (n, v) (by simp)
    dsimp only at h1 h2
    have hnot : n ∉ acc.map Prod.fst := by
      intro hmem
      exact (List.nodup_append.mp hn).2.2 n hmem n (by simp) rfl
    simp only [List.map_cons, typifyFields, h1, h2, Out.bind_ok, imInsert_new hnot]
    rw [ih (by simpa using hn) fun f hf => h f (by simp [hf])]
    simp

theorem backSeq_pair {l : List Val} (h : ∀ a b, l = [a, b] → a.asTag = none) :
    Val.backSeq (l.head?.bind Val.asTag) (Val.backs l) = .list (l.map Val.back) := by
  rw [Val.backs_eq_map]
  refine Val.backSeq_list fun h2 => ?_
  match l, h2 with
  | [a, b], _ => exact h a b rfl

theorem asTag_of_not {l : List Val} (h : ∀ a b t, l = [a, b] → a.asTag ≠ some t) (a b : Val) (e : l = [a, b]) :
    a.asTag = none := by
  cases ht : a.asTag with
  | none => rfl
  | some t => exact absurd ht (h a b t e)

theorem typify_back (hs : E.Sane) {n : Nat} {v : Val} {id : SemId} (h : HasTyN E true n v id)
    (hsub : ∀ w i, Sub E v id w i → ¬ Unrestored E w i) : typify E n v.back id = .ok v := by
  induction n generalizing v id with
  | zero => exact h.elim
  | succ n ih =>
    obtain ⟨t, hf, hi⟩ := h
    have ht := hs.typeOf hf
    have hself := hsub _ _ (.refl _ _)
    have hrec : ∀ u r, HasTyN E true n u r ∧ ((∀ a len, t ≠ .array a len) → Part E v id u r) →
        (∀ a len, t ≠ .array a len) → typify E n u.back r = .ok u :=
      fun u r hu hna => ih hu.1 (fun w i hw => hsub w i (.step (hu.2 hna) hw))
    replace hi := inhabits_parts hf hi
    have hwf := hs.wf id t hf
    have chk : ∀ {sz : Sizing} {m : Nat}, SizeOk true sz.min.toNat sz.max.toNat m →
        sz.check m = true := by
      intro sz m h
      simp only [SizeOk, if_true] at h
      simp [Sizing.check, h]
    simp only [typify, ht]
    cases hi with
    | unit => rfl
    | @uint m x h1 h8 hx =>
      have : isSmallUnsigned (BitVec.ofNat 8 m) = true := by
        simp [isSmallUnsigned, BitVec.toNat_ofNat]; omega
      simp [Val.back, typifyTy, typifyPrim, this]
    | byte hx => exact absurd (.altered (.byte hf)) hself
    | @int m x h1 h8 =>
      have hsm : isSmallSigned (BitVec.ofNat 8 (0x40 + m)) = true := by
        simp [isSmallSigned, BitVec.toNat_ofNat]; omega
      have hun : isSmallUnsigned (BitVec.ofNat 8 (0x40 + m)) = false := by
        simp [isSmallUnsigned, BitVec.toNat_ofNat]; omega
      simp only [Val.back]
      split
      · simp only [typifyTy, typifyPrim, hsm, if_true]
      · rename_i hneg
        have := x.isLt
        have hlt : x.toNat < 2 ^ 63 := by
          rw [BitVec.toInt_eq_toNat_cond] at hneg
          split at hneg <;> omega
        simp [typifyTy, typifyPrim, hsm, hun, hlt]
    | bigUint h1 h2 h3 => exact prim_kept hs hf (.bigUint h1 h2 h3) fun h => hself (.altered h)
    | bigInt h1 h2 h3 h4 => exact prim_kept hs hf (.bigInt h1 h2 h3 h4) fun h => hself (.altered h)
    | @unicodeChar s c hu =>
      have : s.length = 1 := by
        rcases Nat.lt_or_ge 1 s.length with h | h
        · exact absurd (.altered (.char hf h)) hself
        · have : s ≠ [] := by rintro rfl; exact utf8Char_ne (by simpa using hu.2)
          cases s with
          | nil => exact absurd rfl this
          | cons a s => simp at h ⊢; exact h
      simp [Val.back, typifyTy, typifyUnicode, this]
    | @enum vs n' t' hm =>
      have hwf : VariantsWF _ := hwf
      have : Ty.enumHasName vs n' = true := by
        simp only [Ty.enumHasName, List.any_eq_true]
        exact ⟨_, hm, by simp⟩
      have hone : ¬ (n'.bytes.length = 1 ∧ Ty.enumHasTag vs (n'.bytes.headD 0) = true) := by
        rintro ⟨h1, h2⟩
        simp only [Ty.enumHasTag, List.any_eq_true, beq_iff_eq] at h2
        obtain ⟨v, hv, he⟩ := h2
        match hb : n'.bytes, h1 with
        | [c], _ =>
          rw [hb] at he
          exact hself (.letter hf hv (by rw [hb, he]; rfl))
      simp only [Val.back, typifyTy, typifyEnum]
      rw [if_neg hone]
      simp [this]
    | @union vs n' t' i u hm hu =>
      have hwf : VariantsWF _ := hwf
      have := hrec u i hu (by simp)
      simp [Val.back, typifyTy, typifyUnion, (unionTyByName_iff hwf _ _).mpr ⟨_, hm⟩, this]
    | @tuple l ids hnr ha =>
      have hp := asTag_of_not (l := l) fun a b t e he => hself (e ▸ .tuplePair he)
      simp only [Val.back, backSeq_pair hp, typifyTy, typifyTuple]
      rw [typifyZip_back (all2_of_get ha fun k u i h1 _ hu => hrec u i hu (by simp))]
      rfl
    | @rstring A C sz ids c s hr hc hcs hl =>
      obtain ⟨a, b, c', rfl, ha, hA, hb', hc', hC⟩ := hr
      have : isAscii (c :: s) = true := isAscii_of fun x hx => by
        rcases List.mem_cons.mp hx with rfl | hx
        · exact charOk_ascii hA hc
        · exact charOk_ascii hC (hcs x hx)
      simp only [Val.back, typifyTy, typifyTuple]
      rw [if_pos ⟨this, rfl⟩]
    | rstringEmpty _ hst => cases hst
    | @struct fs req ha =>
      have hlen := all2_length ha
      have hd : (req.map Prod.fst).Nodup := hs.fields _ _ hf
      have hnames := typed_fields_names (R := fun u r => HasTyN E true n u r ∧
        ((∀ a len, Ty.struct req ≠ Ty.array a len) → Part E (.struct fs) id u r)) ha
      simp only [Val.back, Val.backFields_eq_map, typifyTy, typifyStruct, List.length_map, hlen,
        ne_eq, not_true_eq_false, if_false]
      rw [typifyFields_back (by simpa [hnames] using hd)]
      · rfl
      · intro f hfm
        obtain ⟨k, hk⟩ := List.getElem?_of_mem hfm
        have hk' : k < req.length := by
          rw [← hlen]; exact (List.getElem?_eq_some_iff.mp hk).1
        have hg := all2_get ha hk (List.getElem?_eq_getElem hk')
        have hmem : req[k] ∈ req := List.getElem_mem hk'
        refine ⟨req[k].2, (fieldTy_iff hd _ _).mpr ?_,
          hrec _ _ hg.2 (by simp)⟩
        rw [hg.1]
        exact hmem
    | byteArray hib hl => exact absurd (.byteArray hf) hself
    | @array i len l hib hl =>
      have : (Val.list l).Told := Classical.byContradiction fun h => hself (.array hf h)
      rw [this.back]
      simp [typifyTy, typifyArray, hl]
    | @asciiList i C sz s hce hcs hsz =>
      have hia : isAscii s = true := isAscii_of fun x hx => charOk_ascii hce.2 (hcs x hx)
      have hnby : i.isByte E.H = false := by
        cases hx : i.isByte E.H with
        | false => rfl
        | true =>
          rcases hs.byte i _ hx hce.1 with h | h <;> simp [Ty.BYTE, Ty.U8] at h
      simp [Val.back, typifyTy, typifyList, chk hsz, hnby, hia]
    | @byteList i sz b hib hsz =>
      have : b = [] := Classical.byContradiction fun h => hself (.bytes hf h)
      subst this
      have hnu : i.isUnicodeChar E.H = false := by
        cases hx : i.isUnicodeChar E.H with
        | false => rfl
        | true =>
          obtain ⟨u, hu⟩ := hs.closed _ _ hf i (by simp [Ty.refs])
          have h1 := hs.unicode _ _ hx hu
          rcases hs.byte _ _ hib hu with h2 | h2 <;> rw [h1] at h2 <;> cases h2
      have := chk hsz
      simp only [List.length_nil] at this
      simp [Val.back, typifyTy, typifyList, toHex, this, hnu, hib]
    | unicodeList _ hu _ hsz => simp [Val.back, typifyTy, typifyList, chk hsz, hu]
    | @list i sz l hnb' hnu hnce hmem hsz hr =>
      have hp := asTag_of_not (l := l) fun a b t e he => hself (e ▸ .listPair hf he)
      simp only [Val.back, backSeq_pair hp, typifyTy, typifyList, List.length_map, chk hsz]
      rw [outMap_back fun u hu => hrec u _ (hr u hu) (by simp)]
      rfl
    | set hmem hsz hr hdis => exact absurd .set hself
    | map hmem hsz hr hdis => exact absurd .map hself

/-! ## The other direction -/

theorem backSeq_cases (o : Option Tag) (l : List Val) : (∃ t v, Val.backSeq o l = .union t v) ∨ Val.backSeq o l = .list l := by
  unfold Val.backSeq
  split
  · exact .inl ⟨_, _, rfl⟩
  · exact .inr rfl

theorem typifyZip_back_each {l : List Val} {ids : List SemId} (h : typifyZip rec (l.map Val.back) ids = .ok l) :
    ∀ (k : Nat) v i, l[k]? = some v → ids[k]? = some i → rec v.back i = .ok v := by
  induction l generalizing ids with
  | nil => simp
  | cons v l ih =>
    cases ids with
    | nil => simp
    | cons i ids =>
      obtain ⟨w, h1, h2⟩ := Out.bind_eq_ok.mp h
      obtain ⟨ws', h3, h4⟩ := Out.bind_eq_ok.mp h2
      cases h4
      intro k u j hk hi
      cases k with
      | zero => simp only [List.getElem?_cons_zero, Option.some.injEq] at hk hi; subst hk hi; exact h1
      | succ k => exact ih h3 k u j (by simpa using hk) (by simpa using hi)

theorem all2_map_diag {α : Type} {f : α → α} {P : α → α → Prop} {l : List α} (h : All2 P (l.map f) l) :
    ∀ x ∈ l, P (f x) x := by
  induction l with
  | nil => simp
  | cons a l ih =>
    intro x hx
    rcases List.mem_cons.mp hx with rfl | hx
    · exact h.1
    · exact ih h.2 x hx

/-- Parts of a restored value are restored. -/
theorem restored_part (hs : E.Sane) {id : SemId} {t : Ty SemId} (hf : E.find id = some t) {v w : Val} {i : SemId}
    {R : Val → SemId → Prop} (hi : Inhabits E true R v t) (hp : Part E v id w i) (h : typifyTy rec E v.back t = .ok v) :
    rec w.back i = .ok w := by
  cases hp with
  | @listItem _ _ sz l _ hf' hm =>
    cases hf.symm.trans hf'
    simp only [Val.back, typifyTy] at h
    rcases backSeq_cases (l.head?.bind Val.asTag) (Val.backs l) with ⟨t, u, e⟩ | e <;> rw [e] at h
    · cases h
    · rw [Val.backs_eq_map] at h
      simp only [typifyList] at h
      split at h
      · cases h
      · obtain ⟨ws, h1, h2⟩ := Out.bind_eq_ok.mp h
        cases h2
        exact all2_map_diag (outMap_each h1) _ hm
  | @setItem _ _ sz l _ hf' hm =>
    cases hf.symm.trans hf'
    simp only [Val.back, typifyTy] at h
    rcases backSeq_cases (l.head?.bind Val.asTag) (Val.backs l) with ⟨t, u, e⟩ | e <;> rw [e] at h <;> cases h
  | @mapKey _ _ _ sz l _ hf' hm =>
    cases hf.symm.trans hf'
    simp only [Val.back, typifyTy] at h
    rcases backSeq_cases none (Val.backPairs l) with ⟨t, u, e⟩ | e <;> rw [e] at h <;> cases h
  | @mapValue _ _ _ sz l _ hf' hm =>
    cases hf.symm.trans hf'
    simp only [Val.back, typifyTy] at h
    rcases backSeq_cases none (Val.backPairs l) with ⟨t, u, e⟩ | e <;> rw [e] at h <;> cases h
  | @tupleField _ _ ids l _ k hf' h1 h2 =>
    cases hf.symm.trans hf'
    simp only [Val.back, typifyTy] at h
    cases hp : Val.backSeq (l.head?.bind Val.asTag) (Val.backs l) with
    | list m =>
      have e : m = Val.backs l := by
        rcases backSeq_cases (l.head?.bind Val.asTag) (Val.backs l) with ⟨t, u, e⟩ | e <;> rw [hp] at e <;> cases e
        rfl
      subst e
      rw [hp, Val.backs_eq_map] at h
      simp only [typifyTuple] at h
      obtain ⟨ws, h3, h4⟩ := Out.bind_eq_ok.mp h
      cases h4
      exact typifyZip_back_each h3 _ _ _ h1 h2
    | union t u =>
      rw [hp] at h
      simp only [typifyTuple, typifyTuple.newtype] at h
      split at h
      · obtain ⟨ws, h3, h4⟩ := Out.bind_eq_ok.mp h
        cases h4
        simp [Val.backs, Val.backSeq] at hp
      · cases h
    | _ =>
      rcases backSeq_cases (l.head?.bind Val.asTag) (Val.backs l) with ⟨t, u, e⟩ | e <;> rw [hp] at e <;> cases e
  | @structField _ _ req fs n _ hf' h1 h2 =>
    have hd' := typed_fields_distinct hs hf hi fs rfl
    cases hf.symm.trans hf'
    have hd : (req.map Prod.fst).Nodup := hs.fields _ _ hf
    simp only [Val.back, Val.backFields_eq_map, typifyTy, typifyStruct] at h
    split at h
    · cases h
    · obtain ⟨ws, h3, h4⟩ := Out.bind_eq_ok.mp h
      cases h4
      obtain ⟨us, h5, h6⟩ := typifyFields_each (by simpa [Function.comp_def] using hd') h3
      rw [List.nil_append] at h5
      subst h5
      obtain ⟨-, j, h7, h8⟩ := all2_map_diag h6 _ h1
      dsimp only at h7 h8
      rw [(fieldTy_iff hd _ _).mpr h2] at h7
      cases h7
      exact h8
  | byName hf' h1 =>
    cases hf.symm.trans hf'
    have hwf : VariantsWF _ := hs.wf _ _ hf
    simp only [Val.back, typifyTy, typifyUnion, (unionTyByName_iff hwf _ _).mpr ⟨_, h1⟩] at h
    obtain ⟨ws, h3, h4⟩ := Out.bind_eq_ok.mp h
    cases h4
    exact h3
  | byTag hf' h1 =>
    cases hf.symm.trans hf'
    cases hi

theorem toHex_length (b : Bytes) : (toHex b).length = 2 * b.length := by
  induction b with
  | nil => rfl
  | cons a b ih => simp [toHex] at ih ⊢; omega

/-- What is not restored by its type. -/
theorem unrestored_changed (hs : E.Sane) {n : Nat} {v : Val} {id : SemId} {t : Ty SemId} (hf : E.find id = some t)
    {R : Val → SemId → Prop} (hi : Inhabits E true R v t) (hu : Unrestored E v id) : typify E n v.back id ≠ .ok v := by
  cases n with
  | zero => simp [typify]
  | succ n =>
    cases hu with
    | altered ha =>
      have : v.back = v := by cases ha <;> rfl
      rw [this]
      exact altered_changed hs ha
    | @bytes _ i sz b hf' hb =>
      simp only [typify, hs.typeOf hf', typifyTy, Val.back, typifyList]
      have hl := toHex_length b
      intro h
      split at h
      · cases h
      · split at h
        · cases h
        · split at h
          · injection h with h
            injection h with h
            rw [h] at hl
            cases b with
            | nil => exact hb rfl
            | cons a b => simp at hl; omega
          · split at h <;> cases h
    | byteArray hf' =>
      simp only [typify, hs.typeOf hf', typifyTy, Val.back, typifyArray]
      intro h
      split at h
      · cases h
      · split at h <;> cases h
    | @array _ i len l hf' hn =>
      simp only [typify, hs.typeOf hf', typifyTy, Val.back]
      intro h
      apply hn
      apply Val.told_of_back
      simp only [Val.back]
      rcases backSeq_cases (l.head?.bind Val.asTag) (Val.backs l) with ⟨t, u, e⟩ | e <;> rw [e] at h ⊢
      · cases h
      · simp only [typifyArray] at h
        split at h
        · cases h
        · injection h
    | @set _ l =>
      simp only [typify, hs.typeOf hf, Val.back]
      cases hi with
      | set =>
        rcases backSeq_cases (l.head?.bind Val.asTag) (Val.backs l) with ⟨t, u, e⟩ | e <;> rw [e] <;>
          simp [typifyTy, typifySet]
    | @map _ l =>
      simp only [typify, hs.typeOf hf, Val.back]
      cases hi with
      | map =>
        rcases backSeq_cases none (Val.backPairs l) with ⟨t, u, e⟩ | e <;> rw [e] <;> simp [typifyTy, typifyMap]
    | @letter _ vs m x hf' hx hn =>
      have : Ty.enumHasTag vs x.tag = true := by
        simp only [Ty.enumHasTag, List.any_eq_true]
        exact ⟨x, hx, by simp⟩
      simp [typify, hs.typeOf hf', typifyTy, typifyEnum, Val.back, hn, this]
    | listPair hf' ht =>
      simp [typify, hs.typeOf hf', typifyTy, typifyList, Val.back, Val.backs, Val.backSeq, ht]
    | @tuplePair _ a b tg ht =>
      cases hi with
      | @tuple _ ids _ ha =>
        have := all2_length ha
        match ids, this with
        | [i, j], _ =>
          simp [typify, hs.typeOf hf, typifyTy, typifyTuple, typifyTuple.newtype, Val.back, Val.backs, Val.backSeq, ht]

theorem restored_only (hs : E.Sane) {m : Nat} {v w : Val} {id i : SemId} (hsub : Sub E v id w i) :
    ∀ n, HasTyN E true n v id → typify E m v.back id = .ok v → ¬ Unrestored E w i := by
  induction hsub generalizing m with
  | refl v id =>
    intro n hn h hu
    cases n with
    | zero => exact hn.elim
    | succ n =>
      obtain ⟨t, hf, hi⟩ := hn
      exact unrestored_changed hs hf hi hu h
  | step hp _ ih =>
    intro n hn h
    cases n with
    | zero => exact hn.elim
    | succ n =>
      obtain ⟨t, hf, hi⟩ := hn
      cases m with
      | zero => simp [typify] at h
      | succ m =>
        simp only [typify, hs.typeOf hf] at h
        exact ih n (part_typed hs hf hi hp) (restored_part hs hf hi hp h)

/-- The kinds of values that are never read. -/
def Val.Unread : Val → Bool
  | .bytes _ => true
  | .enum _ => true
  | .set _ => true
  | .tuple _ => true
  | .map _ => true
  | _ => false

theorem readVal_kind {B : BigNums} {j : Json} {w : Val} (h : Json.readVal B j = some w) :
    w.Unread = false := by
  have hnum : ∀ {o : Option Num}, o.map Val.num = some w → w.Unread = false := by
    intro o ho
    obtain ⟨n, -, rfl⟩ := Option.map_eq_some_iff.mp ho
    rfl
  cases j with
  | null => cases h; rfl
  | bool b => exact hnum h
  | uint b => exact hnum (o := B.read (.uint b)) h
  | negInt b => exact hnum h
  | float => exact hnum h
  | str s =>
    simp only [Json.readVal] at h
    split at h <;> cases h <;> rfl
  | obj l =>
    simp only [Json.readVal] at h
    split at h
    · cases h; rfl
    · obtain ⟨n, -, rfl⟩ := Option.map_eq_some_iff.mp h
      rfl
  | arr l =>
    simp only [Json.readVal] at h
    split at h
    · cases h; rfl
    · split at h
      · rename_i v hv
        cases h
        cases l with
        | nil => cases hv
        | cons a l =>
          simp only [Json.readPair] at hv
          split at hv <;> cases hv
          rfl
      · obtain ⟨n, -, rfl⟩ := Option.map_eq_some_iff.mp h
        rfl

end Verif
