import Verif.Lemmas.Reflect

/-!
# Reading and writing one layer of a Rust value
-/

namespace Verif

/-- What is needed of a type to read and write its values. -/
structure Fit (E : Env) (q : RTy) : Prop where
  holds : Holds E.H E.sys q
  named : q.Named
  fields : q.DistinctFields
  wf : (q.img E.H).WF
  ordinary : q.Ordinary
  string : ¬ q.LooksLikeString
  plain : Plain E.H q

theorem Fit.find {E : Env} {q : RTy} (h : Fit E q) : E.find (q.semId E.H) = some (q.img E.H) := h.holds.1

theorem RTy.letters_enum {t : RTy} (h : t.isLetters = true) : ∃ lib name vs, t = .enum lib name vs ∧
    CharVariants (byTag Variant.tag vs) ∧ t.letters? = some vs := by
  cases t with
  | enum lib name vs =>
    refine ⟨lib, name, vs, rfl, fun v hv => ?_, ?_⟩
    · rw [mem_byTag] at hv
      simp only [RTy.isLetters, RTy.letters?] at h
      split at h
      · rename_i he
        simp only [List.all_eq_true, Bool.and_eq_true, decide_eq_true_eq] at he
        exact he v hv
      · cases h
    · simp only [RTy.isLetters, RTy.letters?] at h ⊢
      split at h
      · rename_i he
        simp [he]
      · cases h
  | _ => simp [RTy.isLetters, RTy.letters?] at h

theorem RTy.Letter.ascii {t : RTy} {b : Byte} (h : t.Letter b) : b.toNat < 128 := by
  obtain ⟨vs, h1, v, hv, rfl⟩ := h
  obtain ⟨lib, name, vs', rfl, hC, h2⟩ := RTy.letters_enum (t := t) (by simp [RTy.isLetters, h1])
  rw [h1] at h2
  cases h2
  have := hC v (mem_byTag.mpr hv)
  omega

theorem take_drop_mem {α : Type} {P Q : α → Prop} {s : List α} (h1 : ∀ b ∈ s.take 1, P b) (h2 : ∀ b ∈ s.drop 1, Q b)
    {R : α → Prop} (hP : ∀ b, P b → R b) (hQ : ∀ b, Q b → R b) : ∀ b ∈ s, R b := by
  cases s with
  | nil => intro b hb; cases hb
  | cons c s =>
    intro b hb
    rcases List.mem_cons.mp hb with rfl | hb
    · exact hP _ (h1 _ (by simp))
    · exact hQ _ (h2 _ (by simpa using hb))

theorem RTy.img_list_inv {H : Hash} {p : RTy} {c : SemId} {sz : Sizing} (h : p.img H = .list c sz) :
    (p = .unicode sz ∧ c = SemId.unicodeChar H) ∨ ∃ t, p = .list t sz ∧ c = t.semId H := by
  cases p with
  | unicode => rw [RTy.img_unicode] at h; cases h; exact .inl ⟨rfl, rfl⟩
  | list => rw [RTy.img_list] at h; cases h; exact .inr ⟨_, rfl, rfl⟩
  | rstring => rw [RTy.img_rstring] at h; cases h
  | record lib name b fs =>
    cases fs with
    | nil => rw [RTy.img_empty] at h; cases h
    | cons f fs =>
      cases b
      · rw [RTy.img_struct rfl] at h; cases h
      · rw [RTy.img_tuple rfl] at h; cases h
  | union => rw [RTy.img_union] at h; cases h
  | _ => simp [RTy.img, RTy.sem, RTy.tyWith, Ty.mapRefs] at h

theorem WritesVariants_iff {v : Val} {bs : Bytes} : ∀ {vs : List (Variant × RTy)},
    RTy.WritesVariants vs v bs ↔ ∃ x ∈ vs, ∃ w b, v = .union (.name x.1.name) w ∧ bs = x.1.tag :: b ∧ x.2.Writes w b
  | [] => by simp [RTy.WritesVariants]
  | (x, t) :: vs => by
    simp only [RTy.WritesVariants, RTy.WritesVariant, WritesVariants_iff (vs := vs), List.mem_cons]
    constructor
    · rintro (h | ⟨y, hy, h⟩)
      · exact ⟨(x, t), .inl rfl, h⟩
      · exact ⟨y, .inr hy, h⟩
    · rintro ⟨y, rfl | hy, h⟩
      · exact .inl h
      · exact .inr ⟨y, hy, h⟩

section
variable {wr : Val → SemId → Out EErr Bytes} {rd : SemId → Bytes → Out DErr (RdPair Val)}
variable {E : Env} {A B : Prop}

theorem allows_lt {sz : Sizing} {n : Nat} (h : sz.Allows n) : n < 256 ^ prefixWidth sz.max.toNat :=
  lt_prefixWidth h.2 sz.max.isLt

theorem capacity_ok {w n : Nat} (h : n < 2 ^ 32) (hm : 2 ^ 32 * w < 2 ^ 63) : withCapacity w n = .ok () := by
  refine if_pos (Nat.lt_of_le_of_lt (Nat.mul_le_mul_right w (Nat.le_of_lt h)) hm)

/-- The tuple does not look like a string. -/
theorem not_described {lib : Name} {name : Option Name} {fs : List (Option Name × RTy)}
    (hall : ∀ p, (RTy.record lib name true fs).Contains p → Fit E p) {A C : List Variant}
    {sz : Sizing} (h : E.RString (fs.map fun f => f.2.semId E.H) A C sz) : False := by
  have hpart : ∀ f ∈ fs, Fit E f.2 ∧ ∀ p ∈ f.2.parts, Fit E p := fun f hf =>
    have hm : f.2 ∈ (RTy.record lib name true fs).parts := List.mem_map_of_mem hf
    ⟨hall _ (.step hm (.refl _)), fun p hp => hall _ (.step hm (.step hp (.refl _)))⟩
  obtain ⟨a, b, c, hids, ha, hA, hb, hc', hC⟩ := h
  match fs, hids with
  | [f, g], hids =>
    simp only [List.map_cons, List.map_nil, List.cons.injEq, and_true] at hids
    obtain ⟨rfl, rfl⟩ := hids
    obtain ⟨hf, -⟩ := hpart f (by simp)
    obtain ⟨hg, hgp⟩ := hpart g (by simp)
    rw [hf.find, Option.some.injEq] at ha
    rw [hg.find, Option.some.injEq] at hb
    have h1 : f.2.isLetters = true := by
      rw [← RTy.letters_charEnum (H := E.H)]
      exact (isCharEnum_iff _).mpr ⟨A, ha, hA⟩
    rcases RTy.img_list_inv hb with ⟨e, rfl⟩ | ⟨t, e, rfl⟩
    · have := Holds.find_unicode (e ▸ hg.holds)
      rw [show E.sys.get (SemId.unicodeChar E.H) = E.find (SemId.unicodeChar E.H) from rfl, hc'] at this
      cases this
    · have ht := hgp t (by rw [e]; simp [RTy.parts])
      rw [ht.find, Option.some.injEq] at hc'
      have h2 : t.isLetters = true := by
        rw [← RTy.letters_charEnum (H := E.H)]
        exact (isCharEnum_iff _).mpr ⟨C, hc', hC⟩
      obtain ⟨m, t'⟩ := g
      dsimp only at e
      subst e
      exact (hall _ (.refl _)).string ⟨h1, h2⟩

/-- The tuple is not taken for a string. -/
theorem not_rstring {lib : Name} {name : Option Name} {fs : List (Option Name × RTy)}
    (hall : ∀ p, (RTy.record lib name true fs).Contains p → Fit E p) :
    E.isRString (fs.map fun f => f.2.semId E.H) = .ok false := by
  have hpart : ∀ f ∈ fs, Fit E f.2 ∧ ∀ p ∈ f.2.parts, Fit E p := fun f hf =>
    have hm : f.2 ∈ (RTy.record lib name true fs).parts := List.mem_map_of_mem hf
    ⟨hall _ (.step hm (.refl _)), fun p hp => hall _ (.step hm (.step hp (.refl _)))⟩
  refine isRString_false (fun A C sz h => not_described hall h) ?_ ?_
  · intro r hr
    obtain ⟨f, hf, rfl⟩ := List.mem_map.mp hr
    exact ⟨_, (hpart f hf).1.find⟩
  · intro a b hab c sz hf
    have hb : b ∈ fs.map fun f => f.2.semId E.H := by rw [hab]; simp
    obtain ⟨f, hfm, rfl⟩ := List.mem_map.mp hb
    obtain ⟨h1, h2⟩ := hpart f hfm
    rw [h1.find, Option.some.injEq] at hf
    rcases RTy.img_list_inv hf with ⟨e, rfl⟩ | ⟨t, e, rfl⟩
    · have ho := h1.ordinary
      rw [e] at ho
      simp only [RTy.Ordinary] at ho
      exact ⟨⟨_, Holds.find_unicode (e ▸ h1.holds)⟩, .inr (by omega)⟩
    · have ho := h1.ordinary
      rw [e] at ho
      simp only [RTy.Ordinary] at ho
      exact ⟨⟨_, (h2 t (by rw [e]; simp [RTy.parts])).find⟩, .inr (by omega)⟩

theorem seq_read {id : SemId} {sz : Sizing} {l : List Val} {b : Bytes} (hl : sz.Allows l.length)
    (h32 : sz.max.toNat < 2 ^ 32) (hm : 2 ^ 32 * (2 * E.valSize) < 2 ^ 63)
    (hr : ∀ rest, readItems rd id l.length (b ++ rest) = .ok (l, rest)) (rest : Bytes) :
    readSeq rd E id sz.byteSize (lenPrefix sz l.length ++ b ++ rest) = .ok (l, rest) := by
  have hcap : withCapacity E.valSize l.length = .ok () :=
    capacity_ok (Nat.lt_of_le_of_lt hl.2 h32) (by omega)
  rw [byteSize_eq]
  simp [readSeq, lenPrefix, List.append_assoc, readLe_append (allows_lt hl), hcap, hr]

theorem writes_layer (hs : B → PrimSizes E) (hm : 2 ^ 32 * (2 * E.valSize) < 2 ^ 63)
    {q : RTy} (hall : ∀ p, q.Contains p → Fit E p) (hB : B → ¬ q.ItemArray) (hA : A → q.UpTo64)
    (hR : ∀ p ∈ q.parts, ∀ v bs, p.Writes v bs → RW A B (wr v (p.semId E.H)) (rd (p.semId E.H)) v bs)
    {v : Val} {bs : Bytes} (h : q.Writes v bs) (spec : SemId) :
    RW A B (writeTy wr E v (q.img E.H)) (readTy rd E spec (q.img E.H)) v bs := by
  have hq := hall q (.refl _)
  have hpart : ∀ p ∈ q.parts, Fit E p := fun p hp => hall p (.step hp (.refl _))
  cases q with
  | prim c => exact rw_prim hs hA h
  | unicode sz =>
    obtain ⟨s, rfl, hu, hl, rfl⟩ := h
    rw [RTy.img_unicode]
    have ho := hq.ordinary
    simp only [RTy.Ordinary] at ho
    have hnb := hq.plain.uniByte
    refine ⟨fun _ => ?_, fun hA rest => ?_⟩
    · simp only [writeTy, writeList, byteSize_eq]
      rfl
    · have hle : sz.max.toNat ≤ 0xffffffff := by omega
      have hfu : E.find (SemId.unicodeChar E.H) = some .unicodeChar := hq.holds.find_unicode
      have hce : (Ty.unicodeChar : Ty SemId).isCharEnum = false := rfl
      have hiu : (SemId.unicodeChar E.H).isUnicodeChar E.H = true := by simp [SemId.isUnicodeChar]
      simp only [readTy, readList, hfu, hce, hnb, hiu, hle, Bool.false_eq_true, if_false, false_and, and_self,
        if_true, byteSize_eq]
      exact readString_append (allows_lt hl) ((utf8Valid_iff s).2 hu) rest
  | rstring c c1 sz =>
    obtain ⟨s, rfl, h1, h2, hl, rfl⟩ := h
    rw [RTy.img_rstring]
    have ho := hq.ordinary
    simp only [RTy.Ordinary] at ho
    have ha : isAscii s = true := isAscii_of (take_drop_mem h1 h2 (fun b => RTy.Letter.ascii) fun b => RTy.Letter.ascii)
    obtain ⟨lib, name, vs, hce, hC, -⟩ := RTy.letters_enum ho.1
    obtain ⟨lib1, name1, vs1, hce1, hC1, -⟩ := RTy.letters_enum ho.2.1
    have hmin : (sz.min - 1).toNat = sz.min.toNat - 1 := by
      rw [BitVec.toNat_sub]; have := sz.min.isLt; simp; omega
    have hmax : (sz.max - 1).toNat = sz.max.toNat - 1 := by
      rw [BitVec.toNat_sub]; have := sz.max.isLt; simp; omega
    have hrs : E.RString [c1.semId E.H, tailId E.H c sz] (byTag Variant.tag vs1) (byTag Variant.tag vs)
        ⟨sz.min - 1, sz.max - 1⟩ := by
      refine ⟨_, _, c.semId E.H, rfl, ?_, hC1, hq.holds.find_tail, ?_, hC⟩
      · rw [(hpart c1 (by simp [RTy.parts])).find, hce1, RTy.img_enum]
      · rw [(hpart c (by simp [RTy.parts])).find, hce, RTy.img_enum]
    obtain ⟨k1, d, k2⟩ := isRString_true hrs (Or.inr (by simp only [hmin, hmax]; omega))
    simp only [BitVec.sub_add_cancel] at k2
    refine ⟨fun _ => ?_, fun hA rest => ?_⟩
    · show writeTuple wr E _ (.str s) = _
      simp only [writeTuple, ha, k1, k2, if_true]
      rw [debugAssert_true (by simpa using hl.2), byteSize_eq]
      rfl
    · show readTupleTy rd E _ _ = _
      simp only [readTupleTy, k1, k2, ofUnknown, Out.mapErr, Out.bind_ok, if_true]
      rw [byteSize_eq]
      exact readAscii_append (allows_lt hl) ha rest
  | array t len =>
    rw [RTy.img_array]
    have hb := (hpart t (by simp [RTy.parts])).plain.byte
    simp only [RTy.Writes] at h
    split at h
    · rename_i ht
      obtain ⟨rfl, hl⟩ := h
      refine ⟨fun _ => ?_, fun hA rest => ?_⟩
      · simp [writeTy, writeArray, hl, Out.debugAssert]
      · have := readRaw_append bs rest
        rw [hl] at this
        simp [readTy, hb, ht, this]
    · rename_i ht
      obtain ⟨l, bss, rfl, ha, hl, rfl⟩ := h
      obtain ⟨-, hr⟩ := rw_items (hR t (by simp [RTy.parts])) ha
      refine ⟨fun hb => absurd (show t.isByte = false by simpa using ht) (hB hb), fun hA rest => ?_⟩
      have := hr hA rest
      rw [hl] at this
      simp [readTy, hb, ht, this]
  | list t sz =>
    rw [RTy.img_list]
    have hb := (hpart t (by simp [RTy.parts])).plain.byte
    have hu := (hpart t (by simp [RTy.parts])).plain.char
    have hf := (hpart t (by simp [RTy.parts])).find
    have hce := t.letters_charEnum (H := E.H)
    change (t.img E.H).isCharEnum = _ at hce
    have ho := hq.ordinary
    simp only [RTy.Ordinary] at ho
    simp only [RTy.Writes] at h
    split at h
    · rename_i ht
      have hnl : t.isLetters = false := by
        cases t <;> simp [RTy.isByte] at ht
        rfl
      obtain ⟨b, rfl, hl, rfl⟩ := h
      refine ⟨fun _ => ?_, fun hA rest => ?_⟩
      · simp only [writeTy, writeList, byteSize_eq]
        rfl
      · have hle : sz.max.toNat ≤ 0xffffffff := by omega
        simp only [readTy, readList, hf, hce, hnl, hb, ht, hle, Bool.false_eq_true, if_false, and_self, if_true,
          byteSize_eq]
        exact readBlob_append (allows_lt hl) rest
    · rename_i ht
      split at h
      · rename_i hl'
        obtain ⟨s, rfl, hs, hl, rfl⟩ := h
        refine ⟨fun _ => ?_, fun hA rest => ?_⟩
        · simp only [writeTy, writeList, byteSize_eq]
          rfl
        · simp only [readTy, readList, hf, hce, hl', if_true, byteSize_eq]
          exact readAscii_append (allows_lt hl) (isAscii_of fun b hb => (hs b hb).ascii) rest
      · rename_i hl'
        obtain ⟨l, bss, rfl, ha, hl, rfl⟩ := h
        obtain ⟨hw, hr⟩ := rw_items (hR t (by simp [RTy.parts])) ha
        refine ⟨fun hb => ?_, fun hA rest => ?_⟩
        · simp only [writeTy, writeList, hw hb, byteSize_eq]
          rfl
        · simp only [readTy, readList, hf, hce, hl', hb, ht, hu, Bool.false_eq_true, if_false, false_and,
            seq_read hl ho.2 hm (hr hA)]
          rfl
  | set t sz =>
    rw [RTy.img_set]
    obtain ⟨l, bss, rfl, ha, hl, rfl⟩ := h
    obtain ⟨hw, hr⟩ := rw_items (hR t (by simp [RTy.parts])) ha
    refine ⟨fun hb => ?_, fun hA rest => ?_⟩
    · simp only [writeTy, writeSet, hw hb, byteSize_eq]
      rfl
    · simp only [readTy, seq_read hl hq.ordinary hm (hr hA)]
      rfl
  | map k t sz =>
    rw [RTy.img_map]
    obtain ⟨l, bss, rfl, ha, hl, rfl⟩ := h
    obtain ⟨hw, hr⟩ := rw_pairs (hR k (by simp [RTy.parts])) (hR t (by simp [RTy.parts])) ha
    refine ⟨fun hb => ?_, fun hA rest => ?_⟩
    · simp only [writeTy, writeMap, hw hb, byteSize_eq]
      rfl
    · have hcap : withCapacity (2 * E.valSize) l.length = .ok () :=
        capacity_ok (Nat.lt_of_le_of_lt hl.2 hq.ordinary) hm
      simp [readTy, readMapSeq, lenPrefix, byteSize_eq, List.append_assoc, readLe_append (allows_lt hl), hcap, hr hA]
  | record lib name isTuple fs =>
    have hRf : ∀ f ∈ fs, ∀ v bs, f.2.Writes v bs → RW A B (wr v (f.2.semId E.H)) (rd (f.2.semId E.H)) v bs :=
      fun f hf => hR f.2 (List.mem_map_of_mem hf)
    simp only [RTy.Writes] at h
    split at h
    · rename_i he
      obtain ⟨rfl, rfl⟩ := h
      have : fs = [] := by simpa using he
      subst this
      rw [RTy.img_empty]
      exact rw_prim (E := E) hs (fun _ => by simp [ReadablePrim, Ty.UNIT_CODE]) .unit
    · rename_i he
      have he : fs.isEmpty = false := by simpa using he
      split at h
      · rename_i hi
        subst hi
        obtain ⟨l, rfl, hw⟩ := h
        obtain ⟨h0, h1, h2⟩ := rw_tuple (H := E.H) hRf hw
        have hrs := not_rstring hall
        rw [RTy.img_tuple he]
        refine ⟨fun hb => ?_, fun hA rest => ?_⟩
        · have : ((l.map Prod.snd).length == (fs.map fun f => f.2.semId E.H).length) = true := by simp [h0]
          show writeTuple wr E _ (.tuple _) = _
          simp only [writeTuple, debugAssert_true this, Out.bind_ok, h1 hb]
        · show readTupleTy rd E _ _ = _
          simp only [readTupleTy, hrs, ofUnknown, Out.mapErr, Out.bind_ok, Bool.false_eq_true, if_false, h2 hA,
            Out.pure_eq]
      · rename_i hi
        have hi : isTuple = false := by simpa using hi
        subst hi
        obtain ⟨l, rfl, hw⟩ := h
        obtain ⟨h0, h1, h2⟩ := rw_fields (H := E.H) (acc := []) hRf hq.named hq.fields hw
        rw [RTy.img_struct he]
        refine ⟨fun hb => ?_, fun hA rest => ?_⟩
        · have h1 := h1 hb
          simp only [List.nil_append] at h1
          simp only [writeTy, writeStruct]
          rw [debugAssert_true (by simpa using h0)]
          exact h1
        · have h2 := h2 hA rest
          simp only [List.nil_append] at h2
          simp only [readTy, h2]
          rfl
  | enum lib name vs =>
    obtain ⟨x, hx, rfl, rfl⟩ := h
    have hwf := hq.wf
    rw [RTy.img_enum] at hwf ⊢
    have hwf : VariantsWF (byTag Variant.tag vs) := hwf
    have hm : (⟨x.name, x.tag⟩ : Variant) ∈ byTag Variant.tag vs := mem_byTag.mpr hx
    refine ⟨fun _ => ?_, fun hA rest => ?_⟩
    · simp [writeTy, writeEnum, (enumTagByName_iff hwf x.name x.tag).mpr hm]
    · have h1 := readLe_append (w := 1) (n := x.tag.toNat) (by simpa using x.tag.isLt) rest
      have h2 : le 1 x.tag.toNat = [x.tag] := by simp [le]
      rw [h2] at h1
      simp only [List.cons_append, List.nil_append] at h1 ⊢
      simp [readTy, h1, (enumNameByTag_iff hwf x.name x.tag).mpr hm]
  | union lib name vs w =>
    obtain ⟨x, hx, u, b, rfl, rfl, hu⟩ := WritesVariants_iff.mp h
    have hwf := hq.wf
    rw [RTy.img_union] at hwf ⊢
    generalize hgs : (byTag (fun v => v.1.tag) vs).map (fun v => (v.1, v.2.semId E.H)) = us at hwf ⊢
    have hwf : VariantsWF (us.map Prod.fst) := hwf
    have hm : (x.1, x.2.semId E.H) ∈ us := by
      rw [← hgs]
      exact List.mem_map.mpr ⟨x, mem_byTag.mpr hx, rfl⟩
    obtain ⟨ha, ra⟩ := hR x.2 (List.mem_map_of_mem hx) u b hu
    refine ⟨fun hb => ?_, fun hA rest => ?_⟩
    · have hn := (unionByName_iff hwf (x.1, x.2.semId E.H) x.1.name).mpr ⟨hm, rfl⟩
      simp [writeTy, writeUnion, hn, ha hb]
    · have h1 := readLe_append (w := 1) (n := x.1.tag.toNat) (by simpa using x.1.tag.isLt) (b ++ rest)
      have h2 : le 1 x.1.tag.toNat = [x.1.tag] := by simp [le]
      rw [h2] at h1
      have hn := (unionByTag_iff hwf (x.1, x.2.semId E.H) x.1.tag).mpr ⟨hm, rfl⟩
      simp only [List.cons_append, List.nil_append] at h1 ⊢
      simp [readTy, h1, hn, ra hA]

end

/-! ### All layers -/

theorem RTy.typeOf_img {E : Env} {q : RTy} (h : Fit E q) :
    E.typeOf (q.semId E.H) = some (q.img E.H) := by
  unfold Env.typeOf
  split
  · rename_i e
    rw [RTy.img, h.plain.unit e]
    rfl
  · exact h.find

theorem writes_all {E : Env} {A B : Prop} (hs : B → PrimSizes E)
    (hm : 2 ^ 32 * (2 * E.valSize) < 2 ^ 63) : ∀ (q : RTy), (∀ p, q.Contains p → Fit E p) →
    (∀ p, q.Contains p → B → ¬ p.ItemArray) → (∀ p, q.Contains p → A → p.UpTo64) → ∀ fuel, sizeOf q ≤ fuel → ∀ v bs, q.Writes v bs →
    RW A B (write E fuel v (q.semId E.H)) (read E fuel (q.semId E.H)) v bs := by
  refine RTy.induct fun q ih hall hB hA fuel hf v bs h => ?_
  cases fuel with
  | zero => cases q <;> simp at hf
  | succ fuel =>
    have hq := hall q (.refl _)
    have := writes_layer (wr := write E fuel) (rd := read E fuel) (A := A) (B := B) hs hm hall (hB q (.refl _))
      (hA q (.refl _))
      (fun p hp v bs hw => ih p hp (fun s hs => hall s (.step hp hs)) (fun s hs => hB s (.step hp hs))
        (fun s hs => hA s (.step hp hs)) fuel
        (by have := RTy.parts_lt hp; omega) v bs hw) h (q.semId E.H)
    refine ⟨fun hb => ?_, fun hA rest => ?_⟩
    · simp only [write, RTy.typeOf_img hq]
      exact this.1 hb
    · simp only [read, hq.find]
      exact this.2 hA rest

end Verif
