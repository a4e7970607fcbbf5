import Verif.Lemmas.Codec
import Verif.Lemmas.Commit
import Verif.Lemmas.Utf8
import Verif.Spec.Part

/-!
# Writing then reading
-/

namespace Verif

/-- Writing `v` succeeds and reading the bytes gives `v` back, whatever follows. -/
def RT (w : Out EErr Bytes) (r : Bytes → Out DErr (RdPair Val)) (v : Val) : Prop :=
  ∃ bs, w = .ok bs ∧ ∀ rest, r (bs ++ rest) = .ok (v, rest)

variable {wr : Val → SemId → Out EErr Bytes} {rd : SemId → Bytes → Out DErr (RdPair Val)}
variable {E : Env} {strict : Bool}

theorem rt_items {id : SemId} {l : List Val} (h : ∀ v ∈ l, RT (wr v id) (rd id) v) :
    ∃ bs, writeItems wr id l = .ok bs ∧
      ∀ rest, readItems rd id l.length (bs ++ rest) = .ok (l, rest) := by
  induction l with
  | nil => exact ⟨[], rfl, fun rest => rfl⟩
  | cons v l ih =>
    obtain ⟨a, ha, ra⟩ := h v (by simp)
    obtain ⟨b, hb, rb⟩ := ih fun w hw => h w (by simp [hw])
    refine ⟨a ++ b, by simp [writeItems, ha, hb], fun rest => ?_⟩
    simp [readItems, List.append_assoc, ra, rb]

theorem rt_pairs {kid id : SemId} {l : List (Val × Val)}
    (h : ∀ p ∈ l, RT (wr p.1 kid) (rd kid) p.1 ∧ RT (wr p.2 id) (rd id) p.2) :
    ∃ bs, writePairs wr kid id l = .ok bs ∧
      ∀ rest, readPairs rd kid id l.length (bs ++ rest) = .ok (l, rest) := by
  induction l with
  | nil => exact ⟨[], rfl, fun rest => rfl⟩
  | cons p l ih =>
    obtain ⟨k, v⟩ := p
    obtain ⟨⟨a, ha, ra⟩, ⟨c, hc, rc⟩⟩ := h (k, v) (by simp)
    obtain ⟨b, hb, rb⟩ := ih fun w hw => h w (by simp [hw])
    dsimp only at ha ra hc rc
    refine ⟨a ++ c ++ b, by simp [writePairs, ha, hb, hc], fun rest => ?_⟩
    simp [readPairs, List.append_assoc, ra, rb, rc]

theorem rt_tuple {l : List Val} {ids : List SemId}
    (h : All2 (fun v id => RT (wr v id) (rd id) v) l ids) :
    ∃ bs, writeZip wr l ids = .ok bs ∧ ∀ rest, readTuple rd ids (bs ++ rest) = .ok (l, rest) := by
  induction l generalizing ids with
  | nil =>
    cases ids with
    | nil => exact ⟨[], rfl, fun rest => rfl⟩
    | cons _ _ => exact absurd h (by simp [All2])
  | cons v l ih =>
    cases ids with
    | nil => exact absurd h (by simp [All2])
    | cons id ids =>
      obtain ⟨⟨a, ha, ra⟩, h2⟩ := h
      obtain ⟨b, hb, rb⟩ := ih h2
      refine ⟨a ++ b, by simp [writeZip, ha, hb], fun rest => ?_⟩
      simp [readTuple, List.append_assoc, ra, rb]

theorem imInsert_append {V : Type} {acc : List (Name × V)} {n : Name} {v : V}
    (h : n ∉ acc.map Prod.fst) : imInsert acc n v = acc ++ [(n, v)] := by
  induction acc with
  | nil => rfl
  | cons p acc ih =>
    obtain ⟨m, w⟩ := p
    simp only [List.map_cons, List.mem_cons, not_or] at h
    simp [imInsert, Ne.symm h.1, ih h.2]

theorem imGet_append {V : Type} {acc l : List (Name × V)} {n : Name} {v : V}
    (h : n ∉ acc.map Prod.fst) : imGet (acc ++ (n, v) :: l) n = some v := by
  induction acc with
  | nil => simp [imGet]
  | cons p acc ih =>
    simp only [List.map_cons, List.mem_cons, not_or] at h
    have : (p.1 == n) = false := by simpa using Ne.symm h.1
    have ih := ih h.2
    simp only [imGet, List.cons_append, List.find?_cons, this] at ih ⊢
    exact ih

theorem rt_fields {fs : List (Name × Val)} {req : List (Name × SemId)} {acc : List (Name × Val)}
    (h : All2 (fun f r => f.1 = r.1 ∧ RT (wr f.2 r.2) (rd r.2) f.2) fs req)
    (hd : (acc.map Prod.fst ++ req.map Prod.fst).Nodup) :
    ∃ bs, writeFields wr (acc ++ fs) req = .ok bs ∧
      ∀ rest, readFields rd req acc (bs ++ rest) = .ok (acc ++ fs, rest) := by
  induction fs generalizing req acc with
  | nil =>
    cases req with
    | nil => exact ⟨[], rfl, fun rest => by simp [readFields]⟩
    | cons _ _ => exact absurd h (by simp [All2])
  | cons f fs ih =>
    cases req with
    | nil => exact absurd h (by simp [All2])
    | cons r req =>
      obtain ⟨⟨hn, a, ha, ra⟩, h2⟩ := h
      obtain ⟨n, v⟩ := f
      obtain ⟨m, id⟩ := r
      dsimp only at hn ha ra
      subst hn
      have hnot : n ∉ acc.map Prod.fst := by
        intro hmem
        have := (List.nodup_append.mp hd).2.2 n hmem n (by simp)
        exact this rfl
      have hd' : ((acc ++ [(n, v)]).map Prod.fst ++ req.map Prod.fst).Nodup := by
        simpa using hd
      obtain ⟨b, hb, rb⟩ := ih h2 hd'
      have he : acc ++ [(n, v)] ++ fs = acc ++ (n, v) :: fs := by simp
      rw [he] at hb rb
      refine ⟨a ++ b, ?_, fun rest => ?_⟩
      · simp [writeFields, imGet_append hnot, ha, hb]
      · simp [readFields, List.append_assoc, ra, imInsert_append hnot, rb]

theorem all2_impR {α β : Type} {R S : α → β → Prop} {l : List α} {m : List β}
    (hi : ∀ a b, b ∈ m → R a b → S a b) (h : All2 R l m) : All2 S l m := by
  induction l generalizing m with
  | nil =>
    cases m with
    | nil => trivial
    | cons _ _ => exact absurd h (by simp [All2])
  | cons a l ih =>
    cases m with
    | nil => exact absurd h (by simp [All2])
    | cons b m => exact ⟨hi a b (by simp) h.1, ih (fun a b hb => hi a b (by simp [hb])) h.2⟩

theorem sizeOk_lt {min max n : Nat} (hm : max < 2 ^ 64) (h : SizeOk strict min max n) :
    n < 256 ^ prefixWidth max := by
  unfold SizeOk at h
  split at h
  · exact lt_prefixWidth h.2 hm
  · exact h

theorem charOk_ascii {C : List Variant} (hC : CharVariants C) {b : Byte} (h : CharOk strict C b) :
    b.toNat < 128 := by
  unfold CharOk at h
  split at h
  · obtain ⟨v, hv, rfl⟩ := h
    have := hC v hv
    omega
  · exact h

theorem isAscii_of {s : Bytes} (h : ∀ b ∈ s, b.toNat < 128) : isAscii s = true := by
  simpa [isAscii] using h

theorem debugAssert_true {ε : Type} {d b : Bool} (h : b = true) :
    (Out.debugAssert d b : Out ε Unit) = .ok () := by
  simp [Out.debugAssert, h]

theorem succ_toNat {x : BitVec 64} (h : x.toNat < 2 ^ 64 - 1) : (x + 1).toNat = x.toNat + 1 := by
  have h1 : (1 : BitVec 64).toNat = 1 := rfl
  rw [BitVec.toNat_add, h1]
  omega

theorem rt_prim {p : Byte} {v : Val} {R : Val → SemId → Prop} (hs : E.Sane)
    (hu : ReadablePrim p) (h : Inhabits E strict R v (.primitive p)) :
    RT (writePrim E p v) (readPrim p) v := by
  have uint : ∀ (n : Nat) (x : BitVec 64), x.toNat < 256 ^ n → n ≤ 8 → ∀ rest,
      readUint n (le n x.toNat ++ rest) = .ok (.num (.uint x), rest) := by
    intro n x hx hn rest
    simp [readUint, readLe_append hx]
  have int : ∀ (n : Nat) (x : BitVec 64), n = 1 ∨ n = 2 ∨ n = 4 ∨ n = 8 →
      -(2 : Int) ^ (8 * n - 1) ≤ x.toInt → x.toInt < (2 : Int) ^ (8 * n - 1) → ∀ rest,
      readInt n (le n x.toNat ++ rest) = .ok (.num (.int x), rest) := by
    intro n x hn h1 h2 rest
    have hlt : x.toNat % 256 ^ n < 256 ^ n := Nat.mod_lt _ (Nat.pow_pos (by decide))
    have := readLe_append hlt rest
    rw [le_mod] at this
    simp only [readInt, this, Out.bind_ok, Out.pure_eq]
    rw [signExtend_le hn h1 h2]
  generalize ht : (Ty.primitive p : Ty SemId) = t at h
  cases h with
  | unit =>
    cases ht
    refine ⟨[], ?_, fun rest => rfl⟩
    simp [writePrim, Out.debugAssert, Ty.UNIT_CODE]
  | @uint n x h1 h8 hx =>
    cases ht
    refine ⟨le n x.toNat, ?_, fun rest => ?_⟩
    · simp [writePrim, hs.sizes n h1 h8, leSlice, h8]
    · have : readPrim (BitVec.ofNat 8 n) = readUint n := by
        funext bs
        have : n = 1 ∨ n = 2 ∨ n = 3 ∨ n = 4 ∨ n = 5 ∨ n = 6 ∨ n = 7 ∨ n = 8 := by omega
        rcases this with rfl | rfl | rfl | rfl | rfl | rfl | rfl | rfl <;> rfl
      rw [this]
      exact uint n x hx h8 rest
  | @byte x hx =>
    cases ht
    refine ⟨le 1 x.toNat, ?_, fun rest => ?_⟩
    · simp [writePrim, hs.sizeB, leSlice]
    · exact uint 1 x (by simpa using hx) (by omega) rest
  | @int n x h1 h8 ha hb =>
    cases ht
    have hn : n = 1 ∨ n = 2 ∨ n = 4 ∨ n = 8 := by
      unfold ReadablePrim at hu
      have : (BitVec.ofNat 8 (0x40 + n)).toNat = 0x40 + n := by
        simp; omega
      rw [this] at hu
      omega
    refine ⟨le n x.toNat, ?_, fun rest => ?_⟩
    · simp [writePrim, hs.sizesI n hn, leSlice, h8]
    · have : readPrim (BitVec.ofNat 8 (0x40 + n)) = readInt n := by
        funext bs
        rcases hn with rfl | rfl | rfl | rfl <;> rfl
      rw [this]
      exact int n x hn ha hb rest
  | bigUint h1 h2 _ =>
    cases ht
    unfold ReadablePrim at hu
    omega
  | bigInt h1 h2 _ _ =>
    cases ht
    unfold ReadablePrim at hu
    omega
  | _ => cases ht

theorem rt_ty {R : Val → SemId → Prop} (hs : E.Sane) (hd : strict = true ∨ E.debug = false) {id : SemId} {t : Ty SemId}
    (hf : E.find id = some t) {v : Val} (h : Inhabits E strict R v t) (hnr : ¬ Unread E v id)
    (hR : (∀ a len, t ≠ .array a len) → ∀ v id, R v id → RT (wr v id) (rd id) v) (spec : SemId) :
    RT (writeTy wr E v t) (readTy rd E spec t) v := by
  have ht : t.WF ∧ t.FieldsDistinct ∧ ∀ r ∈ t.refs, ∃ u, E.find r = some u :=
    ⟨hs.wf id t hf, hs.fields id t hf, hs.closed id t hf⟩
  have prim : ∀ p, t = .primitive p → ReadablePrim p → RT (writeTy wr E v t) (readTy rd E spec t) v := by
    rintro p rfl hp
    exact rt_prim hs hp h
  have num : ∀ p k, t = .primitive p → v = .num k → RT (writeTy wr E v t) (readTy rd E spec t) v := by
    rintro p k rfl rfl
    exact prim p rfl (Classical.byContradiction fun hp => hnr (.number hf hp))
  have hrs : ∀ {ids : List SemId} {A C : List Variant} {sz : Sizing} {s : Bytes}, t = .tuple ids → v = .str s →
      E.RString ids A C sz → isAscii s = true →
      (sz.max.toNat < 2 ^ 64 - 1 → s.length < 256 ^ prefixWidth (sz.max.toNat + 1)) →
      (strict = true → sz.min.toNat < s.length ∧ s.length ≤ sz.max.toNat + 1) →
      RT (writeTy wr E (.str s) (.tuple ids)) (readTy rd E spec (.tuple ids)) (.str s) := by
    rintro ids A C sz s rfl rfl hr ha hl hst
    have hmax : sz.max.toNat < 2 ^ 64 := sz.max.isLt
    have hov : E.debug = false ∨ sz.min.toNat < 2 ^ 64 - 1 ∧ sz.max.toNat < 2 ^ 64 - 1 := by
      cases hdb : E.debug with
      | false => exact .inl rfl
      | true =>
        have h1 : sz.max.toNat ≠ 2 ^ 64 - 1 := fun h => hnr (.longRString hf hr h (.inl hdb))
        have := hst (hd.resolve_right (by simp [hdb]))
        exact .inr ⟨by omega, by omega⟩
    obtain ⟨h1, c, h2⟩ := isRString_true hr hov
    have hl' : s.length < 256 ^ (Sizing.mk (sz.min + 1) (sz.max + 1)).byteSize := by
      rcases Nat.lt_or_ge sz.max.toNat (2 ^ 64 - 1) with h | h
      · rw [byteSize_eq]
        simpa only [succ_toNat h] using hl h
      · have hm : sz.max.toNat = 2 ^ 64 - 1 := by omega
        have h256 : s.length < 256 := by
          rcases Nat.lt_or_ge s.length 256 with h | h
          · exact h
          · exact absurd (.longRString hf hr hm (.inr h)) hnr
        have : sz.max + 1 = 0 := by
          apply BitVec.eq_of_toNat_eq
          rw [BitVec.toNat_add, hm]
          rfl
        rw [this]
        exact h256
    refine ⟨le (Sizing.mk (sz.min + 1) (sz.max + 1)).byteSize s.length ++ s, ?_, fun rest => ?_⟩
    · show writeTuple wr E ids (.str s) = _
      simp only [writeTuple, ha, h1, h2, if_true]
      have : (Out.debugAssert E.debug (decide (s.length ≤ (sz.max + 1).toNat)) : Out EErr Unit) =
          .ok () := by
        cases hdb : E.debug with
        | false => simp [Out.debugAssert]
        | true =>
          apply debugAssert_true
          have h1 : sz.max.toNat ≠ 2 ^ 64 - 1 := fun h => hnr (.longRString hf hr h (.inl hdb))
          rw [succ_toNat (by omega)]
          simpa using (hst (hd.resolve_right (by simp [hdb]))).2
      rw [this]
      rfl
    · show readTupleTy rd E ids _ = _
      simp only [readTupleTy, h1, h2, ofUnknown, Out.mapErr, Out.bind_ok, if_true]
      exact readAscii_append hl' ha rest
  cases h with
  | unit => exact prim _ rfl (.inl (by decide))
  | uint h1 h8 hx => exact num _ _ rfl rfl
  | byte hx => exact num _ _ rfl rfl
  | int h1 h8 ha hb => exact num _ _ rfl rfl
  | bigUint h1 h2 _ => exact num _ _ rfl rfl
  | bigInt h1 h2 _ _ => exact num _ _ rfl rfl
  | unicodeChar => exact absurd (.char hf) hnr
  | @enum vs n tg hm =>
    have hwf : VariantsWF vs := ht.1
    refine ⟨[tg], ?_, fun rest => ?_⟩
    · simp [writeTy, writeEnum, (enumTagByName_iff hwf n tg).mpr hm]
    · have h1 := readLe_append (w := 1) (n := tg.toNat) (by simpa using tg.isLt) rest
      have h2 : le 1 tg.toNat = [tg] := by simp [le]
      rw [h2] at h1
      simp only [List.cons_append, List.nil_append] at h1 ⊢
      simp [readTy, h1, (enumNameByTag_iff hwf n tg).mpr hm]
  | @union vs n tg id w hm hr =>
    have hwf : VariantsWF (vs.map Prod.fst) := ht.1
    obtain ⟨a, ha, ra⟩ := hR (by simp) w id hr
    refine ⟨tg :: a, ?_, fun rest => ?_⟩
    · have hb : Ty.unionByName vs n = some (⟨n, tg⟩, id) :=
        (unionByName_iff hwf (⟨n, tg⟩, id) n).mpr ⟨hm, rfl⟩
      simp [writeTy, writeUnion, hb, ha]
    · have h1 := readLe_append (w := 1) (n := tg.toNat) (by simpa using tg.isLt) (a ++ rest)
      have h2 : le 1 tg.toNat = [tg] := by simp [le]
      rw [h2] at h1
      have hb : Ty.unionByTag vs tg = some (⟨n, tg⟩, id) :=
        (unionByTag_iff hwf (⟨n, tg⟩, id) tg).mpr ⟨hm, rfl⟩
      simp only [List.cons_append, List.nil_append] at h1 ⊢
      simp [readTy, h1, hb, ra]
  | @tuple l ids hn ha =>
    have hrf : E.isRString ids = .ok false := by
      refine isRString_false hn ht.2.2 ?_
      rintro a b rfl c sz hfb
      refine ⟨hs.closed _ _ hfb _ (by simp [Ty.refs]), ?_⟩
      cases hdb : E.debug with
      | false => exact .inl rfl
      | true =>
        have h1 := sz.min.isLt
        have h2 := sz.max.isLt
        have h3 : sz.min.toNat ≠ 2 ^ 64 - 1 := fun h => hnr (.longPair hf hfb (.inl h) hdb)
        have h4 : sz.max.toNat ≠ 2 ^ 64 - 1 := fun h => hnr (.longPair hf hfb (.inr h) hdb)
        exact .inr ⟨by omega, by omega⟩
    obtain ⟨bs, hw, hr⟩ := rt_tuple (wr := wr) (rd := rd) (ids := ids)
      (all2_impR (m := ids) (fun v id hid hv => hR (by simp) v id hv) ha)
    refine ⟨bs, ?_, fun rest => ?_⟩
    · have : (l.length == ids.length) = true := by simpa using all2_length ha
      show writeTuple wr E ids (.tuple l) = _
      simp only [writeTuple, debugAssert_true this, Out.bind_ok, hw]
    · show readTupleTy rd E ids _ = _
      have := hr rest
      simp only [readTupleTy, hrf, ofUnknown, Out.mapErr, Out.bind_ok, Bool.false_eq_true, if_false,
        this, Out.pure_eq]
  | @rstring A C sz ids c s hr hc hss hsz =>
    have hl : sz.max.toNat < 2 ^ 64 - 1 → (c :: s).length < 256 ^ prefixWidth (sz.max.toNat + 1) :=
      fun h => sizeOk_lt (by omega) hsz
    refine hrs rfl rfl hr (isAscii_of fun b hb => ?_) hl fun hst => ?_
    · obtain ⟨_, _, _, _, _, hA, _, _, hC⟩ := hr
      rcases List.mem_cons.mp hb with rfl | hb
      · exact charOk_ascii hA hc
      · exact charOk_ascii hC (hss b hb)
    · subst hst
      simp only [SizeOk, if_true] at hsz
      exact ⟨by simp; omega, by simpa using hsz.2⟩
  | @rstringEmpty A C sz ids hr hst =>
    refine hrs rfl rfl hr rfl (fun _ => Nat.pow_pos (by decide)) fun h => ?_
    rw [hst] at h
    cases h
  | @struct fs req ha =>
    have h1 := all2_impR (S := fun f r => f.1 = r.1 ∧ RT (wr f.2 r.2) (rd r.2) f.2)
      (fun f r hr hv => ⟨hv.1, hR (by simp) f.2 r.2 hv.2⟩) ha
    obtain ⟨bs, hw, hr⟩ := rt_fields (acc := []) h1 (by simpa using (show (req.map Prod.fst).Nodup from ht.2.1))
    simp only [List.nil_append] at hw hr
    refine ⟨bs, ?_, fun rest => ?_⟩
    · simp [writeTy, writeStruct, all2_length ha, Out.debugAssert, hw]
    · simp [readTy, hr]
  | @byteArray id len b hid hl =>
    refine ⟨b, ?_, fun rest => ?_⟩
    · simp [writeTy, writeArray, hl, Out.debugAssert]
    · have := readRaw_append b rest
      rw [hl] at this
      simp [readTy, hid, this]
  | array hid _ _ => exact absurd (.array hf) hnr
  | @asciiList id C sz s hc hss hsz =>
    have ha : isAscii s = true := isAscii_of fun b hb => charOk_ascii hc.2 (hss b hb)
    have hl : s.length < 256 ^ sz.byteSize := by
      rw [byteSize_eq]
      exact sizeOk_lt (by have := sz.max.isLt; omega) hsz
    refine ⟨_, rfl, fun rest => ?_⟩
    have hce := (isCharEnum_iff _).mpr ⟨C, rfl, hc.2⟩
    simp only [readTy, readList, hc.1, hce, if_true]
    exact readAscii_append hl ha rest
  | @byteList id sz b hid hsz =>
    have hl : b.length < 256 ^ sz.byteSize := by
      rw [byteSize_eq]
      exact sizeOk_lt (by have := sz.max.isLt; omega) hsz
    refine ⟨_, rfl, fun rest => ?_⟩
    obtain ⟨u, hu⟩ := ht.2.2 id (by simp [Ty.refs])
    have hce : u.isCharEnum = false := by
      rcases hs.byte id u hid hu with rfl | rfl <;> rfl
    have hm : sz.max.toNat ≤ 0xffffffff := by
      rcases Nat.lt_or_ge sz.max.toNat (2 ^ 32) with h | h
      · omega
      · exact absurd (.longBytes hf h) hnr
    simp only [readTy, readList, hu, hce, hid, hm, Bool.false_eq_true, if_false, and_self, if_true]
    exact readBlob_append hl rest
  | @unicodeList id sz s hnb hid hv hsz =>
    have hl : s.length < 256 ^ sz.byteSize := by
      rw [byteSize_eq]
      exact sizeOk_lt (by have := sz.max.isLt; omega) hsz
    refine ⟨_, rfl, fun rest => ?_⟩
    obtain ⟨u, hu⟩ := ht.2.2 id (by simp [Ty.refs])
    have hce : u.isCharEnum = false := by
      rw [hs.unicode id u hid hu]; rfl
    have hm : sz.max.toNat ≤ 0xffffffff := by
      rcases Nat.lt_or_ge sz.max.toNat (2 ^ 32) with h | h
      · omega
      · exact absurd (.longText hf hid h) hnr
    simp only [readTy, readList, hu, hce, hid, hnb, hm, Bool.false_eq_true, if_false, and_self,
      false_and, if_true]
    exact readString_append hl ((utf8Valid_iff s).2 hv) rest
  | @list id sz l hnb hnu hnc hmem hsz hall =>
    have hl : l.length < 256 ^ sz.byteSize := by
      rw [byteSize_eq]
      exact sizeOk_lt (by have := sz.max.isLt; omega) hsz
    obtain ⟨u, hu⟩ := ht.2.2 id (by simp [Ty.refs])
    have hce : u.isCharEnum = false := by
      cases hc : u.isCharEnum with
      | false => rfl
      | true =>
        obtain ⟨vs, rfl, hvs⟩ := (isCharEnum_iff u).mp hc
        exact absurd ⟨hu, hvs⟩ (hnc vs)
    obtain ⟨bs, hw, hr⟩ := rt_items (wr := wr) (rd := rd) (id := id) (l := l)
      fun v hv => hR (by simp) v id (hall v hv)
    refine ⟨le sz.byteSize l.length ++ bs, ?_, fun rest => ?_⟩
    · simp [writeTy, writeList, hw]
    · have hcap : withCapacity E.valSize l.length = .ok () := if_pos hmem
      simp [readTy, readList, hu, hce, hnu, hnb, readSeq, List.append_assoc, readLe_append hl,
        hcap, hr]
  | @set id sz l hmem hsz hall hdist =>
    have hl : l.length < 256 ^ sz.byteSize := by
      rw [byteSize_eq]
      exact sizeOk_lt (by have := sz.max.isLt; omega) hsz
    obtain ⟨bs, hw, hr⟩ := rt_items (wr := wr) (rd := rd) (id := id) (l := l)
      fun v hv => hR (by simp) v id (hall v hv)
    refine ⟨le sz.byteSize l.length ++ bs, ?_, fun rest => ?_⟩
    · simp [writeTy, writeSet, hw]
    · have hcap : withCapacity E.valSize l.length = .ok () := if_pos hmem
      simp [readTy, readSeq, List.append_assoc, readLe_append hl, hcap, hr]
  | @map kid id sz l hmem hsz hall hdist =>
    have hl : l.length < 256 ^ sz.byteSize := by
      rw [byteSize_eq]
      exact sizeOk_lt (by have := sz.max.isLt; omega) hsz
    obtain ⟨bs, hw, hr⟩ := rt_pairs (wr := wr) (rd := rd) (kid := kid) (id := id) (l := l)
      fun p hp => ⟨hR (by simp) _ _ (hall p hp).1, hR (by simp) _ _ (hall p hp).2⟩
    refine ⟨le sz.byteSize l.length ++ bs, ?_, fun rest => ?_⟩
    · simp [writeTy, writeMap, hw]
    · have hcap : withCapacity (2 * E.valSize) l.length = .ok () := if_pos hmem
      simp [readTy, readMapSeq, List.append_assoc, readLe_append hl, hcap, hr]

theorem Env.Sane.typeOf (hs : E.Sane) {id : SemId} {t : Ty SemId} (h : E.find id = some t) :
    E.typeOf id = some t := by
  unfold Env.typeOf
  split
  · rename_i he
    subst he
    rw [hs.unit t h]
  · exact h

end Verif
