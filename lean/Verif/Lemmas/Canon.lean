import Verif.Lemmas.RoundTrip

/-!
# Reading then writing
-/

namespace Verif

/-- What reading `v` from `bs` tells: `P`, and the consumed bytes are those that writing gives. -/
def Back (D : Prop) (w : Out EErr Bytes) (bs rest : Bytes) : Prop :=
  ∃ c, bs = c ++ rest ∧ (D → w = .ok c)

variable {wr : Val → SemId → Out EErr Bytes} {rd : SemId → Bytes → Out DErr (RdPair Val)}
variable {E : Env} {R G : Val → SemId → Prop} {D : Prop}

section
variable (hrd : ∀ id bs v rest, rd id bs = .ok (v, rest) → R v id ∧ Back (G v id) (wr v id) bs rest)
include hrd

theorem back_items {id : SemId} {n : Nat} {bs rest : Bytes} {l : List Val}
    (h : readItems rd id n bs = .ok (l, rest)) :
    l.length = n ∧ (∀ v ∈ l, R v id) ∧ Back (∀ v ∈ l, G v id) (writeItems wr id l) bs rest := by
  induction n generalizing bs l with
  | zero =>
    cases h
    exact ⟨rfl, by simp, [], rfl, fun _ => rfl⟩
  | succ n ih =>
    obtain ⟨⟨v, r⟩, h1, h2⟩ := Out.bind_eq_ok.mp h
    obtain ⟨⟨vs, r'⟩, h3, h4⟩ := Out.bind_eq_ok.mp h2
    cases h4
    obtain ⟨hv, c, rfl, hc⟩ := hrd _ _ _ _ h1
    obtain ⟨hl, ha, d, hd, hw⟩ := ih h3
    subst hd
    refine ⟨by simp [hl], ?_, c ++ d, by simp, fun hD => by
      simp [writeItems, hc (hD v (by simp)), hw fun w hm => hD w (by simp [hm])]⟩
    intro w hw'
    rcases List.mem_cons.mp hw' with rfl | hw'
    · exact hv
    · exact ha w hw'

theorem back_pairs {kid id : SemId} {n : Nat} {bs rest : Bytes} {l : List (Val × Val)}
    (h : readPairs rd kid id n bs = .ok (l, rest)) :
    l.length = n ∧ (∀ p ∈ l, R p.1 kid ∧ R p.2 id) ∧
      Back (∀ p ∈ l, G p.1 kid ∧ G p.2 id) (writePairs wr kid id l) bs rest := by
  induction n generalizing bs l with
  | zero =>
    cases h
    exact ⟨rfl, by simp, [], rfl, fun _ => rfl⟩
  | succ n ih =>
    obtain ⟨⟨k, r0⟩, h0, h⟩ := Out.bind_eq_ok.mp h
    obtain ⟨⟨v, r⟩, h1, h2⟩ := Out.bind_eq_ok.mp h
    obtain ⟨⟨vs, r'⟩, h3, h4⟩ := Out.bind_eq_ok.mp h2
    cases h4
    obtain ⟨hk, b, rfl, hb⟩ := hrd _ _ _ _ h0
    obtain ⟨hv, c, hc', hc⟩ := hrd _ _ _ _ h1
    obtain ⟨hl, ha, d, hd, hw⟩ := ih h3
    subst hd
    subst hc'
    refine ⟨by simp [hl], ?_, b ++ c ++ d, by simp,
      fun hD => by simp [writePairs, hb (hD (k, v) (by simp)).1, hc (hD (k, v) (by simp)).2, hw fun w hm => hD w (by simp [hm])]⟩
    intro w hw'
    rcases List.mem_cons.mp hw' with rfl | hw'
    · exact ⟨hk, hv⟩
    · exact ha w hw'

theorem back_tuple {ids : List SemId} {bs rest : Bytes} {l : List Val}
    (h : readTuple rd ids bs = .ok (l, rest)) :
    All2 R l ids ∧ Back (All2 G l ids) (writeZip wr l ids) bs rest := by
  induction ids generalizing bs l with
  | nil =>
    cases h
    exact ⟨trivial, [], rfl, fun _ => rfl⟩
  | cons id ids ih =>
    obtain ⟨⟨v, r⟩, h1, h2⟩ := Out.bind_eq_ok.mp h
    obtain ⟨⟨vs, r'⟩, h3, h4⟩ := Out.bind_eq_ok.mp h2
    cases h4
    obtain ⟨hv, c, rfl, hc⟩ := hrd _ _ _ _ h1
    obtain ⟨ha, d, hd, hw⟩ := ih h3
    subst hd
    exact ⟨⟨hv, ha⟩, c ++ d, by simp, fun hD => by simp [writeZip, hc hD.1, hw hD.2]⟩

theorem back_fields {req : List (Name × SemId)} {acc : List (Name × Val)} {bs rest : Bytes}
    {fs : List (Name × Val)} (hn : (acc.map Prod.fst ++ req.map Prod.fst).Nodup)
    (h : readFields rd req acc bs = .ok (fs, rest)) :
    ∃ new, fs = acc ++ new ∧ All2 (fun f r => f.1 = r.1 ∧ R f.2 r.2) new req ∧
      Back (All2 (fun f r => f.1 = r.1 ∧ G f.2 r.2) new req) (writeFields wr fs req) bs rest := by
  induction req generalizing bs acc with
  | nil =>
    cases h
    exact ⟨[], by simp, trivial, [], rfl, fun _ => rfl⟩
  | cons r req ih =>
    obtain ⟨n, id⟩ := r
    obtain ⟨⟨v, r⟩, h1, h2⟩ := Out.bind_eq_ok.mp h
    obtain ⟨hv, c, rfl, hc⟩ := hrd _ _ _ _ h1
    have hnot : n ∉ acc.map Prod.fst := by
      intro hmem
      exact (List.nodup_append.mp hn).2.2 n hmem n (by simp) rfl
    have hn' : ((acc ++ [(n, v)]).map Prod.fst ++ req.map Prod.fst).Nodup := by
      simpa using hn
    dsimp only at h2
    rw [imInsert_append hnot] at h2
    obtain ⟨new, rfl, ha, d, hd, hw⟩ := ih hn' h2
    subst hd
    refine ⟨(n, v) :: new, by simp, ⟨⟨rfl, hv⟩, ha⟩, c ++ d, by simp, fun hD => ?_⟩
    have hw := hw hD.2
    simp only [List.append_assoc, List.cons_append, List.nil_append] at hw ⊢
    simp only [writeFields, imGet_append hnot, hc hD.1.2, hw, Out.bind_ok, Out.pure_eq]

end

theorem all2_of_get {α β : Type} {R S : α → β → Prop} {l : List α} {m : List β} (h : All2 R l m)
    (hi : ∀ (k : Nat) a b, l[k]? = some a → m[k]? = some b → R a b → S a b) : All2 S l m := by
  induction l generalizing m with
  | nil =>
    cases m with
    | nil => trivial
    | cons _ _ => exact h.elim
  | cons a l ih =>
    cases m with
    | nil => exact h.elim
    | cons b m =>
      exact ⟨hi 0 a b rfl rfl h.1, ih h.2 fun k x y hx hy => hi (k + 1) x y hx hy⟩

theorem isRString_ne_false {ids : List SemId} {A C : List Variant} {sz : Sizing}
    (h : E.RString ids A C sz) : E.isRString ids ≠ .ok false := by
  intro hf
  obtain ⟨a, b, c, rfl, ha, hA, hb, hc, hC⟩ := h
  by_cases hov : E.debug = false ∨ (sz.min.toNat < 2 ^ 64 - 1 ∧ sz.max.toNat < 2 ^ 64 - 1)
  · rw [(isRString_true ⟨a, b, c, rfl, ha, hA, hb, hc, hC⟩ hov).1] at hf
    cases hf
  · have h1 : E.debug = true := by simpa using fun h => hov (Or.inl h)
    have h2 : (sz.min == -1 || sz.max == -1) = true := by
      have hne : ¬ (sz.min.toNat < 2 ^ 64 - 1 ∧ sz.max.toNat < 2 ^ 64 - 1) := fun h => hov (Or.inr h)
      have hmin := sz.min.isLt
      have hmax := sz.max.isLt
      have e : (-1 : BitVec 64).toNat = 2 ^ 64 - 1 := rfl
      rw [Bool.or_eq_true, beq_iff_eq, beq_iff_eq]
      by_cases hx : sz.min.toNat < 2 ^ 64 - 1
      · exact Or.inr (BitVec.eq_of_toNat_eq (by rw [e]; omega))
      · exact Or.inl (BitVec.eq_of_toNat_eq (by rw [e]; omega))
    have hp : E.rstringSizing [a, b] = .panic := by
      simp only [Env.rstringSizing, List.getElem?_cons_succ, List.getElem?_cons_zero,
        Out.expect_some, Out.bind_ok, hb, h1, h2]
      rfl
    simp [Env.isRString, hp] at hf

theorem back_prim (hs : E.Sane) {p : Byte} {bs rest : Bytes} {v : Val}
    (h : readPrim p bs = .ok (v, rest)) :
    Inhabits E false R v (.primitive p) ∧ Back D (writePrim E p v) bs rest := by
  have uint : ∀ n, 1 ≤ n → n ≤ 8 → E.primSize p = n → readUint n bs = .ok (v, rest) →
      ∃ x : BitVec 64, v = .num (.uint x) ∧ x.toNat < 256 ^ n ∧
        Back D (writePrim E p v) bs rest := by
    intro n h1 h8 hp h
    obtain ⟨⟨x, r⟩, hx, h2⟩ := Out.bind_eq_ok.mp h
    cases h2
    obtain ⟨rfl, hlt⟩ := readLe_ok hx
    have hx64 : x < 2 ^ 64 := Nat.lt_of_lt_of_le hlt
      (Nat.le_trans (Nat.pow_le_pow_right (by decide) h8) (by decide))
    refine ⟨_, rfl, ?_, le n x, rfl, fun _ => ?_⟩
    · rw [BitVec.toNat_ofNat, Nat.mod_eq_of_lt hx64]
      exact hlt
    · simp [writePrim, leSlice, hp, h8, Nat.mod_eq_of_lt hx64]
  have int : ∀ n, n = 1 ∨ n = 2 ∨ n = 4 ∨ n = 8 → E.primSize p = n → readInt n bs = .ok (v, rest) →
      ∃ x : BitVec 64, v = .num (.int x) ∧ -(2 : Int) ^ (8 * n - 1) ≤ x.toInt ∧
        x.toInt < (2 : Int) ^ (8 * n - 1) ∧ Back D (writePrim E p v) bs rest := by
    intro n hn hp h
    obtain ⟨⟨x, r⟩, hx, h2⟩ := Out.bind_eq_ok.mp h
    cases h2
    obtain ⟨rfl, hlt⟩ := readLe_ok hx
    obtain ⟨h1, h2, h3⟩ := signExtend_range hn hlt
    refine ⟨_, rfl, h1, h2, le n x, rfl, fun _ => ?_⟩
    have h8 : n ≤ 8 := by omega
    simp only [writePrim, leSlice, hp, h8, if_true]
    rw [← le_mod, h3]
  unfold readPrim at h
  split at h
  · rename_i hp
    subst hp
    cases h
    refine ⟨.unit, [], rfl, fun _ => ?_⟩
    simp [writePrim, Out.debugAssert, Ty.UNIT_CODE]
  split at h
  · rename_i hp
    subst hp
    obtain ⟨x, rfl, hx, hb⟩ := uint 1 (by omega) (by omega) hs.sizeB h
    exact ⟨.byte (by simpa using hx), hb⟩
  split at h
  · rename_i hp
    have he : p = BitVec.ofNat 8 p.toNat := by simp
    have hsz := hs.sizes p.toNat hp.1 hp.2
    rw [← he] at hsz
    obtain ⟨x, rfl, hx, hb⟩ := uint p.toNat hp.1 hp.2 hsz h
    refine ⟨?_, hb⟩
    rw [he]
    exact .uint hp.1 hp.2 hx
  have fin : ∀ n, n = 1 ∨ n = 2 ∨ n = 4 ∨ n = 8 → p = BitVec.ofNat 8 (0x40 + n) →
      readInt n bs = .ok (v, rest) →
      Inhabits E false R v (.primitive p) ∧ Back D (writePrim E p v) bs rest := by
    intro n hn hp h
    have hsz := hs.sizesI n hn
    rw [← hp] at hsz
    obtain ⟨x, rfl, h1, h2, hb⟩ := int n hn hsz h
    refine ⟨?_, hb⟩
    rw [hp]
    exact .int (by omega) (by omega) h1 h2
  split at h
  · exact fin 1 (by omega) (by assumption) h
  split at h
  · exact fin 2 (by omega) (by assumption) h
  split at h
  · exact fin 4 (by omega) (by assumption) h
  split at h
  · exact fin 8 (by omega) (by assumption) h
  · cases h

theorem ascii_mem {s : Bytes} (h : isAscii s = true) : ∀ b ∈ s, b.toNat < 128 := by
  simpa [isAscii] using h

theorem readSeq_ok {id : SemId} {w : Nat} {bs rest : Bytes} {l : List Val}
    (h : readSeq rd E id w bs = .ok (l, rest)) : ∃ n r, bs = le w n ++ r ∧ n < 256 ^ w ∧
      InMemory E.valSize n ∧ readItems rd id n r = .ok (l, rest) := by
  obtain ⟨⟨n, r⟩, h1, h2⟩ := Out.bind_eq_ok.mp h
  obtain ⟨⟨⟩, h3, h4⟩ := Out.bind_eq_ok.mp h2
  obtain ⟨rfl, hn⟩ := readLe_ok h1
  refine ⟨n, r, rfl, hn, ?_, h4⟩
  unfold withCapacity at h3
  split at h3
  · assumption
  · cases h3

theorem readMapSeq_ok {kid id : SemId} {w : Nat} {bs rest : Bytes} {l : List (Val × Val)}
    (h : readMapSeq rd E kid id w bs = .ok (l, rest)) : ∃ n r, bs = le w n ++ r ∧ n < 256 ^ w ∧
      InMemory (2 * E.valSize) n ∧ readPairs rd kid id n r = .ok (l, rest) := by
  obtain ⟨⟨n, r⟩, h1, h2⟩ := Out.bind_eq_ok.mp h
  obtain ⟨⟨⟩, h3, h4⟩ := Out.bind_eq_ok.mp h2
  obtain ⟨rfl, hn⟩ := readLe_ok h1
  refine ⟨n, r, rfl, hn, ?_, h4⟩
  unfold withCapacity at h3
  split at h3
  · assumption
  · cases h3

theorem back_ty (hs : E.Sane) (hrd : ∀ id bs v rest, rd id bs = .ok (v, rest) → R v id ∧ Back (G v id) (wr v id) bs rest)
    {spec : SemId} {t : Ty SemId} (ht : E.find spec = some t) {bs rest : Bytes} {v : Val}
    (h : readTy rd E spec t bs = .ok (v, rest)) :
    ((∀ l i sz, v = .list l → t = .list i sz → i.isByte E.H = false ∧ i.isUnicodeChar E.H = false) →
        Inhabits E false R v t) ∧
      Back (¬ Overread E v spec ∧ ∀ w i, Part E v spec w i → G w i) (writeTy wr E v t) bs rest := by
  cases t with
  | primitive p => exact ⟨fun _ => (back_prim (D := True) hs h).1, (back_prim (R := R) hs h).2⟩
  | unicodeChar => cases h
  | enum vs =>
    have hwf : VariantsWF vs := hs.wf _ _ ht
    obtain ⟨⟨x, r⟩, h1, h2⟩ := Out.bind_eq_ok.mp h
    obtain ⟨rfl, hx⟩ := readLe_ok h1
    dsimp only at h2
    split at h2
    · cases h2
    · rename_i n hn
      cases h2
      have hm := (enumNameByTag_iff hwf _ _).mp hn
      refine ⟨fun _ => .enum hm, le 1 x, rfl, fun _ => ?_⟩
      simp [writeTy, writeEnum, (enumTagByName_iff hwf _ _).mpr hm, le]
  | union vs =>
    have hwf : VariantsWF (vs.map Prod.fst) := hs.wf _ _ ht
    obtain ⟨⟨x, r⟩, h1, h2⟩ := Out.bind_eq_ok.mp h
    obtain ⟨rfl, hx⟩ := readLe_ok h1
    dsimp only at h2
    split at h2
    · cases h2
    · rename_i p hp
      obtain ⟨⟨w, r'⟩, h3, h4⟩ := Out.bind_eq_ok.mp h2
      cases h4
      obtain ⟨hw, c, hc, hcw⟩ := hrd _ _ _ _ h3
      subst hc
      obtain ⟨hm, htag⟩ := (unionByTag_iff hwf p _).mp hp
      have hn : Ty.unionByName vs p.1.name = some p := (unionByName_iff hwf p _).mpr ⟨hm, rfl⟩
      refine ⟨fun _ => .union (t := p.1.tag) hm hw, le 1 x ++ c, by simp, fun hd => ?_⟩
      simp [writeTy, writeUnion, hn, hcw (hd.2 _ _ (.byName (t := p.1.tag) ht hm)), le, htag]
  | tuple ids =>
    replace h : readTupleTy rd E ids bs = .ok (v, rest) := h
    unfold readTupleTy at h
    obtain ⟨b, h1, h2⟩ := Out.bind_eq_ok.mp h
    have h1' : E.isRString ids = .ok b := by
      unfold ofUnknown Out.mapErr at h1
      split at h1 <;> simp_all
    cases b with
    | true =>
      obtain ⟨A, C, sz, hr, c, hsz⟩ := rstring_of_isRString h1'
      rw [if_pos rfl] at h2
      simp only [hsz, ofUnknown, Out.mapErr, Out.bind_ok] at h2
      obtain ⟨s, rfl, rfl, hl, ha⟩ := readAscii_ok h2
      have hle : (sz.max + 1).toNat ≤ sz.max.toNat + 1 := by
        have h1 : (1 : BitVec 64).toNat = 1 := rfl
        rw [BitVec.toNat_add, h1]
        exact Nat.mod_le _ _
      have hl' : s.length < 256 ^ prefixWidth (sz.max.toNat + 1) := by
        rw [byteSize_eq] at hl
        exact Nat.lt_of_lt_of_le hl (Nat.pow_le_pow_right (by decide) (prefixWidth_mono hle))
      refine ⟨fun _ => ?_, _, rfl, fun hd => ?_⟩
      · cases s with
        | nil => exact .rstringEmpty hr rfl
        | cons x s =>
          have := ascii_mem ha
          exact .rstring hr (by simpa [CharOk] using this x (by simp))
            (fun b hb => by simpa [CharOk] using this b (by simp [hb])) (by simpa [SizeOk] using hl')
      · show writeTuple wr E ids (.str s) = _
        simp only [writeTuple, ha, h1', hsz, if_true]
        have : (Out.debugAssert E.debug (decide (s.length ≤ (sz.max + 1).toNat)) : Out EErr Unit) =
            .ok () := by
          cases hdbg : E.debug with
          | false => simp [Out.debugAssert]
          | true =>
              apply debugAssert_true
              have hb : s.length ≤ sz.max.toNat + 1 := by
                apply Classical.byContradiction
                intro hne
                exact hd.1 (.longRString hdbg ht hr (by omega))
              have hmax : sz.max.toNat < 2 ^ 64 - 1 := by
                obtain ⟨a, b, c, rfl, -, -, hbb, -, -⟩ := hr
                apply Classical.byContradiction
                intro hge
                have he : sz.max = -1 := by
                  apply BitVec.eq_of_toNat_eq
                  have e : (-1 : BitVec 64).toNat = 2 ^ 64 - 1 := rfl
                  have := sz.max.isLt
                  rw [e]; omega
                simp [Env.rstringSizing, hbb, hdbg, he] at hsz
              rw [succ_toNat hmax]
              simpa using hb
        rw [this]
        rfl
    | false =>
      rw [if_neg (by decide)] at h2
      obtain ⟨⟨l, r⟩, h3, h4⟩ := Out.bind_eq_ok.mp h2
      cases h4
      obtain ⟨ha, c, hc, hw⟩ := back_tuple hrd h3
      refine ⟨fun _ => .tuple (fun A C sz hr => isRString_ne_false hr h1') ha, c, hc, fun hd => ?_⟩
      replace hw := hw (all2_of_get ha fun k a b h1 h2 _ => hd.2 _ _ (.tupleField ht h1 h2))
      show writeTuple wr E ids (.tuple l) = _
      have : (l.length == ids.length) = true := by simpa using all2_length ha
      simp only [writeTuple, debugAssert_true this, Out.bind_ok, hw]
  | struct req =>
    obtain ⟨⟨fs, r⟩, h1, h2⟩ := Out.bind_eq_ok.mp h
    cases h2
    have hn : (req.map Prod.fst).Nodup := hs.fields _ _ ht
    obtain ⟨new, hnew, ha, c, hc, hw⟩ := back_fields hrd (acc := []) (by simpa using hn) h1
    simp only [List.nil_append] at hnew
    subst hnew
    refine ⟨fun _ => .struct ha, c, hc, fun hd => ?_⟩
    replace hw := hw (all2_of_get ha fun k a b h1 h2 h3 => ⟨h3.1, hd.2 _ _ (.structField (n := b.1) ht
      (h3.1 ▸ List.mem_of_getElem? h1) (List.mem_of_getElem? h2))⟩)
    show writeStruct wr E req (.struct fs) = _
    have : (fs.length == req.length) = true := by simpa using all2_length ha
    simp only [writeStruct, debugAssert_true this, Out.bind_ok, hw]
  | array id len =>
    simp only [readTy] at h
    split at h
    · rename_i hid
      obtain ⟨⟨b, r⟩, h1, h2⟩ := Out.bind_eq_ok.mp h
      cases h2
      obtain ⟨rfl, hl⟩ := readRaw_ok h1
      refine ⟨fun _ => .byteArray hid hl, b, rfl, fun hd => ?_⟩
      simp [writeTy, writeArray, hl, Out.debugAssert]
    · rename_i hid
      obtain ⟨⟨l, r⟩, h1, h2⟩ := Out.bind_eq_ok.mp h
      cases h2
      obtain ⟨hl, ha, c, hc, hw⟩ := back_items hrd h1
      refine ⟨fun _ => .array (by simpa using hid) hl ha, c, hc, fun hd => ?_⟩
      exact absurd (.array ht) hd.1
  | list id sz =>
    simp only [readTy, readList] at h
    split at h
    · cases h
    · rename_i u hu
      split at h
      · rename_i hce
        obtain ⟨C, rfl, hC⟩ := (isCharEnum_iff u).mp hce
        obtain ⟨s, rfl, rfl, hl, ha⟩ := readAscii_ok h
        refine ⟨fun _ => .asciiList ⟨hu, hC⟩ (fun b hb => ?_) ?_, _, rfl, fun _ => rfl⟩
        · simpa [CharOk] using ascii_mem ha b hb
        · rw [byteSize_eq] at hl
          simpa [SizeOk] using hl
      · rename_i hce
        split at h
        · rename_i hb
          obtain ⟨s, rfl, rfl, hl⟩ := readBlob_ok h
          refine ⟨fun _ => .byteList hb.1 ?_, _, rfl, fun _ => rfl⟩
          rw [byteSize_eq] at hl
          simpa [SizeOk] using hl
        · rename_i hb
          split at h
          · rename_i huc
            obtain ⟨s, rfl, rfl, hl, hv⟩ := readString_ok h
            have hnb : id.isByte E.H = false := by
              cases hx : id.isByte E.H with
              | false => rfl
              | true =>
                have h1 := hs.unicode _ _ huc.1 hu
                rcases hs.byte _ _ hx hu with h2 | h2 <;> rw [h1] at h2 <;> cases h2
            refine ⟨fun _ => .unicodeList hnb huc.1 ((utf8Valid_iff s).1 hv) ?_, _, rfl, fun _ => rfl⟩
            rw [byteSize_eq] at hl
            simpa [SizeOk] using hl
          · rename_i huc
            obtain ⟨⟨l, r⟩, h1, h2⟩ := Out.bind_eq_ok.mp h
            cases h2
            obtain ⟨n, r, rfl, hn, hmem, h3⟩ := readSeq_ok h1
            obtain ⟨rfl, ha, c, hc, hw⟩ := back_items hrd h3
            subst hc
            refine ⟨fun hsm => .list (hsm _ _ _ rfl rfl).1 (hsm _ _ _ rfl rfl).2 (fun C hC => ?_) hmem ?_ ha, le sz.byteSize l.length ++ c,
              by simp, fun hd => ?_⟩
            · rw [hC.1] at hu
              cases hu
              exact hce ((isCharEnum_iff _).mpr ⟨C, rfl, hC.2⟩)
            · rw [byteSize_eq] at hn
              simpa [SizeOk] using hn
            · simp [writeTy, writeList, hw fun v hv => hd.2 _ _ (.listItem ht hv)]
  | set id sz =>
    obtain ⟨⟨l, r⟩, h1, h2⟩ := Out.bind_eq_ok.mp h
    cases h2
    obtain ⟨n, r, rfl, hn, hmem, h3⟩ := readSeq_ok h1
    obtain ⟨rfl, ha, c, hc, hw⟩ := back_items hrd h3
    subst hc
    refine ⟨fun _ => .set hmem ?_ ha (fun h => by cases h), le sz.byteSize l.length ++ c, by simp,
      fun hd => ?_⟩
    · rw [byteSize_eq] at hn
      simpa [SizeOk] using hn
    · simp [writeTy, writeSet, hw fun v hv => hd.2 _ _ (.setItem ht hv)]
  | map kid id sz =>
    obtain ⟨⟨l, r⟩, h1, h2⟩ := Out.bind_eq_ok.mp h
    cases h2
    obtain ⟨n, r, rfl, hn, hmem, h3⟩ := readMapSeq_ok h1
    obtain ⟨rfl, ha, c, hc, hw⟩ := back_pairs hrd h3
    subst hc
    refine ⟨fun _ => .map hmem ?_ ha (fun h => by cases h), le sz.byteSize l.length ++ c, by simp,
      fun hd => ?_⟩
    · rw [byteSize_eq] at hn
      simpa [SizeOk] using hn
    · simp [writeTy, writeMap, hw fun p hp => ⟨hd.2 _ _ (.mapKey ht hp), hd.2 _ _ (.mapValue ht hp)⟩]

/-- Writing what is read. -/
theorem read_back (hs : E.Sane) {n : Nat} {id : SemId} {bs rest : Bytes} {v : Val} (h : read E n id bs = .ok (v, rest)) :
    Back (∀ w i, Sub E v id w i → ¬ Overread E w i) (write E n v id) bs rest := by
  induction n generalizing id bs rest v with
  | zero => cases h
  | succ n ih =>
    simp only [read] at h
    split at h
    · cases h
    · rename_i t ht
      obtain ⟨-, c, h2, h3⟩ := back_ty (wr := write E n) (R := fun _ _ => True)
        (G := fun v id => ∀ w i, Sub E v id w i → ¬ Overread E w i) hs (fun id bs v rest hr => ⟨trivial, ih hr⟩) ht h
      refine ⟨c, h2, fun hd => ?_⟩
      simp only [write, hs.typeOf ht]
      exact h3 ⟨hd _ _ (.refl _ _), fun w i hp u j hu => hd u j (.step hp hu)⟩

/-- Byte and unicode strings are read item by item only if they are declared for 4 GiB or more. -/
theorem read_items {n : Nat} {id i : SemId} {sz : Sizing} {bs rest : Bytes} {l : List Val}
    (ht : E.find id = some (.list i sz)) (h : read E n id bs = .ok (.list l, rest))
    (hi : i.isByte E.H = true ∨ i.isUnicodeChar E.H = true) : 2 ^ 32 ≤ sz.max.toNat := by
  cases n with
  | zero => cases h
  | succ n =>
    simp only [read, ht, readTy, readList] at h
    split at h
    · cases h
    · split at h
      · obtain ⟨s, hs, -⟩ := readAscii_ok h
        cases hs
      · split at h
        · obtain ⟨s, hs, -⟩ := readBlob_ok h
          cases hs
        · rename_i hb
          split at h
          · obtain ⟨s, hs, -⟩ := readString_ok h
            cases hs
          · rename_i hu
            rcases hi with hi | hi <;> simp only [hi, true_and] at hb hu <;> omega

/-- Typing of what is read. -/
theorem read_typed (hs : E.Sane) (hsm : E.SmallStrings) {n : Nat} {id : SemId} {bs rest : Bytes} {v : Val}
    (h : read E n id bs = .ok (v, rest)) : HasTyN E false n v id := by
  induction n generalizing id bs rest v with
  | zero => cases h
  | succ n ih =>
    have h0 := h
    simp only [read] at h
    split at h
    · cases h
    · rename_i t ht
      refine ⟨t, ht, (back_ty (wr := write E n) (R := HasTyN E false n) hs
        (fun id bs v rest hr => ⟨ih hr, read_back hs hr⟩) ht h).1 fun l i sz hv hl => ?_⟩
      subst hv hl
      have := fun hi => read_items ht h0 hi
      have := hsm _ _ _ ht
      cases h1 : i.isByte E.H <;> cases h2 : i.isUnicodeChar E.H <;> simp_all <;> omega

end Verif
