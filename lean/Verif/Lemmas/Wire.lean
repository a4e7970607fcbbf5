import Verif.Spec.Wire
import Verif.Lemmas.Notation
import Verif.Lemmas.Canon
import Verif.Lemmas.RoundTripExact

/-! # The strict encoding -/

namespace Verif

variable {E : Env}

theorem number_iff {bs : Bytes} {n : Nat} : Number bs n ↔ fromLe bs = n := by
  constructor
  · intro h
    induction h with
    | nil => rfl
    | cons _ ih => simp [fromLe, ih]
  · rintro rfl
    induction bs with
    | nil => exact .nil
    | cons b bs ih => exact .cons ih

theorem number_le {k n : Nat} (h : n < 256 ^ k) : Number (le k n) n := number_iff.mpr (fromLe_le_of_lt h)

theorem tally_le {sz : Sizing} {n : Nat} (h : n < 256 ^ sz.byteSize) : Tally sz.max.toNat n (le sz.byteSize n) :=
  ⟨by simp [byteSize_eq], number_le h⟩

theorem tally_unique {m n : Nat} {a b : Bytes} (ha : Tally m n a) (hb : Tally m n b) : a = b :=
  fromLe_inj (ha.1.trans hb.1.symm) ((number_iff.mp ha.2).trans (number_iff.mp hb.2).symm)

theorem toInt_emod {w k : Nat} (x : BitVec w) (hk : 8 * k ≤ w) : ((x.toNat % 256 ^ k : Nat) : Int) = x.toInt % 256 ^ k := by
  rw [BitVec.toInt_eq_toNat_bmod]
  have hd : ((256 ^ k : Nat) : Int) ∣ ((2 ^ w : Nat) : Int) := by
    refine Int.natCast_dvd_natCast.mpr ?_
    have : 256 ^ k = 2 ^ (8 * k) := by rw [Nat.pow_mul]
    rw [this]
    exact Nat.pow_dvd_pow 2 hk
  have h1 : (Int.bmod (x.toNat : Int) (2 ^ w)) % ((256 ^ k : Nat) : Int) = (x.toNat : Int) % ((256 ^ k : Nat) : Int) := by
    have := Int.bmod_def (x.toNat : Int) (2 ^ w)
    rw [this]
    split
    · exact Int.emod_emod_of_dvd _ hd
    · rw [Int.sub_emod, Int.emod_emod_of_dvd _ hd, Int.emod_eq_zero_of_dvd hd]
      simp
  have h2 : (256 : Int) ^ k = ((256 ^ k : Nat) : Int) := by simp
  rw [h2, h1]
  simp

/-! ## What is written -/

section
variable {wr : Val → SemId → Out EErr Bytes} {R : Val → SemId → Bytes → Prop} {T : Val → SemId → Prop}
  (hw : ∀ v i bs, wr v i = .ok bs → T v i → R v i bs)
include hw

theorem coded_zip : ∀ {l : List Val} {ids : List SemId} {bs : Bytes}, writeZip wr l ids = .ok bs → All2 T l ids →
    ∃ bss, bs = bss.flatten ∧ All3 R l ids bss
  | [], [], bs, h, _ => by cases h; exact ⟨[], rfl, trivial⟩
  | v :: l, i :: ids, bs, h, ha => by
    obtain ⟨a, h1, h2⟩ := Out.bind_eq_ok.mp h
    obtain ⟨b, h3, h4⟩ := Out.bind_eq_ok.mp h2
    cases h4
    obtain ⟨bss, rfl, h5⟩ := coded_zip h3 ha.2
    exact ⟨a :: bss, rfl, hw _ _ _ h1 ha.1, h5⟩
  | [], _ :: _, _, _, h => h.elim
  | _ :: _, [], _, _, h => h.elim

theorem coded_items {i : SemId} : ∀ {l : List Val} {bs : Bytes}, writeItems wr i l = .ok bs → (∀ v ∈ l, T v i) →
    ∃ bss, bs = bss.flatten ∧ All2 (fun v bs => R v i bs) l bss
  | [], bs, h, _ => by cases h; exact ⟨[], rfl, trivial⟩
  | v :: l, bs, h, ha => by
    obtain ⟨a, h1, h2⟩ := Out.bind_eq_ok.mp h
    obtain ⟨b, h3, h4⟩ := Out.bind_eq_ok.mp h2
    cases h4
    obtain ⟨bss, rfl, h5⟩ := coded_items h3 fun w hm => ha w (List.mem_cons_of_mem _ hm)
    exact ⟨a :: bss, rfl, hw _ _ _ h1 (ha v (by simp)), h5⟩

theorem coded_pairs {k i : SemId} : ∀ {l : List (Val × Val)} {bs : Bytes}, writePairs wr k i l = .ok bs →
    (∀ p ∈ l, T p.1 k ∧ T p.2 i) →
    ∃ bss : List (Bytes × Bytes), bs = (bss.map fun b => b.1 ++ b.2).flatten ∧
      All2 (fun v bs => R v.1 k bs.1 ∧ R v.2 i bs.2) l bss
  | [], bs, h, _ => by cases h; exact ⟨[], rfl, trivial⟩
  | (u, v) :: l, bs, h, ha => by
    obtain ⟨a, h1, h2⟩ := Out.bind_eq_ok.mp h
    obtain ⟨b, h3, h4⟩ := Out.bind_eq_ok.mp h2
    obtain ⟨c, h5, h6⟩ := Out.bind_eq_ok.mp h4
    cases h6
    obtain ⟨bss, rfl, h7⟩ := coded_pairs h5 fun w hm => ha w (List.mem_cons_of_mem _ hm)
    have := ha (u, v) (by simp)
    exact ⟨(a, b) :: bss, by simp, ⟨hw _ _ _ h1 this.1, hw _ _ _ h3 this.2⟩, h7⟩

theorem coded_fields {vals : List (Name × Val)} (hn : (vals.map Prod.fst).Nodup) :
    ∀ {fs : List (Name × Val)} {req : List (Name × SemId)} {bs : Bytes},
    writeFields wr vals req = .ok bs → All2 (fun f r => f.1 = r.1 ∧ T f.2 r.2) fs req → (∀ f ∈ fs, f ∈ vals) →
    ∃ bss, bs = bss.flatten ∧ All3 (fun f r bs => f.1 = r.1 ∧ R f.2 r.2 bs) fs req bss
  | [], [], bs, h, _, _ => by cases h; exact ⟨[], rfl, trivial⟩
  | (m, v) :: fs, (n, i) :: req, bs, h, ha, hm => by
    obtain ⟨⟨he, ht⟩, ha⟩ := ha
    dsimp only at he ht
    subst he
    have hg : imGet vals m = some v := imGet_mem hn (hm _ List.mem_cons_self)
    simp only [writeFields, hg] at h
    obtain ⟨a, h1, h2⟩ := Out.bind_eq_ok.mp h
    obtain ⟨b, h3, h4⟩ := Out.bind_eq_ok.mp h2
    cases h4
    obtain ⟨bss, rfl, h5⟩ := coded_fields hn h3 ha fun f hf => hm f (List.mem_cons_of_mem _ hf)
    exact ⟨a :: bss, rfl, ⟨rfl, hw _ _ _ h1 ht⟩, h5⟩
  | [], _ :: _, _, _, h, _ => h.elim
  | _ :: _, [], _, _, h, _ => h.elim

end


theorem leSlice_ok {w k n : Nat} {bs : Bytes} (h : leSlice w k n = .ok bs) : k ≤ w ∧ bs = le k n := by
  unfold leSlice at h
  split at h
  · rename_i hk; cases h; exact ⟨hk, rfl⟩
  · cases h

theorem sized_lt {strict : Bool} {sz : Sizing} {mn n : Nat} (h : SizeOk strict mn sz.max.toNat n) :
    n < 256 ^ sz.byteSize := by
  rw [byteSize_eq]
  exact sizeOk_lt (by have := sz.max.isLt; omega) h

theorem written_prim {R : Val → SemId → Bytes → Prop} {T : Val → SemId → Prop} {strict : Bool} (hs : E.Sane) {p : Byte} {v : Val}
    {bs : Bytes} (h : writePrim E p v = .ok bs) (hi : Inhabits E strict T v (.primitive p)) : Coded E R v (.primitive p) bs := by
  generalize ht : (Ty.primitive p : Ty SemId) = t at hi
  cases hi with
  | unit =>
    cases ht
    simp only [writePrim] at h
    obtain ⟨_, _, h2⟩ := Out.bind_eq_ok.mp h
    cases h2
    exact .unit
  | @uint n x h1 h8 hx =>
    cases ht
    obtain ⟨_, rfl⟩ := leSlice_ok h
    exact .uint (le_length _ _) (number_le (by rw [hs.sizes n h1 h8]; exact hx))
  | @byte x hx =>
    cases ht
    obtain ⟨_, rfl⟩ := leSlice_ok h
    exact .uint (le_length _ _) (number_le (by rw [hs.sizeB]; simpa using hx))
  | @int n x h1 h8 _ _ =>
    cases ht
    obtain ⟨hk, rfl⟩ := leSlice_ok h
    exact .int (by simp) (number_iff.mpr (fromLe_le _ _)) (toInt_emod x (by omega))
  | bigUint h1 h2 hx =>
    cases ht
    obtain ⟨hk, rfl⟩ := leSlice_ok h
    exact .bigUint (by simp) (number_le hx)
  | bigInt h1 h2 _ _ =>
    cases ht
    obtain ⟨hk, rfl⟩ := leSlice_ok h
    exact .bigInt (by simp) (number_iff.mpr (fromLe_le _ _)) (toInt_emod _ (by omega))
  | _ => cases ht

theorem written_coded {wr : Val → SemId → Out EErr Bytes} {R : Val → SemId → Bytes → Prop} {T : Val → SemId → Prop}
    (hs : E.Sane) (hb : E.BoundedTails) {strict : Bool}
    (hw : ∀ v i bs, wr v i = .ok bs → T v i → R v i bs) {id : SemId} {t : Ty SemId} (hf : E.find id = some t) {v : Val}
    {bs : Bytes} (h : writeTy wr E v t = .ok bs) (hi : Inhabits E strict T v t) : Coded E R v t bs := by
  have hwf := hs.wf _ _ hf
  have hrs : ∀ {ids : List SemId} {A C : List Variant} {sz : Sizing} {s : Bytes}, t = .tuple ids → v = .str s →
      E.RString ids A C sz → s.length < 256 ^ prefixWidth (sz.max.toNat + 1) → Coded E R v t bs := by
    rintro ids A C sz s rfl rfl hr hl
    have hm := hb _ _ _ _ _ hf hr
    simp only [writeTy, writeTuple] at h
    split at h
    · split at h
      · rename_i hR
        obtain ⟨A', C', sz', hr', c, hc⟩ := rstring_of_isRString hR
        have hsz : sz' = sz := by
          obtain ⟨a, b, c, he, -, -, h1, -⟩ := hr
          obtain ⟨a', b', c', he', -, -, h2, -⟩ := hr'
          rw [he] at he'
          cases he'
          rw [h1] at h2
          cases h2
          rfl
        subst hsz
        simp only [hc] at h
        obtain ⟨_, _, h2⟩ := Out.bind_eq_ok.mp h
        cases h2
        refine .rstring hr ⟨?_, number_le ?_⟩
        · simp only [le_length, byteSize_eq, succ_toNat hm]
        · rw [byteSize_eq]
          simpa only [succ_toNat hm] using hl
      · cases h
      · cases h
      · cases h
    · cases h
  cases hi with
  | unit => exact written_prim (R := R) (T := T) (strict := strict) hs h .unit
  | uint h1 h8 hx => exact written_prim (R := R) (T := T) (strict := strict) hs h (.uint h1 h8 hx)
  | byte hx => exact written_prim (R := R) (T := T) (strict := strict) hs h (.byte hx)
  | int h1 h8 ha hb => exact written_prim (R := R) (T := T) (strict := strict) hs h (.int h1 h8 ha hb)
  | bigUint h1 h2 h3 => exact written_prim (R := R) (T := T) (strict := strict) hs h (.bigUint h1 h2 h3)
  | bigInt h1 h2 h3 h4 => exact written_prim (R := R) (T := T) (strict := strict) hs h (.bigInt h1 h2 h3 h4)
  | unicodeChar =>
    obtain ⟨_, _, h2⟩ := Out.bind_eq_ok.mp h
    cases h2
    exact .char
  | @enum vs n tg hm =>
    have hwf : VariantsWF vs := hwf
    simp only [writeTy, writeEnum, (enumTagByName_iff hwf n tg).mpr hm] at h
    cases h
    exact .enum hm
  | @union vs n tg i w hm hr =>
    have hwf : VariantsWF (vs.map Prod.fst) := hwf
    have hn : Ty.unionByName vs n = some (⟨n, tg⟩, i) := (unionByName_iff hwf (⟨n, tg⟩, i) n).mpr ⟨hm, rfl⟩
    simp only [writeTy, writeUnion, hn] at h
    obtain ⟨a, h1, h2⟩ := Out.bind_eq_ok.mp h
    cases h1
    obtain ⟨a, h1, h3⟩ := Out.bind_eq_ok.mp h2
    cases h3
    exact .union hm (hw _ _ _ h1 hr)
  | @tuple l ids hn ha =>
    simp only [writeTy, writeTuple] at h
    obtain ⟨_, _, h2⟩ := Out.bind_eq_ok.mp h
    obtain ⟨bss, rfl, h3⟩ := coded_zip hw h2 ha
    exact .tuple h3
  | @rstring A C sz ids c s hr hc hss hsz => exact hrs rfl rfl hr (sizeOk_lt (by have := hb _ _ _ _ _ hf hr; omega) hsz)
  | @rstringEmpty A C sz ids hr hst => exact hrs rfl rfl hr (Nat.pow_pos (by decide))
  | @struct fs req ha =>
    have hn : (fs.map Prod.fst).Nodup := by
      rw [typed_fields_names ha]
      exact hs.fields _ _ hf
    simp only [writeTy, writeStruct] at h
    obtain ⟨_, _, h2⟩ := Out.bind_eq_ok.mp h
    obtain ⟨bss, rfl, h3⟩ := coded_fields hw hn h2 ha fun _ h => h
    exact .struct h3
  | byteArray hid hl =>
    simp only [writeTy, writeArray] at h
    obtain ⟨_, _, h2⟩ := Out.bind_eq_ok.mp h
    cases h2
    exact .byteArray
  | array => cases h
  | asciiList hc hss hsz => cases h; exact .text (tally_le (sized_lt hsz))
  | byteList hid hsz => cases h; exact .bytes (tally_le (sized_lt hsz))
  | unicodeList hnb hid hv hsz => cases h; exact .text (tally_le (sized_lt hsz))
  | list _ _ _ _ hsz hall =>
    obtain ⟨a, h1, h2⟩ := Out.bind_eq_ok.mp h
    cases h2
    obtain ⟨bss, rfl, h3⟩ := coded_items hw h1 hall
    exact .list (tally_le (sized_lt hsz)) h3
  | set _ hsz hall _ =>
    obtain ⟨a, h1, h2⟩ := Out.bind_eq_ok.mp h
    cases h2
    obtain ⟨bss, rfl, h3⟩ := coded_items hw h1 hall
    exact .set (tally_le (sized_lt hsz)) h3
  | map _ hsz hall _ =>
    obtain ⟨a, h1, h2⟩ := Out.bind_eq_ok.mp h
    cases h2
    obtain ⟨bss, rfl, h3⟩ := coded_pairs hw h1 hall
    exact .map (tally_le (sized_lt hsz)) h3

theorem written_wire (hs : E.Sane) (hb : E.BoundedTails) {strict : Bool} : ∀ {n m : Nat} {v : Val} {id : SemId} {bs : Bytes},
    write E n v id = .ok bs → HasTyN E strict m v id → WireN E n v id bs
  | 0, _, _, _, _, h, _ => by cases h
  | _ + 1, 0, _, _, _, _, ht => ht.elim
  | n + 1, m + 1, v, id, bs, h, ht => by
    obtain ⟨t, hf, hi⟩ := ht
    simp only [write, hs.typeOf hf] at h
    exact ⟨t, hf, written_coded (R := WireN E n) hs hb (fun v i bs h ht => written_wire hs hb h ht) hf h hi⟩


/-! ## What is read -/

section
variable {rd : SemId → Bytes → Out DErr (RdPair Val)} {R : Val → SemId → Bytes → Prop}
  (hr : ∀ i bs v rest, rd i bs = .ok (v, rest) → ∃ c, bs = c ++ rest ∧ R v i c)
include hr

theorem read_coded_items {i : SemId} : ∀ {n : Nat} {bs rest : Bytes} {l : List Val}, readItems rd i n bs = .ok (l, rest) →
    l.length = n ∧ ∃ bss, bs = bss.flatten ++ rest ∧ All2 (fun v bs => R v i bs) l bss
  | 0, bs, rest, l, h => by cases h; exact ⟨rfl, [], rfl, trivial⟩
  | n + 1, bs, rest, l, h => by
    obtain ⟨⟨v, r⟩, h1, h2⟩ := Out.bind_eq_ok.mp h
    obtain ⟨⟨vs, r'⟩, h3, h4⟩ := Out.bind_eq_ok.mp h2
    cases h4
    obtain ⟨c, rfl, hc⟩ := hr _ _ _ _ h1
    obtain ⟨hl, bss, rfl, hb⟩ := read_coded_items h3
    exact ⟨by simp [hl], c :: bss, by simp, hc, hb⟩

theorem read_coded_pairs {k i : SemId} : ∀ {n : Nat} {bs rest : Bytes} {l : List (Val × Val)},
    readPairs rd k i n bs = .ok (l, rest) →
    l.length = n ∧ ∃ bss : List (Bytes × Bytes), bs = (bss.map fun b => b.1 ++ b.2).flatten ++ rest ∧
      All2 (fun v bs => R v.1 k bs.1 ∧ R v.2 i bs.2) l bss
  | 0, bs, rest, l, h => by cases h; exact ⟨rfl, [], rfl, trivial⟩
  | n + 1, bs, rest, l, h => by
    obtain ⟨⟨u, r⟩, h1, h2⟩ := Out.bind_eq_ok.mp h
    obtain ⟨⟨v, r'⟩, h3, h4⟩ := Out.bind_eq_ok.mp h2
    obtain ⟨⟨vs, r''⟩, h5, h6⟩ := Out.bind_eq_ok.mp h4
    cases h6
    obtain ⟨c, rfl, hc⟩ := hr _ _ _ _ h1
    obtain ⟨d, rfl, hd⟩ := hr _ _ _ _ h3
    obtain ⟨hl, bss, rfl, hb⟩ := read_coded_pairs h5
    exact ⟨by simp [hl], (c, d) :: bss, by simp, ⟨hc, hd⟩, hb⟩

theorem read_coded_tuple : ∀ {ids : List SemId} {bs rest : Bytes} {l : List Val}, readTuple rd ids bs = .ok (l, rest) →
    ∃ bss, bs = bss.flatten ++ rest ∧ All3 R l ids bss
  | [], bs, rest, l, h => by cases h; exact ⟨[], rfl, trivial⟩
  | i :: ids, bs, rest, l, h => by
    obtain ⟨⟨v, r⟩, h1, h2⟩ := Out.bind_eq_ok.mp h
    obtain ⟨⟨vs, r'⟩, h3, h4⟩ := Out.bind_eq_ok.mp h2
    cases h4
    obtain ⟨c, rfl, hc⟩ := hr _ _ _ _ h1
    obtain ⟨bss, rfl, hb⟩ := read_coded_tuple h3
    exact ⟨c :: bss, by simp, hc, hb⟩

theorem read_coded_fields : ∀ {req : List (Name × SemId)} {acc fs : List (Name × Val)} {bs rest : Bytes},
    (acc.map Prod.fst ++ req.map Prod.fst).Nodup → readFields rd req acc bs = .ok (fs, rest) →
    ∃ new bss, fs = acc ++ new ∧ bs = bss.flatten ++ rest ∧ All3 (fun f r bs => f.1 = r.1 ∧ R f.2 r.2 bs) new req bss
  | [], acc, fs, bs, rest, _, h => by cases h; exact ⟨[], [], by simp, rfl, trivial⟩
  | (n, i) :: req, acc, fs, bs, rest, hn, h => by
    obtain ⟨⟨v, r⟩, h1, h2⟩ := Out.bind_eq_ok.mp h
    have hni : n ∉ acc.map Prod.fst := fun hm => (List.nodup_append.mp hn).2.2 n hm n (by simp) rfl
    dsimp only at h2
    rw [imInsert_append hni] at h2
    obtain ⟨c, rfl, hc⟩ := hr _ _ _ _ h1
    obtain ⟨new, bss, rfl, rfl, hb⟩ := read_coded_fields (acc := acc ++ [(n, v)]) (by simpa using hn) h2
    exact ⟨(n, v) :: new, c :: bss, by simp, by simp, ⟨rfl, hc⟩, hb⟩

theorem read_coded (hs : E.Sane) (hb : E.BoundedTails) {id spec : SemId} {t : Ty SemId} (hf : E.find id = some t) {v : Val}
    {bs rest : Bytes} (h : readTy rd E spec t bs = .ok (v, rest)) : ∃ c, bs = c ++ rest ∧ Coded E R v t c := by
  have uint : ∀ {p : Byte} {n : Nat}, E.primSize p = n → n ≤ 8 → readUint n bs = .ok (v, rest) →
      ∃ c, bs = c ++ rest ∧ Coded E R v (.primitive p) c := by
    intro p n hp hn h
    obtain ⟨⟨x, r⟩, h1, h2⟩ := Out.bind_eq_ok.mp h
    cases h2
    obtain ⟨rfl, hx⟩ := readLe_ok h1
    refine ⟨_, rfl, .uint (by simp [hp]) ?_⟩
    have : x < 2 ^ 64 := Nat.lt_of_lt_of_le hx (Nat.le_trans (Nat.pow_le_pow_right (by decide) hn) (by decide))
    simp only [BitVec.toNat_ofNat, Nat.mod_eq_of_lt this]
    exact number_le hx
  have int : ∀ {p : Byte} {n : Nat}, n = 1 ∨ n = 2 ∨ n = 4 ∨ n = 8 → E.primSize p = n → readInt n bs = .ok (v, rest) →
      ∃ c, bs = c ++ rest ∧ Coded E R v (.primitive p) c := by
    intro p n hn hp h
    obtain ⟨⟨x, r⟩, h1, h2⟩ := Out.bind_eq_ok.mp h
    cases h2
    obtain ⟨rfl, hx⟩ := readLe_ok h1
    refine ⟨_, rfl, .int (by simp [hp]) (number_le hx) ?_⟩
    rw [hp, ← toInt_emod _ (by omega), (signExtend_range hn hx).2.2]
  cases t with
  | primitive p =>
    replace h : readPrim p bs = .ok (v, rest) := h
    unfold readPrim at h
    split at h
    · rename_i hp; subst hp; cases h; exact ⟨[], rfl, .unit⟩
    split at h
    · rename_i hp; subst hp; exact uint hs.sizeB (by omega) h
    split at h
    · rename_i hp
      refine uint ?_ hp.2 h
      have := hs.sizes p.toNat hp.1 hp.2
      simpa using this
    split at h
    · rename_i hp; subst hp; exact int (.inl rfl) (hs.sizesI 1 (.inl rfl)) h
    split at h
    · rename_i hp; subst hp; exact int (.inr (.inl rfl)) (hs.sizesI 2 (by omega)) h
    split at h
    · rename_i hp; subst hp; exact int (.inr (.inr (.inl rfl))) (hs.sizesI 4 (by omega)) h
    split at h
    · rename_i hp; subst hp; exact int (.inr (.inr (.inr rfl))) (hs.sizesI 8 (by omega)) h
    · cases h
  | unicodeChar => cases h
  | enum vs =>
    have hwf : VariantsWF vs := hs.wf _ _ hf
    obtain ⟨⟨x, r⟩, h1, h2⟩ := Out.bind_eq_ok.mp h
    obtain ⟨rfl, hx⟩ := readLe_ok h1
    dsimp only at h2
    split at h2
    · cases h2
    · rename_i n hn
      cases h2
      exact ⟨_, rfl, .enum ((enumNameByTag_iff hwf _ _).mp hn)⟩
  | union vs =>
    have hwf : VariantsWF (vs.map Prod.fst) := hs.wf _ _ hf
    obtain ⟨⟨x, r⟩, h1, h2⟩ := Out.bind_eq_ok.mp h
    obtain ⟨rfl, hx⟩ := readLe_ok h1
    dsimp only at h2
    split at h2
    · cases h2
    · rename_i p hp
      obtain ⟨⟨w, r'⟩, h3, h4⟩ := Out.bind_eq_ok.mp h2
      cases h4
      obtain ⟨c, rfl, hc⟩ := hr _ _ _ _ h3
      obtain ⟨hm, htag⟩ := (unionByTag_iff hwf p _).mp hp
      refine ⟨p.1.tag :: c, by simp [le, htag], .union hm hc⟩
  | tuple ids =>
    replace h : readTupleTy rd E ids bs = .ok (v, rest) := h
    unfold readTupleTy at h
    obtain ⟨b, h1, h2⟩ := Out.bind_eq_ok.mp h
    have h1' : E.isRString ids = .ok b := by
      unfold ofUnknown Out.mapErr at h1
      split at h1 <;> simp_all
    cases b with
    | true =>
      obtain ⟨A, C, sz, hrs, c, hsz⟩ := rstring_of_isRString h1'
      rw [if_pos rfl] at h2
      simp only [hsz, ofUnknown, Out.mapErr, Out.bind_ok] at h2
      obtain ⟨s, rfl, rfl, hl, ha⟩ := readAscii_ok h2
      have hm := hb _ _ _ _ _ hf hrs
      refine ⟨_, rfl, .rstring hrs ⟨?_, number_le hl⟩⟩
      simp only [le_length, byteSize_eq, succ_toNat hm]
    | false =>
      rw [if_neg (by simp)] at h2
      obtain ⟨⟨l, r⟩, h3, h4⟩ := Out.bind_eq_ok.mp h2
      cases h4
      obtain ⟨bss, rfl, hc⟩ := read_coded_tuple hr h3
      exact ⟨_, rfl, .tuple hc⟩
  | struct req =>
    obtain ⟨⟨l, r⟩, h3, h4⟩ := Out.bind_eq_ok.mp h
    cases h4
    obtain ⟨new, bss, he, rfl, hc⟩ := read_coded_fields hr (acc := []) (by simpa using (show (req.map Prod.fst).Nodup from hs.fields _ _ hf)) h3
    rw [List.nil_append] at he
    subst he
    exact ⟨_, rfl, .struct hc⟩
  | array i len =>
    simp only [readTy] at h
    split at h
    · obtain ⟨⟨b, r⟩, h1, h2⟩ := Out.bind_eq_ok.mp h
      cases h2
      obtain ⟨rfl, _⟩ := readRaw_ok h1
      exact ⟨_, rfl, .byteArray⟩
    · obtain ⟨⟨l, r⟩, h1, h2⟩ := Out.bind_eq_ok.mp h
      cases h2
      obtain ⟨_, bss, rfl, hc⟩ := read_coded_items hr h1
      exact ⟨_, rfl, .array hc⟩
  | list i sz =>
    simp only [readTy, readList] at h
    split at h
    · cases h
    split at h
    · obtain ⟨s, rfl, rfl, hl, _⟩ := readAscii_ok h
      exact ⟨_, rfl, .text (tally_le hl)⟩
    split at h
    · obtain ⟨s, rfl, rfl, hl⟩ := readBlob_ok h
      exact ⟨_, rfl, .bytes (tally_le hl)⟩
    split at h
    · obtain ⟨s, rfl, rfl, hl, _⟩ := readString_ok h
      exact ⟨_, rfl, .text (tally_le hl)⟩
    · obtain ⟨⟨l, r⟩, h1, h2⟩ := Out.bind_eq_ok.mp h
      cases h2
      obtain ⟨n, r', rfl, hn, _, h3⟩ := readSeq_ok h1
      obtain ⟨rfl, bss, rfl, hc⟩ := read_coded_items hr h3
      exact ⟨_, (List.append_assoc _ _ _).symm, .list (tally_le hn) hc⟩
  | set i sz =>
    obtain ⟨⟨l, r⟩, h1, h2⟩ := Out.bind_eq_ok.mp h
    cases h2
    obtain ⟨n, r', rfl, hn, _, h3⟩ := readSeq_ok h1
    obtain ⟨rfl, bss, rfl, hc⟩ := read_coded_items hr h3
    exact ⟨_, (List.append_assoc _ _ _).symm, .set (tally_le hn) hc⟩
  | map k i sz =>
    obtain ⟨⟨l, r⟩, h1, h2⟩ := Out.bind_eq_ok.mp h
    cases h2
    obtain ⟨n, r', rfl, hn, _, h3⟩ := readMapSeq_ok h1
    obtain ⟨rfl, bss, rfl, hc⟩ := read_coded_pairs hr h3
    exact ⟨_, (List.append_assoc _ _ _).symm, .map (tally_le hn) hc⟩

end

theorem read_wire (hs : E.Sane) (hb : E.BoundedTails) : ∀ {n : Nat} {v : Val} {id : SemId} {bs rest : Bytes},
    read E n id bs = .ok (v, rest) → ∃ c, bs = c ++ rest ∧ WireN E n v id c
  | 0, _, _, _, _, h => by cases h
  | n + 1, v, id, bs, rest, h => by
    simp only [read] at h
    split at h
    · cases h
    · rename_i t hf
      obtain ⟨c, hc, h⟩ := read_coded (R := WireN E n) (fun i bs v rest h => read_wire hs hb h) hs hb hf h
      exact ⟨c, hc, t, hf, h⟩


/-! ## One encoding -/

theorem coded_all2 {α β : Type} {P Q : α → β → Prop} : ∀ {l : List α} {a b : List β}, All2 P l a → All2 Q l b →
    (∀ x ∈ l, ∀ y z, P x y → Q x z → y = z) → a = b
  | [], [], [], _, _, _ => rfl
  | x :: l, y :: a, z :: b, h1, h2, h => by
    rw [h x (by simp) y z h1.1 h2.1, coded_all2 h1.2 h2.2 fun x hx => h x (List.mem_cons_of_mem _ hx)]
  | [], _ :: _, _, h, _, _ => h.elim
  | [], [], _ :: _, _, h, _ => h.elim
  | _ :: _, [], _, h, _, _ => h.elim
  | _ :: _, _ :: _, [], _, h, _ => h.elim

theorem coded_all3 {α β γ : Type} {P Q : α → γ → β → Prop} : ∀ {l : List α} {k : List γ} {a b : List β}, All3 P l k a →
    All3 Q l k b → (∀ x i y z, P x i y → Q x i z → y = z) → a = b
  | [], [], [], [], _, _, _ => rfl
  | x :: l, i :: k, y :: a, z :: b, h1, h2, h => by
    rw [h x i y z h1.1 h2.1, coded_all3 h1.2 h2.2 h]
  | [], _ :: _, _, _, h, _, _ => by simp [All3] at h
  | [], [], _ :: _, _, h, _, _ => by simp [All3] at h
  | [], [], [], _ :: _, _, h, _ => by simp [All3] at h
  | _ :: _, [], _, _, h, _, _ => by simp [All3] at h
  | _ :: _, _ :: _, [], _, h, _, _ => by simp [All3] at h
  | _ :: _, _ :: _, _ :: _, [], _, h, _ => by simp [All3] at h

theorem number_unique {a b : Bytes} {k n : Nat} (ha : a.length = k) (hb : b.length = k) (h1 : Number a n) (h2 : Number b n) :
    a = b := fromLe_inj (ha.trans hb.symm) ((number_iff.mp h1).trans (number_iff.mp h2).symm)

theorem rstring_sizing {ids : List SemId} {A C A' C' : List Variant} {sz sz' : Sizing} (h : E.RString ids A C sz)
    (h' : E.RString ids A' C' sz') : sz = sz' ∧ A = A' ∧ C = C' := by
  obtain ⟨a, b, c, he, h1, -, h2, h3, -⟩ := h
  obtain ⟨a', b', c', he', h1', -, h2', h3', -⟩ := h'
  rw [he] at he'
  cases he'
  rw [h1] at h1'
  rw [h2] at h2'
  cases h1'
  cases h2'
  rw [h3] at h3'
  cases h3'
  exact ⟨rfl, rfl, rfl⟩

theorem coded_unique {R S : Val → SemId → Bytes → Prop} (hs : E.Sane) (hR : ∀ v i a b, R v i a → S v i b → a = b)
    {id : SemId} {t : Ty SemId} (hf : E.find id = some t) {v : Val} {a b : Bytes} (h1 : Coded E R v t a)
    (h2 : Coded E S v t b) : a = b := by
  have hwf := hs.wf _ _ hf
  cases h1 with
  | unit => generalize ht : (Ty.UNIT : Ty SemId) = t at h2; cases h2 with | unit => rfl
  | uint h3 h4 => cases h2 with | uint h5 h6 => exact number_unique h3 h5 h4 h6
  | bigUint h3 h4 => cases h2 with | bigUint h5 h6 => exact number_unique h3 h5 h4 h6
  | int h3 h4 h7 =>
    cases h2 with
    | int h5 h6 h8 =>
      rw [← h7] at h8
      cases Int.ofNat.inj h8
      exact number_unique h3 h5 h4 h6
  | bigInt h3 h4 h7 =>
    cases h2 with
    | bigInt h5 h6 h8 =>
      rw [← h7] at h8
      cases Int.ofNat.inj h8
      exact number_unique h3 h5 h4 h6
  | char => cases h2 with | char => rfl
  | enum h3 =>
    cases h2 with
    | enum h4 =>
      have h5 := (enumTagByName_iff hwf _ _).mpr h3
      rw [(enumTagByName_iff hwf _ _).mpr h4] at h5
      cases h5
      rfl
  | @union vs n t i v bs h3 h4 =>
    cases h2 with
    | @union _ _ t' i' _ _ h5 h6 =>
      have h7 := (unionByName_iff hwf (⟨n, t⟩, i) n).mpr ⟨h3, rfl⟩
      rw [(unionByName_iff hwf (⟨n, t'⟩, i') n).mpr ⟨h5, rfl⟩] at h7
      cases h7
      rw [hR _ _ _ _ h4 h6]
  | tuple h3 => cases h2 with | tuple h4 => rw [coded_all3 h3 h4 hR]
  | struct h3 =>
    cases h2 with
    | struct h4 => rw [coded_all3 h3 h4 fun x i y z h5 h6 => hR _ _ _ _ h5.2 h6.2]
  | byteArray => cases h2 with | byteArray => rfl
  | array h3 => cases h2 with | array h4 => rw [coded_all2 h3 h4 fun x _ y z h5 h6 => hR _ _ _ _ h5 h6]
  | rstring h3 h4 =>
    cases h2 with
    | rstring h5 h6 =>
      obtain ⟨rfl, -, -⟩ := rstring_sizing h3 h5
      rw [tally_unique h4 h6]
  | text h3 => cases h2 with | text h4 => rw [tally_unique h3 h4]
  | bytes h3 => cases h2 with | bytes h4 => rw [tally_unique h3 h4]
  | list h3 h4 =>
    cases h2 with
    | list h5 h6 => rw [tally_unique h3 h5, coded_all2 h4 h6 fun x _ y z h5 h6 => hR _ _ _ _ h5 h6]
  | set h3 h4 =>
    cases h2 with
    | set h5 h6 => rw [tally_unique h3 h5, coded_all2 h4 h6 fun x _ y z h5 h6 => hR _ _ _ _ h5 h6]
  | map h3 h4 =>
    cases h2 with
    | map h5 h6 =>
      rw [tally_unique h3 h5, coded_all2 h4 h6 fun x _ y z h5 h6 =>
        Prod.ext (hR _ _ _ _ h5.1 h6.1) (hR _ _ _ _ h5.2 h6.2)]

theorem wire_unique (hs : E.Sane) : ∀ {n m : Nat} {v : Val} {id : SemId} {a b : Bytes}, WireN E n v id a → WireN E m v id b →
    a = b
  | 0, _, _, _, _, _, h, _ => h.elim
  | _ + 1, 0, _, _, _, _, _, h => h.elim
  | n + 1, m + 1, v, id, a, b, h1, h2 => by
    obtain ⟨t, hf, h1⟩ := h1
    obtain ⟨t', hf', h2⟩ := h2
    cases hf.symm.trans hf'
    exact coded_unique (R := WireN E n) (S := WireN E m) hs (fun v i a b h1 h2 => wire_unique hs h1 h2) hf h1 h2

/-! ## Of every value -/

theorem coded_choose2 {α β : Type} {P : α → β → Prop} : ∀ {l : List α}, (∀ x ∈ l, ∃ y, P x y) → ∃ k, All2 P l k
  | [], _ => ⟨[], trivial⟩
  | x :: l, h => by
    obtain ⟨y, hy⟩ := h x (by simp)
    obtain ⟨k, hk⟩ := coded_choose2 fun z hz => h z (List.mem_cons_of_mem _ hz)
    exact ⟨y :: k, hy, hk⟩

theorem coded_choose3 {α β γ : Type} {T : α → γ → Prop} {P : α → γ → β → Prop} : ∀ {l : List α} {k : List γ}, All2 T l k →
    (∀ x i, T x i → ∃ y, P x i y) → ∃ m, All3 P l k m
  | [], [], _, _ => ⟨[], trivial⟩
  | x :: l, i :: k, ha, h => by
    obtain ⟨y, hy⟩ := h x i ha.1
    obtain ⟨m, hm⟩ := coded_choose3 ha.2 h
    exact ⟨y :: m, hy, hm⟩
  | [], _ :: _, h, _ => h.elim
  | _ :: _, [], h, _ => h.elim

theorem coded_exists {R : Val → SemId → Bytes → Prop} {T : Val → SemId → Prop} {strict : Bool} (hs : E.Sane) (hb : E.BoundedTails)
    (hR : ∀ v i, T v i → ∃ c, R v i c) {id : SemId} {t : Ty SemId} (hf : E.find id = some t) {v : Val}
    (hi : Inhabits E strict T v t) : ∃ c, Coded E R v t c := by
  have signed : ∀ (k : Nat) (y : Int), ((le k (y % 256 ^ k).toNat).length = k ∧ Number (le k (y % 256 ^ k).toNat) (y % 256 ^ k).toNat) ∧
      (((y % 256 ^ k).toNat : Nat) : Int) = y % 256 ^ k := by
    intro k y
    have hpos : (0 : Int) < 256 ^ k := Int.pow_pos (by decide)
    have h0 := Int.emod_nonneg y (Int.ne_of_gt hpos)
    have h1 := Int.emod_lt_of_pos y hpos
    refine ⟨⟨by simp, number_le ?_⟩, Int.toNat_of_nonneg h0⟩
    have h2 : ((256 ^ k : Nat) : Int) = 256 ^ k := by simp
    omega
  have hrs : ∀ {ids : List SemId} {A C : List Variant} {sz : Sizing} {s : Bytes}, t = .tuple ids → v = .str s →
      E.RString ids A C sz → s.length < 256 ^ prefixWidth (sz.max.toNat + 1) → ∃ c, Coded E R v t c := by
    rintro ids A C sz s rfl rfl hr hl
    exact ⟨_, .rstring hr ⟨le_length _ _, number_le hl⟩⟩
  cases hi with
  | unit => exact ⟨[], .unit⟩
  | @uint n x h1 h8 hx => exact ⟨le (E.primSize _) x.toNat, .uint (le_length _ _) (number_le (by rw [hs.sizes n h1 h8]; exact hx))⟩
  | @byte x hx =>
    exact ⟨le (E.primSize Ty.BYTE_CODE) x.toNat, .uint (le_length _ _) (number_le (by rw [hs.sizeB]; simpa using hx))⟩
  | @int n x h1 h8 _ _ =>
    obtain ⟨⟨h1, h2⟩, h3⟩ := signed (E.primSize (BitVec.ofNat 8 (0x40 + n))) x.toInt
    exact ⟨_, .int h1 h2 h3⟩
  | bigUint h1 h2 hx => exact ⟨_, .bigUint (le_length _ _) (number_le hx)⟩
  | @bigInt p x h1 h2 _ _ =>
    obtain ⟨⟨h1, h2⟩, h3⟩ := signed (E.primSize p) x.toInt
    exact ⟨_, .bigInt h1 h2 h3⟩
  | unicodeChar => exact ⟨_, .char⟩
  | enum hm => exact ⟨_, .enum hm⟩
  | union hm hw =>
    obtain ⟨c, hc⟩ := hR _ _ hw
    exact ⟨_, .union hm hc⟩
  | tuple _ ha =>
    obtain ⟨bss, hc⟩ := coded_choose3 ha hR
    exact ⟨_, .tuple hc⟩
  | @rstring A C sz ids c s hr hc hss hsz => exact hrs rfl rfl hr (sizeOk_lt (by have := hb _ _ _ _ _ hf hr; omega) hsz)
  | @rstringEmpty A C sz ids hr hst => exact hrs rfl rfl hr (Nat.pow_pos (by decide))
  | @struct fs req ha =>
    obtain ⟨bss, hc⟩ := coded_choose3 (P := fun f r bs => f.1 = r.1 ∧ R f.2 r.2 bs) ha fun x i h => by
      obtain ⟨c, hc⟩ := hR _ _ h.2
      exact ⟨c, h.1, hc⟩
    exact ⟨_, .struct hc⟩
  | byteArray => exact ⟨_, .byteArray⟩
  | array _ _ ha =>
    obtain ⟨bss, hc⟩ := coded_choose2 fun v hv => hR v _ (ha v hv)
    exact ⟨_, .array hc⟩
  | asciiList _ _ hsz => exact ⟨_, .text (tally_le (sized_lt hsz))⟩
  | byteList _ hsz => exact ⟨_, .bytes (tally_le (sized_lt hsz))⟩
  | unicodeList _ _ _ hsz => exact ⟨_, .text (tally_le (sized_lt hsz))⟩
  | list _ _ _ _ hsz ha =>
    obtain ⟨bss, hc⟩ := coded_choose2 fun v hv => hR v _ (ha v hv)
    exact ⟨_, .list (tally_le (sized_lt hsz)) hc⟩
  | set _ hsz ha _ =>
    obtain ⟨bss, hc⟩ := coded_choose2 fun v hv => hR v _ (ha v hv)
    exact ⟨_, .set (tally_le (sized_lt hsz)) hc⟩
  | map _ hsz ha _ =>
    obtain ⟨bss, hc⟩ := coded_choose2 (P := fun (v : Val × Val) (bs : Bytes × Bytes) => R v.1 _ bs.1 ∧ R v.2 _ bs.2) fun p hp => by
      obtain ⟨c, hc⟩ := hR _ _ (ha p hp).1
      obtain ⟨d, hd⟩ := hR _ _ (ha p hp).2
      exact ⟨(c, d), hc, hd⟩
    exact ⟨_, .map (tally_le (sized_lt hsz)) hc⟩

theorem wire_exists (hs : E.Sane) (hb : E.BoundedTails) {strict : Bool} : ∀ {n : Nat} {v : Val} {id : SemId},
    HasTyN E strict n v id → ∃ c, WireN E n v id c
  | 0, _, _, h => h.elim
  | n + 1, v, id, h => by
    obtain ⟨t, hf, hi⟩ := h
    obtain ⟨c, hc⟩ := coded_exists (R := WireN E n) hs hb (fun v i h => wire_exists hs hb h) hf hi
    exact ⟨c, t, hf, hc⟩

end Verif
