import Verif.Lemmas.ReflectLayer
import Verif.Lemmas.Layout
import Verif.Lemmas.Rel
import Verif.Lemmas.TypifyOut
import Verif.Lemmas.CrateBuild

/-!
# Dynamic values of Rust types are the well-typed values
-/

namespace Verif

section
variable {E : Env} {R : Val → SemId → Prop}

theorem RTy.letter_iff {t : RTy} {lib : Name} {name : Option Name} {vs : List Variant} (ht : t = .enum lib name vs)
    (hC : CharVariants (byTag Variant.tag vs)) {b : Byte} : t.Letter b ↔ InAlphabet (byTag Variant.tag vs) b := by
  subst ht
  have : (RTy.enum lib name vs).letters? = some vs := by
    simp only [RTy.letters?]
    rw [if_pos]
    simp only [List.all_eq_true, Bool.and_eq_true, decide_eq_true_eq]
    exact fun v hv => hC v (mem_byTag.mpr hv)
  simp [RTy.Letter, InAlphabet, this, mem_byTag]

/-- What a restricted string is described by. -/
theorem rstring_described {c c1 : RTy} {sz : Sizing} (hq : Fit E (.rstring c c1 sz))
    (hpart : ∀ p ∈ (RTy.rstring c c1 sz).parts, Fit E p) : ∃ A C, E.RString [c1.semId E.H, tailId E.H c sz] A C
      ⟨sz.min - 1, sz.max - 1⟩ ∧ (∀ b, c1.Letter b ↔ InAlphabet A b) ∧ (∀ b, c.Letter b ↔ InAlphabet C b) ∧
      (sz.min - 1).toNat + 1 = sz.min.toNat ∧ (sz.max - 1).toNat + 1 = sz.max.toNat := by
  have ho := hq.ordinary
  simp only [RTy.Ordinary] at ho
  obtain ⟨lib, name, vs, hce, hC, -⟩ := RTy.letters_enum ho.1
  obtain ⟨lib1, name1, vs1, hce1, hC1, -⟩ := RTy.letters_enum ho.2.1
  have hmin : (sz.min - 1).toNat = sz.min.toNat - 1 := by
    rw [BitVec.toNat_sub]; have := sz.min.isLt; simp; omega
  have hmax : (sz.max - 1).toNat = sz.max.toNat - 1 := by
    rw [BitVec.toNat_sub]; have := sz.max.isLt; simp; omega
  refine ⟨byTag Variant.tag vs1, byTag Variant.tag vs, ⟨_, _, c.semId E.H, rfl, ?_, hC1, hq.holds.find_tail, ?_, hC⟩,
    fun b => RTy.letter_iff hce1 hC1, fun b => RTy.letter_iff hce hC, by omega, by omega⟩
  · rw [(hpart c1 (by simp [RTy.parts])).find, hce1, RTy.img_enum]
  · rw [(hpart c (by simp [RTy.parts])).find, hce, RTy.img_enum]

theorem RTy.charEnum_iff {t : RTy} (h : Fit E t) : (∃ C, E.CharEnum (t.semId E.H) C) ↔ t.isLetters = true := by
  rw [← RTy.letters_charEnum (H := E.H)]
  constructor
  · rintro ⟨C, hf, hC⟩
    rw [h.find, Option.some.injEq] at hf
    exact (isCharEnum_iff _).mpr ⟨C, hf, hC⟩
  · intro h'
    obtain ⟨C, hf, hC⟩ := (isCharEnum_iff _).mp h'
    exact ⟨C, h.find.trans (congrArg some hf), hC⟩

theorem RTy.not_both {t : RTy} (h : t.isByte = true) : t.isLetters = false := by
  cases t <;> simp [RTy.isByte] at h
  rfl

theorem in_memory {sz : Sizing} {n w : Nat} (h : sz.Allows n) (h32 : sz.max.toNat < 2 ^ 32)
    (hm : 2 ^ 32 * (2 * E.valSize) < 2 ^ 63) (hw : w ≤ 2 * E.valSize) : InMemory w n := by
  have h1 : n ≤ 2 ^ 32 := by have := h.2; omega
  have := Nat.mul_le_mul h1 hw
  unfold InMemory
  omega

theorem all2_items {R' : Val → Bytes → Prop} {P : Val → Prop} : ∀ {l : List Val} {bss : List Bytes},
    (∀ v ∈ l, ∀ bs, R' v bs → P v) → All2 R' l bss → ∀ v ∈ l, P v
  | [], _, _, _ => fun _ h => (List.not_mem_nil h).elim
  | _ :: _, [], _, h => h.elim
  | v :: l, bs :: bss, hP, h => by
    intro w hw
    rcases List.mem_cons.mp hw with rfl | hw
    · exact hP _ (by simp) _ h.1
    · exact all2_items (fun v hv => hP v (by simp [hv])) h.2 w hw

theorem typed_tuple {H : Hash} : ∀ {fs : List (Option Name × RTy)} {l : List (Option Name × Val)} {bs : Bytes},
    (∀ f ∈ fs, ∀ v bs, f.2.Writes v bs → v.Tidy → R v (f.2.semId H)) → (∀ v ∈ l.map Prod.snd, v.Tidy) →
    RTy.WritesFields fs l bs → All2 R (l.map Prod.snd) (fs.map fun f => f.2.semId H)
  | [], l, bs, _, _, h => by
    obtain ⟨rfl, rfl⟩ := h
    exact trivial
  | (n, t) :: fs, l, bs, hR, ht, h => by
    obtain ⟨v, l', a, b, rfl, rfl, h1, h2⟩ := h
    exact ⟨hR (n, t) (by simp) v a h1 (ht v (by simp)),
      typed_tuple (fun f hf => hR f (by simp [hf])) (fun v hv => ht v (List.mem_cons_of_mem _ hv)) h2⟩

theorem typed_fields {H : Hash} : ∀ {fs : List (Option Name × RTy)} {l : List (Option Name × Val)} {bs : Bytes},
    (∀ f ∈ fs, ∀ v bs, f.2.Writes v bs → v.Tidy → R v (f.2.semId H)) →
    (∀ f ∈ l.filterMap fun p => p.1.map fun n => (n, p.2), f.2.Tidy) →
    RTy.WritesFields fs l bs → All2 (fun f r => f.1 = r.1 ∧ R f.2 r.2) (l.filterMap fun p => p.1.map fun n => (n, p.2))
      (fs.filterMap fun f => f.1.map fun n => (n, f.2.semId H))
  | [], l, bs, _, _, h => by
    obtain ⟨rfl, rfl⟩ := h
    exact trivial
  | (none, t) :: fs, l, bs, hR, ht, h => by
    obtain ⟨v, l', a, b, rfl, rfl, h1, h2⟩ := h
    have := typed_fields (fun f hf => hR f (by simp [hf])) (l := l') (fun f hf => ht f (by simpa using hf)) h2
    simpa using this
  | (some n, t) :: fs, l, bs, hR, ht, h => by
    obtain ⟨v, l', a, b, rfl, rfl, h1, h2⟩ := h
    exact ⟨⟨rfl, hR (some n, t) (by simp) v a h1 (ht (n, v) (by simp))⟩,
      typed_fields (fun f hf => hR f (by simp [hf])) (fun f hf => ht f (List.mem_cons_of_mem _ hf)) h2⟩

/-- Values of Rust types are well typed. -/
theorem typed_layer (hps : PrimSizes E) (hm : 2 ^ 32 * (2 * E.valSize) < 2 ^ 63)
    {q : RTy} (hall : ∀ p, q.Contains p → Fit E p)
    (hR : ∀ p ∈ q.parts, ∀ v bs, p.Writes v bs → v.Tidy → R v (p.semId E.H))
    {v : Val} {bs : Bytes} (h : q.Writes v bs) (ht : v.Tidy) : Inhabits E true R v (q.img E.H) := by
  have hq := hall q (.refl _)
  have hpart : ∀ p ∈ q.parts, Fit E p := fun p hp => hall p (.step hp (.refl _))
  cases q with
  | prim c =>
    cases h with
    | unit => exact .unit
    | uint h1 h2 h3 => exact .uint h1 h2 h3
    | @byte b =>
      have := b.isLt
      exact .byte (by rw [BitVec.toNat_ofNat]; omega)
    | int h1 h2 h3 => exact .int (by omega) (by omega) h2 h3
    | @bigUint n x h1 h2 h3 =>
      have e : (BitVec.ofNat 8 n).toNat = n := by rw [BitVec.toNat_ofNat]; omega
      exact .bigUint (by omega) (by omega) (by rw [hps.1 n (by omega) h2]; exact h3)
    | bigInt h1 h2 =>
      exact .bigInt (by decide) (by decide) (by rw [hps.2.1 16 (by omega)]; exact h1)
        (by rw [hps.2.1 16 (by omega)]; exact h2)
  | unicode sz =>
    obtain ⟨s, rfl, hu, hl, rfl⟩ := h
    rw [RTy.img_unicode]
    exact .unicodeList hq.plain.uniByte (by simp [SemId.isUnicodeChar]) hu hl
  | rstring c c1 sz =>
    obtain ⟨s, rfl, h1, h2, hl, rfl⟩ := h
    rw [RTy.img_rstring]
    obtain ⟨A, C, hrs, hA, hC, hmin, hmax⟩ := rstring_described hq hpart
    have ho := hq.ordinary
    simp only [RTy.Ordinary] at ho
    cases s with
    | nil => have := hl.1; simp at this; omega
    | cons b s =>
      refine .rstring hrs ((hA b).mp (h1 b (by simp))) (fun d hd => (hC d).mp (h2 d (by simpa using hd))) ?_
      show _ ∧ _
      rw [hmin, hmax]
      exact hl
  | array t len =>
    rw [RTy.img_array]
    have hb := (hpart t (by simp [RTy.parts])).plain.byte
    simp only [RTy.Writes] at h
    split at h
    · rename_i hb'
      obtain ⟨rfl, hl⟩ := h
      exact .byteArray (hb.trans hb') hl
    · rename_i hb'
      obtain ⟨l, bss, rfl, ha, hl, rfl⟩ := h
      cases ht with
      | list ht =>
        exact .array (by simpa [hb] using hb') hl
          (all2_items (fun v hv bs hw => hR t (by simp [RTy.parts]) v bs hw (ht v hv)) ha)
  | list t sz =>
    rw [RTy.img_list]
    have hb := (hpart t (by simp [RTy.parts])).plain.byte
    have hu := (hpart t (by simp [RTy.parts])).plain.char
    have hf := hpart t (by simp [RTy.parts])
    have ho := hq.ordinary
    simp only [RTy.Ordinary] at ho
    simp only [RTy.Writes] at h
    split at h
    · rename_i hb'
      obtain ⟨b, rfl, hl, rfl⟩ := h
      exact .byteList (hb.trans hb') hl
    · rename_i hb'
      split at h
      · rename_i hl'
        obtain ⟨s, rfl, hs, hl, rfl⟩ := h
        obtain ⟨lib, name, vs, hce, hC, -⟩ := RTy.letters_enum hl'
        refine .asciiList (C := byTag Variant.tag vs) ⟨?_, hC⟩ (fun b hb => (RTy.letter_iff hce hC).mp (hs b hb)) hl
        rw [hf.find, hce, RTy.img_enum]
      · rename_i hl'
        obtain ⟨l, bss, rfl, ha, hl, rfl⟩ := h
        cases ht with
        | list ht =>
          exact .list (by simpa [hb] using hb') hu (fun C hC => hl' ((RTy.charEnum_iff hf).mp ⟨C, hC⟩))
            (in_memory hl ho.2 hm (by omega)) hl
            (all2_items (fun v hv bs hw => hR t (by simp [RTy.parts]) v bs hw (ht v hv)) ha)
  | set t sz =>
    rw [RTy.img_set]
    obtain ⟨l, bss, rfl, ha, hl, rfl⟩ := h
    cases ht with
    | set ht hd =>
      exact .set (in_memory hl hq.ordinary hm (by omega)) hl
        (all2_items (fun v hv bs hw => hR t (by simp [RTy.parts]) v bs hw (ht v hv)) ha) fun _ => hd
  | map k t sz =>
    rw [RTy.img_map]
    obtain ⟨l, bss, rfl, ha, hl, rfl⟩ := h
    cases ht with
    | map ht ht' hd =>
      refine .map (in_memory hl hq.ordinary hm (by omega)) hl (fun p hp => ?_) fun _ => hd
      obtain ⟨q, -, h1, h2⟩ := all2_left ha hp
      exact ⟨hR k (by simp [RTy.parts]) _ _ h1 (ht p hp), hR t (by simp [RTy.parts]) _ _ h2 (ht' p hp)⟩
  | record lib name isTuple fs =>
    have hRf : ∀ f ∈ fs, ∀ v bs, f.2.Writes v bs → v.Tidy → R v (f.2.semId E.H) :=
      fun f hf => hR f.2 (List.mem_map_of_mem hf)
    simp only [RTy.Writes] at h
    split at h
    · rename_i he
      obtain ⟨rfl, rfl⟩ := h
      have : fs = [] := by simpa using he
      subst this
      rw [RTy.img_empty]
      exact .unit
    · rename_i he
      have he : fs.isEmpty = false := by simpa using he
      split at h
      · rename_i hi
        subst hi
        obtain ⟨l, rfl, hw⟩ := h
        rw [RTy.img_tuple he]
        refine .tuple (fun A C sz hrs => ?_) ?_
        · exact (not_described hall hrs).elim
        · cases ht with
          | tuple ht => exact typed_tuple hRf ht hw
      · rename_i hi
        have hi : isTuple = false := by simpa using hi
        subst hi
        obtain ⟨l, rfl, hw⟩ := h
        rw [RTy.img_struct he]
        cases ht with
        | struct ht => exact .struct (typed_fields hRf ht hw)
  | enum lib name vs =>
    obtain ⟨x, hx, rfl, rfl⟩ := h
    rw [RTy.img_enum]
    exact .enum (t := x.tag) (mem_byTag.mpr hx)
  | union lib name vs w =>
    obtain ⟨x, hx, u, b, rfl, rfl, hu⟩ := WritesVariants_iff.mp h
    rw [RTy.img_union]
    cases ht with
    | union ht =>
      exact .union (t := x.1.tag) (id := x.2.semId E.H) (List.mem_map.mpr ⟨x, mem_byTag.mpr hx, rfl⟩)
        (hR x.2 (List.mem_map_of_mem hx) u b hu ht)

/-! ### Back -/

theorem rust_items {P : Val → Bytes → Prop} : ∀ {l : List Val}, (∀ v ∈ l, ∃ bs, P v bs) → ∃ bss, All2 P l bss
  | [], _ => ⟨[], trivial⟩
  | v :: l, h => by
    obtain ⟨b, hb⟩ := h v (by simp)
    obtain ⟨bss, hbs⟩ := rust_items fun w hw => h w (List.mem_cons_of_mem _ hw)
    exact ⟨b :: bss, hb, hbs⟩

theorem rust_tuple {H : Hash} : ∀ {fs : List (Option Name × RTy)} {l : List Val},
    (∀ f ∈ fs, ∀ v, R v (f.2.semId H) → v.Tidy ∧ ∃ bs, f.2.Writes v bs) →
    All2 R l (fs.map fun f => f.2.semId H) → (∀ v ∈ l, v.Tidy) ∧ ∃ m bs, m.map Prod.snd = l ∧ RTy.WritesFields fs m bs
  | [], [], _, _ => ⟨fun _ h => (List.not_mem_nil h).elim, [], [], rfl, rfl, rfl⟩
  | [], _ :: _, _, h => h.elim
  | _ :: _, [], _, h => h.elim
  | (n, t) :: fs, v :: l, hR, h => by
    obtain ⟨h1, a, ha⟩ := hR (n, t) (by simp) v h.1
    obtain ⟨h2, m, b, rfl, hb⟩ := rust_tuple (fun f hf => hR f (by simp [hf])) h.2
    refine ⟨fun w hw => ?_, (n, v) :: m, a ++ b, rfl, v, m, a, b, rfl, rfl, ha, hb⟩
    rcases List.mem_cons.mp hw with rfl | hw
    · exact h1
    · exact h2 w hw

theorem rust_fields {H : Hash} : ∀ {fs : List (Option Name × RTy)} {l : List (Name × Val)},
    (∀ f ∈ fs, ∀ v, R v (f.2.semId H) → v.Tidy ∧ ∃ bs, f.2.Writes v bs) → (∀ f ∈ fs, f.1 ≠ none) →
    All2 (fun f r => f.1 = r.1 ∧ R f.2 r.2) l (fs.filterMap fun f => f.1.map fun n => (n, f.2.semId H)) →
    (∀ f ∈ l, f.2.Tidy) ∧ ∃ m bs, (m.filterMap fun p => p.1.map fun n => (n, p.2)) = l ∧ RTy.WritesFields fs m bs
  | [], [], _, _, _ => ⟨fun _ h => (List.not_mem_nil h).elim, [], [], rfl, rfl, rfl⟩
  | [], _ :: _, _, _, h => h.elim
  | (none, t) :: fs, _, _, hn, _ => absurd rfl (hn (none, t) (by simp))
  | (some _, _) :: _, [], _, _, h => h.elim
  | (some n, t) :: fs, (n', v) :: l, hR, hn, h => by
    obtain ⟨⟨e, hv⟩, hl⟩ := h
    dsimp only at e hv
    subst e
    obtain ⟨h1, a, ha⟩ := hR (some n', t) (by simp) v hv
    obtain ⟨h2, m, b, rfl, hb⟩ := rust_fields (fun f hf => hR f (by simp [hf])) (fun f hf => hn f (by simp [hf])) hl
    refine ⟨fun w hw => ?_, (some n', v) :: m, a ++ b, rfl, v, m, a, b, rfl, rfl, ha, hb⟩
    rcases List.mem_cons.mp hw with rfl | hw
    · exact h1
    · exact h2 w hw

theorem rust_prim {c : Byte} {v : Val} (hps : PrimSizes E)
    (hc : ReadablePrim c ∨ (8 < c.toNat ∧ c.toNat ≤ 16) ∨ c.toNat = 0x50) (h : Inhabits E true R v (.primitive c)) :
    v.Tidy ∧ ∃ bs, PrimWrites c v bs := by
  unfold ReadablePrim at hc
  cases h with
  | unit => exact ⟨.unit, _, .unit⟩
  | uint h1 h2 h3 => exact ⟨.num _, _, .uint h1 h2 h3⟩
  | @byte x h =>
    have e : x = BitVec.ofNat 64 (BitVec.ofNat 8 x.toNat).toNat := by
      apply BitVec.eq_of_toNat_eq
      simp only [BitVec.toNat_ofNat]
      omega
    rw [e]
    exact ⟨.num _, _, .byte⟩
  | @int n x h1 h2 h3 h4 =>
    rw [BitVec.toNat_ofNat] at hc
    exact ⟨.num _, _, .int (by omega) h3 h4⟩
  | @bigUint p x h1 h2 h3 =>
    have e : c = BitVec.ofNat 8 c.toNat := by simp
    have hz := hps.1 c.toNat (by omega) (by omega)
    rw [← e] at hz
    rw [hz] at h3
    refine ⟨.num _, le c.toNat x.toNat, ?_⟩
    conv => arg 1; rw [e]
    exact .bigUint h1 (by omega) h3
  | bigInt h1 h2 h3 h4 =>
    have e : c = BitVec.ofNat 8 (0x40 + 16) := BitVec.eq_of_toNat_eq (by simp; omega)
    subst e
    rw [hps.2.1 16 (by omega)] at h3 h4
    exact ⟨.num _, _, .bigInt h3 h4⟩

theorem PrimWrites.of_unit {v : Val} {bs : Bytes} (h : PrimWrites Ty.UNIT_CODE v bs) : v = .unit ∧ bs = [] := by
  generalize hc : Ty.UNIT_CODE = c at h
  have hc := congrArg BitVec.toNat hc
  cases h with
  | unit => exact ⟨rfl, rfl⟩
  | uint h1 h2 => rw [BitVec.toNat_ofNat] at hc; simp only [Ty.UNIT_CODE] at hc; change 0 = _ at hc; omega
  | byte => cases hc
  | int h1 h2 => rw [BitVec.toNat_ofNat] at hc; simp only [Ty.UNIT_CODE] at hc; change 0 = _ at hc; omega
  | bigUint h1 h2 => rw [BitVec.toNat_ofNat] at hc; simp only [Ty.UNIT_CODE] at hc; change 0 = _ at hc; omega
  | bigInt => cases hc

/-- Well-typed values are values of Rust types. -/
theorem rust_layer {q : RTy} (hps : PrimSizes E) (hall : ∀ p, q.Contains p → Fit E p) (h128 : q.UpTo128)
    (hR : ∀ p ∈ q.parts, ∀ v, R v (p.semId E.H) → v.Tidy ∧ ∃ bs, p.Writes v bs)
    {v : Val} (h : Inhabits E true R v (q.img E.H)) : v.Tidy ∧ ∃ bs, q.Writes v bs := by
  have hq := hall q (.refl _)
  have hpart : ∀ p ∈ q.parts, Fit E p := fun p hp => hall p (.step hp (.refl _))
  cases q with
  | prim c =>
    rw [show (RTy.prim c).img E.H = .primitive c from rfl] at h
    exact rust_prim hps h128 h
  | unicode sz =>
    rw [RTy.img_unicode] at h
    have hfu : E.find (SemId.unicodeChar E.H) = some .unicodeChar := hq.holds.find_unicode
    have hiu : (SemId.unicodeChar E.H).isUnicodeChar E.H = true := by simp [SemId.isUnicodeChar]
    cases h with
    | asciiList h1 => rw [h1.1] at hfu; cases hfu
    | byteList h1 => rw [hq.plain.uniByte] at h1; cases h1
    | list _ h1 => rw [hiu] at h1; cases h1
    | unicodeList _ _ hu hl => exact ⟨.str _, _, _, rfl, hu, hl, rfl⟩
  | rstring c c1 sz =>
    rw [RTy.img_rstring] at h
    obtain ⟨A, C, hrs, hA, hC, hmin, hmax⟩ := rstring_described hq hpart
    cases h with
    | tuple h1 => exact absurd hrs (h1 _ _ _)
    | rstringEmpty _ h1 => cases h1
    | @rstring A' C' sz' _ b s hrs' h1 h2 h3 =>
      obtain ⟨a', b', c', e', f1, -, f2, f3, -⟩ := hrs'
      obtain ⟨a, b, c, e, g1, -, g2, g3, -⟩ := hrs
      rw [e] at e'
      cases e'
      rw [g1] at f1; cases f1
      rw [g2] at f2; cases f2
      rw [g3] at f3; cases f3
      have h3 : _ ∧ _ := h3
      rw [hmin, hmax] at h3
      exact ⟨.str _, _, _, rfl, by simpa using (hA _).mpr h1, fun d hd => (hC d).mpr (h2 d (by simpa using hd)), h3, rfl⟩
  | array t len =>
    rw [RTy.img_array] at h
    have hb := (hpart t (by simp [RTy.parts])).plain.byte
    simp only [RTy.Writes]
    cases h with
    | byteArray h1 h2 =>
      rw [hb] at h1
      exact ⟨.bytes _, _, by rw [if_pos h1]; exact ⟨rfl, h2⟩⟩
    | array h1 h2 h3 =>
      rw [hb] at h1
      have h3 := fun v hv => hR t (by simp [RTy.parts]) v (h3 v hv)
      obtain ⟨bss, hbs⟩ := rust_items fun v hv => (h3 v hv).2
      exact ⟨.list fun v hv => (h3 v hv).1, _, by rw [if_neg (by simp [h1])]; exact ⟨_, bss, rfl, hbs, h2, rfl⟩⟩
  | list t sz =>
    rw [RTy.img_list] at h
    have hb := (hpart t (by simp [RTy.parts])).plain.byte
    have hu := (hpart t (by simp [RTy.parts])).plain.char
    have hf := hpart t (by simp [RTy.parts])
    simp only [RTy.Writes]
    cases h with
    | byteList h1 h2 =>
      rw [hb] at h1
      exact ⟨.bytes _, _, by rw [if_pos h1]; exact ⟨_, rfl, h2, rfl⟩⟩
    | unicodeList _ h1 => rw [hu] at h1; cases h1
    | asciiList h1 h2 h3 =>
      have hl := (RTy.charEnum_iff hf).mp ⟨_, h1⟩
      obtain ⟨lib, name, vs, hce, hC, -⟩ := RTy.letters_enum hl
      have hbf : ¬ t.isByte = true := fun h => by rw [RTy.not_both h] at hl; cases hl
      have e := h1.1
      rw [hf.find, hce, RTy.img_enum] at e
      cases e
      exact ⟨.str _, _, by
        rw [if_neg hbf, if_pos hl]
        exact ⟨_, rfl, fun b hb => (RTy.letter_iff hce hC).mpr (h2 b hb), h3, rfl⟩⟩
    | list h1 _ h2 _ h3 h4 =>
      rw [hb] at h1
      have hnl : ¬ t.isLetters = true := fun h => by
        obtain ⟨C, hC⟩ := (RTy.charEnum_iff hf).mpr h
        exact h2 C hC
      have h4 := fun v hv => hR t (by simp [RTy.parts]) v (h4 v hv)
      obtain ⟨bss, hbs⟩ := rust_items fun v hv => (h4 v hv).2
      exact ⟨.list fun v hv => (h4 v hv).1, _, by
        rw [if_neg (by simp [h1]), if_neg hnl]; exact ⟨_, bss, rfl, hbs, h3, rfl⟩⟩
  | set t sz =>
    rw [RTy.img_set] at h
    cases h with
    | set h1 h2 h3 h4 =>
      have h3 := fun v hv => hR t (by simp [RTy.parts]) v (h3 v hv)
      obtain ⟨bss, hbs⟩ := rust_items fun v hv => (h3 v hv).2
      exact ⟨.set (fun v hv => (h3 v hv).1) (h4 rfl), _, _, bss, rfl, hbs, h2, rfl⟩
  | map k t sz =>
    rw [RTy.img_map] at h
    cases h with
    | map h1 h2 h3 h4 =>
      rename_i l
      have hk : ∀ p ∈ l, p.1.Tidy ∧ ∃ bs, k.Writes p.1 bs := fun p hp => hR k (by simp [RTy.parts]) _ (h3 p hp).1
      have ht : ∀ p ∈ l, p.2.Tidy ∧ ∃ bs, t.Writes p.2 bs := fun p hp => hR t (by simp [RTy.parts]) _ (h3 p hp).2
      obtain ⟨bss, hbs⟩ := all2_exists (R := fun (p : Val × Val) (q : Bytes × Bytes) =>
          k.Writes p.1 q.1 ∧ t.Writes p.2 q.2) (l := l) fun p hp => by
        obtain ⟨-, a, ha⟩ := hk p hp
        obtain ⟨-, b, hb⟩ := ht p hp
        exact ⟨(a, b), ha, hb⟩
      exact ⟨.map (fun p hp => (hk p hp).1) (fun p hp => (ht p hp).1) (h4 rfl), _, l, bss, rfl, hbs, h2, rfl⟩
  | record lib name isTuple fs =>
    have hRf : ∀ f ∈ fs, ∀ v, R v (f.2.semId E.H) → v.Tidy ∧ ∃ bs, f.2.Writes v bs :=
      fun f hf => hR f.2 (List.mem_map_of_mem hf)
    cases fs with
    | nil =>
      rw [RTy.img_empty] at h
      obtain ⟨h1, bs, h2⟩ := rust_prim hps (by simp [ReadablePrim, Ty.UNIT_CODE]) h
      obtain ⟨rfl, rfl⟩ := PrimWrites.of_unit h2
      exact ⟨h1, [], by simp [RTy.Writes]⟩
    | cons f fs =>
      cases isTuple with
      | true =>
        rw [RTy.img_tuple rfl] at h
        cases h with
        | rstring hrs => exact (not_described hall hrs).elim
        | rstringEmpty hrs => exact (not_described hall hrs).elim
        | tuple _ h =>
          obtain ⟨h1, m, bs, rfl, h2⟩ := rust_tuple hRf h
          exact ⟨.tuple h1, bs, by simp only [RTy.Writes]; exact ⟨m, rfl, h2⟩⟩
      | false =>
        rw [RTy.img_struct rfl] at h
        cases h with
        | struct h =>
          obtain ⟨h1, m, bs, rfl, h2⟩ := rust_fields hRf hq.named h
          exact ⟨.struct h1, bs, by simp only [RTy.Writes]; exact ⟨m, rfl, h2⟩⟩
  | enum lib name vs =>
    rw [RTy.img_enum] at h
    cases h with
    | enum h => exact ⟨.enum _, _, _, mem_byTag.mp h, rfl, rfl⟩
  | union lib name vs w =>
    rw [RTy.img_union] at h
    cases h with
    | union h hv =>
      obtain ⟨⟨⟨m, t⟩, x⟩, hx, e⟩ := List.mem_map.mp h
      rw [mem_byTag] at hx
      cases e
      obtain ⟨h1, b, hb⟩ := hR x (List.mem_map_of_mem hx) _ hv
      exact ⟨.union h1, _, WritesVariants_iff.mpr ⟨_, hx, _, b, rfl, rfl, hb⟩⟩

end

/-! ### All layers -/

theorem typed_all {E : Env} (hps : PrimSizes E) (hm : 2 ^ 32 * (2 * E.valSize) < 2 ^ 63) :
    ∀ (q : RTy), (∀ p, q.Contains p → Fit E p) → ∀ n, sizeOf q ≤ n → ∀ v bs, q.Writes v bs → v.Tidy →
      HasTyN E true n v (q.semId E.H) := by
  refine RTy.induct fun q ih hall n hn v bs h ht => ?_
  cases n with
  | zero => cases q <;> simp at hn
  | succ n =>
    exact ⟨_, (hall q (.refl _)).find, typed_layer hps hm hall (fun p hp v bs hw ht =>
      ih p hp (fun s hs => hall s (.step hp hs)) n (by have := RTy.parts_lt hp; omega) v bs hw ht) h ht⟩

theorem rust_all {E : Env} (hps : PrimSizes E) :
    ∀ (q : RTy), (∀ p, q.Contains p → Fit E p ∧ p.UpTo128) → ∀ n v, HasTyN E true n v (q.semId E.H) →
      v.Tidy ∧ ∃ bs, q.Writes v bs := by
  refine RTy.induct fun q ih hall n v h => ?_
  cases n with
  | zero => cases h
  | succ n =>
    obtain ⟨t, ht, h⟩ := h
    rw [(hall q (.refl _)).1.find, Option.some.injEq] at ht
    subst ht
    exact rust_layer hps (fun p hp => (hall p hp).1) (hall q (.refl _)).2 (fun p hp v hv =>
      ih p hp (fun s hs => hall s (.step hp hs)) n v hv) h

/-! ### Checking values of Rust types -/

theorem RTy.img_primitive {H : Hash} {q : RTy} {p : Byte} (h : q.img H = .primitive p) :
    q = .prim p ∨ p = Ty.UNIT_CODE := by
  cases q with
  | prim c => exact .inl (by cases h; rfl)
  | unicode => rw [RTy.img_unicode] at h; cases h
  | rstring => rw [RTy.img_rstring] at h; cases h
  | record lib name b fs =>
    cases fs with
    | nil => rw [RTy.img_empty] at h; cases h; exact .inr rfl
    | cons f fs =>
      cases b
      · rw [RTy.img_struct rfl] at h; cases h
      · rw [RTy.img_tuple rfl] at h; cases h
  | union => rw [RTy.img_union] at h; cases h
  | _ => simp [RTy.img, RTy.sem, RTy.tyWith, Ty.mapRefs] at h

theorem RTy.img_ne_unicode {H : Hash} {q : RTy} : q.img H ≠ .unicodeChar := by
  intro h
  cases q with
  | unicode => rw [RTy.img_unicode] at h; cases h
  | rstring => rw [RTy.img_rstring] at h; cases h
  | record lib name b fs =>
    cases fs with
    | nil => rw [RTy.img_empty] at h; cases h
    | cons f fs =>
      cases b
      · rw [RTy.img_struct rfl] at h; cases h
      · rw [RTy.img_tuple rfl] at h; cases h
  | union => rw [RTy.img_union] at h; cases h
  | _ => simp [RTy.img, RTy.sem, RTy.tyWith, Ty.mapRefs] at h

theorem PrimWrites.codes {c : Byte} {v : Val} {bs : Bytes} (h : PrimWrites c v bs) (hw : ¬ (RTy.prim c).WideUint) :
    (c.toNat ≤ 8 ∨ 16 < c.toNat) ∧ (c.toNat ≤ 0x48 ∨ 0x4f < c.toNat) := by
  unfold RTy.WideUint at hw
  cases h with
  | unit => decide
  | uint => rw [BitVec.toNat_ofNat]; omega
  | byte => decide
  | int => rw [BitVec.toNat_ofNat]; omega
  | bigUint => simp only [BitVec.toNat_ofNat] at hw; omega
  | bigInt => decide

theorem RTy.UpTo64.to128 {q : RTy} (h : q.UpTo64) : q.UpTo128 := by
  cases q with
  | prim c => exact .inl h
  | _ => trivial

theorem RTy.UpTo64.not_wide {q : RTy} (h : q.UpTo64) : ¬ q.WideUint := by
  cases q with
  | prim c =>
    intro hw
    have h : ReadablePrim c := h
    have hw : 8 < c.toNat ∧ c.toNat ≤ 16 := hw
    unfold ReadablePrim at h
    omega
  | _ => exact id

theorem RTy.isByte_raw : (RTy.prim Ty.BYTE_CODE).isByte = true := rfl

theorem typify_rust {E : Env} (hs : E.Sane) (hps : PrimSizes E) (hm : 2 ^ 32 * (2 * E.valSize) < 2 ^ 63) :
    ∀ (q : RTy), (∀ p, q.Contains p → Fit E p ∧ ¬ p.BareByte ∧ ¬ p.WideUint) → ∀ n, sizeOf q ≤ n → q ≠ .prim Ty.BYTE_CODE →
      ∀ v bs, q.Writes v bs → v.Tidy → typify E n v (q.semId E.H) = .ok v := by
  refine RTy.induct fun q ih hall n hn hnb v bs h ht => ?_
  cases n with
  | zero => cases q <;> simp at hn
  | succ n =>
    have hq := (hall q (.refl _)).1
    have hi := typed_layer (R := fun u r => ∃ p ∈ q.parts, r = p.semId E.H ∧ u.Tidy ∧ ∃ bs, p.Writes u bs)
      hps hm (fun p hp => (hall p hp).1) (fun p hp v bs hw ht => ⟨p, hp, rfl, ht, bs, hw⟩) h ht
    simp only [typify, hs.typeOf hq.find]
    refine typify_layer hs hq.find hi (fun p hp => ?_) (fun e => ?_) fun h2 h3 r hr u hu => ?_
    · rcases RTy.img_primitive hp with rfl | rfl
      · have := PrimWrites.codes h (hall _ (.refl _)).2.2
        exact ⟨this.1, this.2, fun e => hnb (by rw [e])⟩
      · decide
    · exact absurd e RTy.img_ne_unicode
    · obtain ⟨p, hp, rfl, hut, b, hw⟩ := hu
      refine ih p hp (fun s hs => hall s (.step hp hs)) n (by have := RTy.parts_lt hp; omega) ?_ u b hw hut
      rintro rfl
      have hbare := (hall q (.refl _)).2.1
      cases q with
      | list t sz =>
        have := (h2 _ _ RTy.img_list).1
        rw [(hall t (.step (by simp [RTy.parts]) (.refl _))).1.plain.byte] at this
        simp only [RTy.parts, List.mem_singleton] at hp
        subst hp
        cases this
      | array t len => exact h3 _ _ RTy.img_array
      | _ => exact hbare hp

/-! ### One value, one representation -/

theorem all2_unique {α β : Type} {P : α → β → Prop} : ∀ {l : List α} {m m' : List β},
    (∀ a ∈ l, ∀ b b', P a b → P a b' → b = b') → All2 P l m → All2 P l m' → m = m'
  | [], [], [], _, _, _ => rfl
  | [], _ :: _, _, _, h, _ => h.elim
  | [], [], _ :: _, _, _, h => h.elim
  | _ :: _, [], _, _, h, _ => h.elim
  | _ :: _, _ :: _, [], _, _, h => h.elim
  | a :: l, b :: m, b' :: m', hP, h, h' => by
    rw [hP a (by simp) b b' h.1 h'.1, all2_unique (fun a ha => hP a (by simp [ha])) h.2 h'.2]

theorem unique_fields : ∀ {fs : List (Option Name × RTy)} {l l' : List (Option Name × Val)} {bs bs' : Bytes},
    (∀ f ∈ fs, ∀ v bs bs', f.2.Writes v bs → f.2.Writes v bs' → bs = bs') →
    l.map Prod.snd = l'.map Prod.snd → RTy.WritesFields fs l bs → RTy.WritesFields fs l' bs' → bs = bs'
  | [], l, l', bs, bs', _, _, h, h' => by rw [h.2, h'.2]
  | (n, t) :: fs, l, l', bs, bs', hR, e, h, h' => by
    obtain ⟨v, m, a, b, rfl, rfl, h1, h2⟩ := h
    obtain ⟨v', m', a', b', rfl, rfl, h1', h2'⟩ := h'
    simp only [List.map_cons, List.cons.injEq] at e
    obtain ⟨rfl, e⟩ := e
    rw [hR (n, t) (by simp) v a a' h1 h1', unique_fields (fun f hf => hR f (by simp [hf])) e h2 h2']

theorem WritesFields_names : ∀ {fs : List (Option Name × RTy)} {l : List (Option Name × Val)} {bs : Bytes},
    RTy.WritesFields fs l bs → l.map Prod.fst = fs.map Prod.fst
  | [], l, bs, h => by rw [h.1]; rfl
  | f :: fs, l, bs, h => by
    obtain ⟨v, m, a, b, rfl, rfl, h1, h2⟩ := h
    simp [WritesFields_names h2]

theorem named_values : ∀ {l : List (Option Name × Val)}, (∀ p ∈ l, p.1 ≠ none) →
    l.map Prod.snd = (l.filterMap fun p => p.1.map fun n => (n, p.2)).map Prod.snd
  | [], _ => rfl
  | (none, v) :: l, h => absurd rfl (h (none, v) (by simp))
  | (some n, v) :: l, h => by simpa using named_values fun p hp => h p (List.mem_cons_of_mem _ hp)

theorem writes_unique {H : Hash} : ∀ (q : RTy), (∀ p, q.Contains p → p.Named ∧ (p.img H).WF) →
    ∀ v bs bs', q.Writes v bs → q.Writes v bs' → bs = bs' := by
  refine RTy.induct fun q ih hall v bs bs' h h' => ?_
  have ih : ∀ p ∈ q.parts, ∀ v bs bs', p.Writes v bs → p.Writes v bs' → bs = bs' :=
    fun p hp => ih p hp fun s hs => hall s (.step hp hs)
  cases q with
  | prim c =>
    have inv : ∀ {v : Val} {bs : Bytes}, PrimWrites c v bs → (v = .unit ∧ bs = []) ∨
        (∃ x, v = .num (.uint x) ∧ 1 ≤ c.toNat ∧ c.toNat ≤ 8 ∧ bs = le c.toNat x.toNat) ∨
        (∃ x, v = .num (.uint x) ∧ c.toNat = 64 ∧ bs = [BitVec.ofNat 8 x.toNat]) ∨
        (∃ x, v = .num (.int x) ∧ bs = le (c.toNat - 0x40) x.toNat) ∨
        (∃ x, v = .num (.bigUint x) ∧ bs = le c.toNat x.toNat) ∨
        (∃ x, v = .num (.bigInt x) ∧ bs = le 16 x.toNat) := by
      intro v bs h
      cases h with
      | unit => exact .inl ⟨rfl, rfl⟩
      | @uint n x h1 h2 h3 =>
        have e : (BitVec.ofNat 8 n).toNat = n := by rw [BitVec.toNat_ofNat]; omega
        exact .inr (.inl ⟨x, rfl, by omega, by omega, by rw [e]⟩)
      | @byte b =>
        refine .inr (.inr (.inl ⟨_, rfl, rfl, ?_⟩))
        have := b.isLt
        rw [BitVec.toNat_ofNat, Nat.mod_eq_of_lt (by omega)]
        simp
      | @int n x h1 h2 h3 =>
        have e : (BitVec.ofNat 8 (0x40 + n)).toNat = 0x40 + n := by rw [BitVec.toNat_ofNat]; omega
        exact .inr (.inr (.inr (.inl ⟨x, rfl, by rw [e]; congr 1; omega⟩)))
      | @bigUint n x h1 h2 h3 =>
        have e : (BitVec.ofNat 8 n).toNat = n := by rw [BitVec.toNat_ofNat]; omega
        exact .inr (.inr (.inr (.inr (.inl ⟨x, rfl, by rw [e]⟩))))
      | bigInt => exact .inr (.inr (.inr (.inr (.inr ⟨_, rfl, rfl⟩))))
    rcases inv h with ⟨rfl, rfl⟩ | ⟨x, rfl, h1, h2, rfl⟩ | ⟨x, rfl, h1, rfl⟩ | ⟨x, rfl, rfl⟩ | ⟨x, rfl, rfl⟩ |
      ⟨x, rfl, rfl⟩ <;>
    rcases inv h' with ⟨e, rfl⟩ | ⟨y, e, h3, h4, rfl⟩ | ⟨y, e, h3, rfl⟩ | ⟨y, e, rfl⟩ | ⟨y, e, rfl⟩ | ⟨y, e, rfl⟩ <;>
    cases e <;>
    first | rfl | omega
  | unicode sz =>
    obtain ⟨s, rfl, -, -, rfl⟩ := h
    obtain ⟨s', e, -, -, rfl⟩ := h'
    cases e; rfl
  | rstring c c1 sz =>
    obtain ⟨s, rfl, -, -, -, rfl⟩ := h
    obtain ⟨s', e, -, -, -, rfl⟩ := h'
    cases e; rfl
  | array t len =>
    have ih := ih t (by simp [RTy.parts])
    simp only [RTy.Writes] at h h'
    split at h
    · rename_i hb
      rw [if_pos hb] at h'
      rw [h.1] at h'
      exact Val.bytes.inj h'.1
    · rename_i hb
      rw [if_neg hb] at h'
      obtain ⟨l, bss, rfl, ha, -, rfl⟩ := h
      obtain ⟨l', bss', e, ha', -, rfl⟩ := h'
      cases e
      rw [all2_unique (fun v _ => ih v) ha ha']
  | list t sz =>
    have ih := ih t (by simp [RTy.parts])
    simp only [RTy.Writes] at h h'
    split at h
    · rename_i hb
      rw [if_pos hb] at h'
      obtain ⟨b, rfl, -, rfl⟩ := h
      obtain ⟨b', e, -, rfl⟩ := h'
      cases e; rfl
    · rename_i hb
      rw [if_neg hb] at h'
      split at h
      · rename_i hl
        rw [if_pos hl] at h'
        obtain ⟨b, rfl, -, -, rfl⟩ := h
        obtain ⟨b', e, -, -, rfl⟩ := h'
        cases e; rfl
      · rename_i hl
        rw [if_neg hl] at h'
        obtain ⟨l, bss, rfl, ha, -, rfl⟩ := h
        obtain ⟨l', bss', e, ha', -, rfl⟩ := h'
        cases e
        rw [all2_unique (fun v _ => ih v) ha ha']
  | set t sz =>
    obtain ⟨l, bss, rfl, ha, -, rfl⟩ := h
    obtain ⟨l', bss', e, ha', -, rfl⟩ := h'
    cases e
    rw [all2_unique (fun v _ => ih t (by simp [RTy.parts]) v) ha ha']
  | map k t sz =>
    obtain ⟨l, bss, rfl, ha, -, rfl⟩ := h
    obtain ⟨l', bss', e, ha', -, rfl⟩ := h'
    cases e
    rw [all2_unique (fun v _ b b' h h' => Prod.ext (ih k (by simp [RTy.parts]) _ _ _ h.1 h'.1)
      (ih t (by simp [RTy.parts]) _ _ _ h.2 h'.2)) ha ha']
  | record lib name isTuple fs =>
    have ih' : ∀ f ∈ fs, ∀ v bs bs', f.2.Writes v bs → f.2.Writes v bs' → bs = bs' :=
      fun f hf => ih f.2 (List.mem_map_of_mem hf)
    simp only [RTy.Writes] at h h'
    split at h
    · rename_i he
      rw [if_pos he] at h'
      rw [h.2, h'.2]
    · rename_i he
      rw [if_neg he] at h'
      split at h
      · rename_i hi
        rw [if_pos hi] at h'
        obtain ⟨l, rfl, hw⟩ := h
        obtain ⟨l', e, hw'⟩ := h'
        exact unique_fields ih' (Val.tuple.inj e) hw hw'
      · rename_i hi
        rw [if_neg hi] at h'
        have hi : isTuple = false := by simpa using hi
        subst hi
        obtain ⟨l, rfl, hw⟩ := h
        obtain ⟨l', e, hw'⟩ := h'
        have hn : ∀ {l : List (Option Name × Val)} {bs : Bytes}, RTy.WritesFields fs l bs → ∀ p ∈ l, p.1 ≠ none := by
          intro l bs hw p hp e
          have : p.1 ∈ fs.map Prod.fst := by rw [← WritesFields_names hw]; exact List.mem_map_of_mem hp
          obtain ⟨f, hf, e'⟩ := List.mem_map.mp this
          exact (hall _ (.refl _)).1 f hf (e'.trans e)
        refine unique_fields ih' ?_ hw hw'
        rw [named_values (hn hw), named_values (hn hw'), Val.struct.inj e]
  | enum lib name vs =>
    obtain ⟨x, hx, rfl, rfl⟩ := h
    obtain ⟨y, hy, e, rfl⟩ := h'
    have hwf := (hall _ (.refl _)).2
    rw [RTy.img_enum] at hwf
    have hwf : VariantsWF (byTag Variant.tag vs) := hwf
    have h1 := (enumTagByName_iff hwf x.name x.tag).mpr (mem_byTag.mpr hx)
    have h2 := (enumTagByName_iff hwf y.name y.tag).mpr (mem_byTag.mpr hy)
    cases x; cases y
    cases e
    rw [h1] at h2
    cases h2; rfl
  | union lib name vs w =>
    obtain ⟨x, hx, u, b, rfl, rfl, hu⟩ := WritesVariants_iff.mp h
    obtain ⟨y, hy, u', b', e, rfl, hu'⟩ := WritesVariants_iff.mp h'
    have hwf := (hall _ (.refl _)).2
    rw [RTy.img_union] at hwf
    have hwf : VariantsWF _ := hwf
    rw [List.map_map] at hwf
    have hn : ((byTag (fun v => v.1.tag) vs).map fun v => v.1.name).Nodup := by
      have := hwf.2.2.2
      rw [List.pairwise_map] at this
      exact List.pairwise_map.mpr this
    have e1 := Tag.name.inj (Val.union.inj e).1
    have e2 := (Val.union.inj e).2
    subst e2
    have := nodup_map_inj hn (mem_byTag.mpr hx) (mem_byTag.mpr hy) e1
    subst this
    rw [ih x.2 (List.mem_map_of_mem hx) _ _ _ hu hu']

/-! ### No representation is the beginning of another -/

/-- Two representations of which one is the beginning of the other are the same, and of the same value. -/
def Prefixless {α : Type} (R : α → Bytes → Prop) : Prop :=
  ∀ v v' bs bs' r r', R v bs → R v' bs' → bs ++ r = bs' ++ r' → v = v' ∧ bs = bs'

theorem all2_prefix {α β : Type} {R : α → β → Prop} {f : β → Bytes}
    (hR : ∀ a a' b b' r r', R a b → R a' b' → f b ++ r = f b' ++ r' → a = a' ∧ b = b') :
    ∀ {l l' : List α} {m m' : List β}, All2 R l m → All2 R l' m' → l.length = l'.length → ∀ r r',
      (m.map f).flatten ++ r = (m'.map f).flatten ++ r' → l = l' ∧ m = m'
  | [], [], [], [], _, _, _, _, _, _ => ⟨rfl, rfl⟩
  | [], _, _ :: _, _, h, _, _, _, _, _ => h.elim
  | _, [], _, _ :: _, _, h, _, _, _, _ => h.elim
  | _ :: _, _, [], _, h, _, _, _, _, _ => h.elim
  | _, _ :: _, _, [], _, h, _, _, _, _ => h.elim
  | [], _ :: _, _, _, _, _, h, _, _, _ => by simp at h
  | _ :: _, [], _, _, _, _, h, _, _, _ => by simp at h
  | a :: l, a' :: l', b :: m, b' :: m', h, h', hl, r, r', e => by
    simp only [List.map_cons, List.flatten_cons, List.append_assoc] at e
    obtain ⟨rfl, rfl⟩ := hR a a' b b' _ _ h.1 h'.1 e
    obtain ⟨rfl, rfl⟩ := all2_prefix hR h.2 h'.2 (by simpa using hl) r r' (List.append_cancel_left e)
    exact ⟨rfl, rfl⟩

theorem fields_prefix : ∀ {fs : List (Option Name × RTy)} {l l' : List (Option Name × Val)} {bs bs' : Bytes},
    (∀ f ∈ fs, Prefixless f.2.Writes) → RTy.WritesFields fs l bs → RTy.WritesFields fs l' bs' → ∀ r r',
    bs ++ r = bs' ++ r' → l = l' ∧ bs = bs'
  | [], l, l', bs, bs', _, h, h', _, _, _ => ⟨by rw [h.1, h'.1], by rw [h.2, h'.2]⟩
  | (n, t) :: fs, l, l', bs, bs', hR, h, h', r, r', e => by
    obtain ⟨v, m, a, b, rfl, rfl, h1, h2⟩ := h
    obtain ⟨v', m', a', b', rfl, rfl, h1', h2'⟩ := h'
    simp only [List.append_assoc] at e
    obtain ⟨rfl, rfl⟩ := hR (n, t) (by simp) v v' a a' _ _ h1 h1' e
    obtain ⟨rfl, rfl⟩ := fields_prefix (fun f hf => hR f (by simp [hf])) h2 h2' r r' (List.append_cancel_left e)
    exact ⟨rfl, rfl⟩

theorem lenPrefix_inj {sz : Sizing} {n m : Nat} {x y : Bytes} (hn : sz.Allows n) (hm : sz.Allows m)
    (h : lenPrefix sz n ++ x = lenPrefix sz m ++ y) : n = m ∧ x = y := by
  obtain ⟨h1, h2⟩ := append_inj_of_length h (by simp [lenPrefix])
  exact ⟨le_inj (allows_lt hn) (allows_lt hm) h1, h2⟩

theorem le_eq_mod {k m n : Nat} (h : le k m = le k n) : m % 256 ^ k = n % 256 ^ k := by
  rw [← le_mod k m, ← le_mod k n] at h
  exact le_inj (Nat.mod_lt _ (Nat.pow_pos (by decide))) (Nat.mod_lt _ (Nat.pow_pos (by decide))) h

/-- Signed numbers of 128 bits are told by their two's complement. -/
theorem i128_inj {w : Nat} {x y : BitVec (128 + w)} (hx : -(2 : Int) ^ (8 * 16 - 1) ≤ x.toInt) (hx' : x.toInt < (2 : Int) ^ (8 * 16 - 1))
    (hy : -(2 : Int) ^ (8 * 16 - 1) ≤ y.toInt) (hy' : y.toInt < (2 : Int) ^ (8 * 16 - 1))
    (h : x.toNat % 256 ^ 16 = y.toNat % 256 ^ 16) : x = y := by
  apply BitVec.eq_of_toNat_eq
  have h1 := x.isLt
  have h2 := y.isLt
  rw [BitVec.toInt_eq_toNat_cond] at hx hx' hy hy'
  rw [Nat.pow_add] at h1 h2 hx hx' hy hy'
  generalize (2 : Nat) ^ w = K at *
  generalize x.toNat = a at *
  generalize y.toNat = b at *
  simp only [Nat.reduceMul, Nat.reduceSub, Nat.reducePow, Int.reducePow, Int.reduceNeg] at *
  split at hx <;> split at hy <;> rename_i c1 c2 <;> simp only [c1, c2, if_true, if_false] at * <;> omega

theorem prim_prefix (c : Byte) : Prefixless (PrimWrites c) := by
  have inv : ∀ {v : Val} {bs : Bytes}, PrimWrites c v bs → (v = .unit ∧ bs = [] ∧ c.toNat = 0) ∨
      (∃ x, v = .num (.uint x) ∧ 1 ≤ c.toNat ∧ c.toNat ≤ 8 ∧ bs = le c.toNat x.toNat ∧ x.toNat < 256 ^ c.toNat) ∨
      (∃ b : Byte, v = .num (.uint (BitVec.ofNat 64 b.toNat)) ∧ c.toNat = 64 ∧ bs = [b]) ∨
      (∃ n x, v = .num (.int x) ∧ c.toNat = 0x40 + n ∧ (n = 1 ∨ n = 2 ∨ n = 4 ∨ n = 8) ∧ bs = le n x.toNat ∧
        -(2 : Int) ^ (8 * n - 1) ≤ x.toInt ∧ x.toInt < (2 : Int) ^ (8 * n - 1)) ∨
      (∃ x, v = .num (.bigUint x) ∧ 8 < c.toNat ∧ c.toNat ≤ 16 ∧ bs = le c.toNat x.toNat ∧ x.toNat < 256 ^ c.toNat) ∨
      (∃ x, v = .num (.bigInt x) ∧ c.toNat = 0x50 ∧ bs = le 16 x.toNat ∧
        -(2 : Int) ^ (8 * 16 - 1) ≤ x.toInt ∧ x.toInt < (2 : Int) ^ (8 * 16 - 1)) := by
    intro v bs h
    cases h with
    | unit => exact .inl ⟨rfl, rfl, rfl⟩
    | @uint n x h1 h2 h3 =>
      have e : (BitVec.ofNat 8 n).toNat = n := by rw [BitVec.toNat_ofNat]; omega
      exact .inr (.inl ⟨x, rfl, by omega, by omega, by rw [e], by rw [e]; exact h3⟩)
    | @byte b => exact .inr (.inr (.inl ⟨b, rfl, rfl, rfl⟩))
    | @int n x h1 h2 h3 =>
      have e : (BitVec.ofNat 8 (0x40 + n)).toNat = 0x40 + n := by rw [BitVec.toNat_ofNat]; omega
      exact .inr (.inr (.inr (.inl ⟨n, x, rfl, e, h1, rfl, h2, h3⟩)))
    | @bigUint n x h1 h2 h3 =>
      have e : (BitVec.ofNat 8 n).toNat = n := by rw [BitVec.toNat_ofNat]; omega
      exact .inr (.inr (.inr (.inr (.inl ⟨x, rfl, by omega, by omega, by rw [e], by rw [e]; exact h3⟩))))
    | bigInt h1 h2 => exact .inr (.inr (.inr (.inr (.inr ⟨_, rfl, rfl, rfl, h1, h2⟩))))
  intro v v' bs bs' r r' h h' e
  rcases inv h with ⟨rfl, rfl, hc⟩ | ⟨x, rfl, h1, h2, rfl, h3⟩ | ⟨b, rfl, hc, rfl⟩ | ⟨n, x, rfl, hc, hn, rfl, h2, h3⟩ |
      ⟨x, rfl, h1, h2, rfl, h3⟩ | ⟨x, rfl, hc, rfl, h2, h3⟩ <;>
  rcases inv h' with ⟨rfl, rfl, hc'⟩ | ⟨y, rfl, h1', h2', rfl, h3'⟩ | ⟨b', rfl, hc', rfl⟩ |
      ⟨n', y, rfl, hc', hn', rfl, h2', h3'⟩ | ⟨y, rfl, h1', h2', rfl, h3'⟩ | ⟨y, rfl, hc', rfl, h2', h3'⟩ <;>
  try (exfalso; omega)
  · exact ⟨rfl, rfl⟩
  · obtain ⟨e1, -⟩ := append_inj_of_length e (by simp)
    have := BitVec.eq_of_toNat_eq (le_inj h3 h3' e1)
    subst this
    exact ⟨rfl, rfl⟩
  · cases e
    exact ⟨rfl, rfl⟩
  · obtain rfl : n = n' := by omega
    obtain ⟨e1, -⟩ := append_inj_of_length e (by simp)
    have := signExtend_le hn h2 h3
    rw [le_eq_mod e1, signExtend_le hn h2' h3'] at this
    subst this
    exact ⟨rfl, rfl⟩
  · obtain ⟨e1, -⟩ := append_inj_of_length e (by simp)
    have := BitVec.eq_of_toNat_eq (le_inj h3 h3' e1)
    subst this
    exact ⟨rfl, rfl⟩
  · obtain ⟨e1, -⟩ := append_inj_of_length e (by simp)
    have := i128_inj (w := 896) h2 h3 h2' h3' (le_eq_mod e1)
    subst this
    exact ⟨rfl, rfl⟩

theorem writes_prefix {H : Hash} : ∀ (q : RTy), (∀ p, q.Contains p → (p.img H).WF) → Prefixless q.Writes := by
  refine RTy.induct fun q ih hall v v' bs bs' r r' h h' e => ?_
  have ih : ∀ p ∈ q.parts, Prefixless p.Writes := fun p hp => ih p hp fun s hs => hall s (.step hp hs)
  have text : ∀ {sz : Sizing} {s s' : Bytes}, sz.Allows s.length → sz.Allows s'.length →
      lenPrefix sz s.length ++ s ++ r = lenPrefix sz s'.length ++ s' ++ r' → s = s' := by
    intro sz s s' hs hs' e
    rw [List.append_assoc, List.append_assoc] at e
    obtain ⟨hl, e⟩ := lenPrefix_inj hs hs' e
    exact (append_inj_of_length e hl).1
  have items : ∀ {t : RTy} {l l' : List Val} {m m' : List Bytes}, t ∈ q.parts → All2 t.Writes l m →
      All2 t.Writes l' m' → l.length = l'.length → ∀ {r r' : Bytes}, m.flatten ++ r = m'.flatten ++ r' → l = l' ∧ m = m' := by
    intro t l l' m m' ht ha ha' hl r r' e
    have := all2_prefix (f := id) (fun a a' b b' r r' => ih t ht a a' b b' r r') ha ha' hl r r' (by simpa using e)
    exact this
  cases q with
  | prim c => exact prim_prefix c v v' bs bs' r r' h h' e
  | unicode sz =>
    obtain ⟨s, rfl, -, hl, rfl⟩ := h
    obtain ⟨s', rfl, -, hl', rfl⟩ := h'
    rw [text hl hl' e]
    exact ⟨rfl, rfl⟩
  | rstring c c1 sz =>
    obtain ⟨s, rfl, -, -, hl, rfl⟩ := h
    obtain ⟨s', rfl, -, -, hl', rfl⟩ := h'
    rw [text hl hl' e]
    exact ⟨rfl, rfl⟩
  | array t len =>
    simp only [RTy.Writes] at h h'
    split at h
    · rename_i hb
      rw [if_pos hb] at h'
      have := (append_inj_of_length e (h.2.trans h'.2.symm)).1
      rw [h.1, h'.1, this]
      exact ⟨rfl, rfl⟩
    · rename_i hb
      rw [if_neg hb] at h'
      obtain ⟨l, bss, rfl, ha, hl, rfl⟩ := h
      obtain ⟨l', bss', rfl, ha', hl', rfl⟩ := h'
      obtain ⟨rfl, rfl⟩ := items (by simp [RTy.parts]) ha ha' (hl.trans hl'.symm) e
      exact ⟨rfl, rfl⟩
  | list t sz =>
    simp only [RTy.Writes] at h h'
    split at h
    · rename_i hb
      rw [if_pos hb] at h'
      obtain ⟨b, rfl, hl, rfl⟩ := h
      obtain ⟨b', rfl, hl', rfl⟩ := h'
      rw [text hl hl' e]
      exact ⟨rfl, rfl⟩
    · rename_i hb
      rw [if_neg hb] at h'
      split at h
      · rename_i hl
        rw [if_pos hl] at h'
        obtain ⟨b, rfl, -, hl, rfl⟩ := h
        obtain ⟨b', rfl, -, hl', rfl⟩ := h'
        rw [text hl hl' e]
        exact ⟨rfl, rfl⟩
      · rename_i hl
        rw [if_neg hl] at h'
        obtain ⟨l, bss, rfl, ha, hl, rfl⟩ := h
        obtain ⟨l', bss', rfl, ha', hl', rfl⟩ := h'
        rw [List.append_assoc, List.append_assoc] at e
        obtain ⟨hlen, e⟩ := lenPrefix_inj hl hl' e
        obtain ⟨rfl, rfl⟩ := items (by simp [RTy.parts]) ha ha' hlen e
        exact ⟨rfl, rfl⟩
  | set t sz =>
    obtain ⟨l, bss, rfl, ha, hl, rfl⟩ := h
    obtain ⟨l', bss', rfl, ha', hl', rfl⟩ := h'
    rw [List.append_assoc, List.append_assoc] at e
    obtain ⟨hlen, e⟩ := lenPrefix_inj hl hl' e
    obtain ⟨rfl, rfl⟩ := items (by simp [RTy.parts]) ha ha' hlen e
    exact ⟨rfl, rfl⟩
  | map k t sz =>
    obtain ⟨l, bss, rfl, ha, hl, rfl⟩ := h
    obtain ⟨l', bss', rfl, ha', hl', rfl⟩ := h'
    rw [List.append_assoc, List.append_assoc] at e
    obtain ⟨hlen, e⟩ := lenPrefix_inj hl hl' e
    obtain ⟨rfl, rfl⟩ := all2_prefix (f := fun q : Bytes × Bytes => q.1 ++ q.2) (fun a a' b b' r r' h h' e => by
      rw [List.append_assoc, List.append_assoc] at e
      obtain ⟨e1, e2⟩ := ih k (by simp [RTy.parts]) _ _ _ _ _ _ h.1 h'.1 e
      rw [e2] at e
      obtain ⟨e3, e4⟩ := ih t (by simp [RTy.parts]) _ _ _ _ _ _ h.2 h'.2 (List.append_cancel_left e)
      exact ⟨Prod.ext e1 e3, Prod.ext e2 e4⟩) ha ha' hlen r r' e
    exact ⟨rfl, rfl⟩
  | record lib name isTuple fs =>
    have ih' : ∀ f ∈ fs, Prefixless f.2.Writes := fun f hf => ih f.2 (List.mem_map_of_mem hf)
    simp only [RTy.Writes] at h h'
    split at h
    · rename_i he
      rw [if_pos he] at h'
      rw [h.1, h'.1, h.2, h'.2]
      exact ⟨rfl, rfl⟩
    · rename_i he
      rw [if_neg he] at h'
      split at h
      · rename_i hi
        rw [if_pos hi] at h'
        obtain ⟨l, rfl, hw⟩ := h
        obtain ⟨l', rfl, hw'⟩ := h'
        obtain ⟨rfl, rfl⟩ := fields_prefix ih' hw hw' r r' e
        exact ⟨rfl, rfl⟩
      · rename_i hi
        rw [if_neg hi] at h'
        obtain ⟨l, rfl, hw⟩ := h
        obtain ⟨l', rfl, hw'⟩ := h'
        obtain ⟨rfl, rfl⟩ := fields_prefix ih' hw hw' r r' e
        exact ⟨rfl, rfl⟩
  | enum lib name vs =>
    obtain ⟨x, hx, rfl, rfl⟩ := h
    obtain ⟨y, hy, rfl, rfl⟩ := h'
    have hwf := hall _ (.refl _)
    rw [RTy.img_enum] at hwf
    have hwf : VariantsWF (byTag Variant.tag vs) := hwf
    simp only [List.cons_append, List.cons.injEq] at e
    have h1 := (enumNameByTag_iff hwf x.name x.tag).mpr (mem_byTag.mpr hx)
    have h2 := (enumNameByTag_iff hwf y.name y.tag).mpr (mem_byTag.mpr hy)
    rw [e.1, h2, Option.some.injEq] at h1
    rw [h1, e.1]
    exact ⟨rfl, rfl⟩
  | union lib name vs w =>
    obtain ⟨x, hx, u, b, rfl, rfl, hu⟩ := WritesVariants_iff.mp h
    obtain ⟨y, hy, u', b', rfl, rfl, hu'⟩ := WritesVariants_iff.mp h'
    have hwf := hall _ (.refl _)
    rw [RTy.img_union] at hwf
    have hwf : VariantsWF _ := hwf
    rw [List.map_map] at hwf
    have hn : ((byTag (fun v => v.1.tag) vs).map fun v => v.1.tag).Nodup := by
      have := hwf.2.2.1
      rw [List.pairwise_map] at this
      exact List.pairwise_map.mpr (this.imp fun h => by first | exact h | (intro e; simp [e] at h))
    simp only [List.cons_append, List.cons.injEq] at e
    have := nodup_map_inj hn (mem_byTag.mpr hx) (mem_byTag.mpr hy) e.1
    subst this
    obtain ⟨rfl, rfl⟩ := ih x.2 (List.mem_map_of_mem hx) _ _ _ _ _ _ hu hu' e.2
    exact ⟨rfl, rfl⟩

end Verif
