import Verif.Spec.Confined
import Verif.Lemmas.Wire

/-! # Lemmas on the length of data -/

namespace Verif

variable {E : Env}

theorem sizeOk_items {strict : Bool} {min max n : Nat} (h : SizeOk strict min max n) :
    leastItems strict min ≤ n ∧ n ≤ mostItems strict max := by
  unfold SizeOk at h
  unfold leastItems mostItems
  cases strict with
  | true => exact h
  | false =>
    have h' : n < 256 ^ prefixWidth max := h
    exact ⟨Nat.zero_le _, by simp only [Bool.false_eq_true, if_false]; omega⟩

theorem flatten_between {l : List Bytes} {lo hi : Nat} (h : ∀ b ∈ l, lo ≤ b.length ∧ b.length ≤ hi) :
    l.length * lo ≤ l.flatten.length ∧ l.flatten.length ≤ l.length * hi := by
  induction l with
  | nil => simp
  | cons b l ih =>
    obtain ⟨h1, h2⟩ := h b (by simp)
    obtain ⟨h3, h4⟩ := ih fun c hc => h c (by simp [hc])
    simp only [List.length_cons, List.flatten_cons, List.length_append, Nat.add_mul, Nat.one_mul]
    omega

theorem All2.len {α β : Type} {R : α → β → Prop} : ∀ {l : List α} {m : List β}, All2 R l m → l.length = m.length
  | [], [], _ => rfl
  | _ :: _, _ :: _, h => by simp [All2.len h.2]
  | [], _ :: _, h => h.elim
  | _ :: _, [], h => h.elim

theorem All2.right {α β : Type} {R : α → β → Prop} {P : β → Prop} : ∀ {l : List α} {m : List β}, All2 R l m →
    (∀ a ∈ l, ∀ b, R a b → P b) → ∀ b ∈ m, P b
  | [], [], _, _, _, hb => nomatch hb
  | a :: l, b :: m, h, hP, c, hc => by
    rcases List.mem_cons.mp hc with rfl | hc
    · exact hP a (by simp) _ h.1
    · exact All2.right h.2 (fun a ha => hP a (by simp [ha])) c hc
  | [], _ :: _, h, _, _, _ => h.elim
  | _ :: _, [], h, _, _, _ => h.elim

/-- Parts one after the other. -/
theorem parts_between {α β : Type} {T : α → β → Prop} {W : α → β → Bytes → Prop} {R : β → Nat → Nat → Prop}
    (h : ∀ a b c lo hi, T a b → W a b c → R b lo hi → lo ≤ c.length ∧ c.length ≤ hi) :
    ∀ {l : List α} {ids : List β} {bss : List Bytes} {los his : List Nat}, All2 T l ids → All3 W l ids bss → All3 R ids los his →
      los.sum ≤ bss.flatten.length ∧ bss.flatten.length ≤ his.sum
  | [], [], [], [], [], _, _, _ => by simp
  | a :: l, i :: ids, c :: bss, lo :: los, hi :: his, ht, hw, hr => by
    obtain ⟨h1, h2⟩ := h a i c lo hi ht.1 hw.1 hr.1
    obtain ⟨h3, h4⟩ := parts_between h ht.2 hw.2 hr.2
    simp only [List.sum_cons, List.flatten_cons, List.length_append]
    omega
  | [], _ :: _, _, _, _, h, _, _ => h.elim
  | _ :: _, [], _, _, _, h, _, _ => h.elim
  | [], [], _ :: _, _, _, _, h, _ => h.elim
  | _ :: _, _ :: _, [], _, _, _, h, _ => h.elim
  | [], [], [], [], _ :: _, _, _, h => h.elim
  | [], [], [], _ :: _, _, _, _, h => h.elim
  | _ :: _, _ :: _, _ :: _, [], _, _, _, h => h.elim
  | _ :: _, _ :: _, _ :: _, _ :: _, [], _, _, h => h.elim

theorem utf8Char_length (c : Nat) : 1 ≤ (utf8Char c).length ∧ (utf8Char c).length ≤ 4 := by
  unfold utf8Char
  repeat' split
  all_goals simp

theorem counted {n k lo hi a b : Nat} (h1 : a ≤ n) (h2 : n ≤ b) (h3 : n * lo ≤ k) (h4 : k ≤ n * hi) : a * lo ≤ k ∧ k ≤ b * hi :=
  ⟨Nat.le_trans (Nat.mul_le_mul_right _ h1) h3, Nat.le_trans h4 (Nat.mul_le_mul_right _ h2)⟩

theorem spans_prim {strict : Bool} {R : SemId → Nat → Nat → Prop} {p : Byte} {lo hi : Nat} (hp : p ≠ Ty.UNIT_CODE)
    (h : Spans E strict R (.primitive p) lo hi) : lo = E.primSize p ∧ hi = E.primSize p := by
  generalize ht : Ty.primitive p = t at h
  cases h with
  | unit => exact absurd (Ty.primitive.inj ht) hp
  | primitive _ => cases ht; exact ⟨rfl, rfl⟩
  | _ => cases ht

theorem code_ne {n : Nat} (h : 1 ≤ n) (h' : n < 256) : BitVec.ofNat 8 n ≠ Ty.UNIT_CODE := by
  intro he
  have := congrArg BitVec.toNat he
  rw [BitVec.toNat_ofNat, Nat.mod_eq_of_lt h'] at this
  rw [this] at h
  exact absurd h (by decide)

theorem code_ne' {p : Byte} (h : 1 ≤ p.toNat) : p ≠ Ty.UNIT_CODE := fun he => absurd (he ▸ h) (by decide)

/-- One layer. `hB`, `hC`, `hU`: bytes, letters and unicode characters are counted as such. -/
theorem spans_layer {strict : Bool} {T : Val → SemId → Prop} {W : Val → SemId → Bytes → Prop} {R : SemId → Nat → Nat → Prop}
    (h : ∀ v i c lo hi, T v i → W v i c → R i lo hi → lo ≤ c.length ∧ c.length ≤ hi)
    (hB : ∀ i lo hi, i.isByte E.H = true → R i lo hi → lo ≤ 1 ∧ 1 ≤ hi)
    (hC : ∀ i C lo hi, E.CharEnum i C → R i lo hi → lo ≤ 1 ∧ 1 ≤ hi)
    (hU : ∀ i C, E.CharEnum i C → i.isUnicodeChar E.H = false)
    {v : Val} {t : Ty SemId} {c : Bytes} {lo hi : Nat} (hwf : t.WF) (ht : Inhabits E strict T v t) (hw : Coded E W v t c)
    (hr : Spans E strict R t lo hi) : lo ≤ c.length ∧ c.length ≤ hi := by
  have hbytes : ∀ {n a b lo hi : Nat}, a ≤ n ∧ n ≤ b → lo ≤ 1 ∧ 1 ≤ hi → a * lo ≤ n ∧ n ≤ b * hi := by
    intro n a b lo hi hn hi'
    exact counted hn.1 hn.2 (Nat.le_trans (Nat.mul_le_mul_left _ hi'.1) (by omega))
      (Nat.le_trans (by omega) (Nat.mul_le_mul_left _ hi'.2))
  have hitems : ∀ {l : List Val} {bss : List Bytes} {i : SemId} {lo hi : Nat}, (∀ v ∈ l, T v i) →
      All2 (fun v bs => W v i bs) l bss → R i lo hi → l.length * lo ≤ bss.flatten.length ∧ bss.flatten.length ≤ l.length * hi := by
    intro l bss i lo hi hl ha hr
    rw [All2.len ha]
    exact flatten_between (All2.right ha fun v hv c hw => h v i c lo hi (hl v hv) hw hr)
  cases ht with
  | unit => cases hw with
    | unit => cases hr with
      | unit => simp
      | primitive hp => exact absurd rfl hp
  | uint h1 h2 h3 => cases hw with
    | uint hl _ => have := spans_prim (code_ne h1 (by omega)) hr; omega
  | byte h1 => cases hw with
    | uint hl _ => cases hr; exact ⟨Nat.le_of_eq hl.symm, Nat.le_of_eq hl⟩
  | int h1 h2 h3 h4 => cases hw with
    | int hl _ _ => have := spans_prim (code_ne (by omega) (by omega)) hr; omega
  | bigUint h1 h2 h3 => cases hw with
    | bigUint hl _ => have := spans_prim (code_ne' (by omega)) hr; omega
  | bigInt h1 h2 h3 h4 => cases hw with
    | bigInt hl _ _ => have := spans_prim (code_ne' (by omega)) hr; omega
  | unicodeChar hx => cases hw with
    | char =>
      cases hr
      obtain ⟨_, rfl⟩ := hx
      simpa using utf8Char_length _
  | enum hx => cases hw with
    | enum _ => cases hr; simp
  | @union vs n t i v hx hv => cases hw with
    | @union _ _ t' i' _ _ hx' hw => cases hr with
      | union hr _ _ =>
        have h7 := (unionByName_iff hwf (⟨n, t⟩, i) n).mpr ⟨hx, rfl⟩
        rw [(unionByName_iff hwf (⟨n, t'⟩, i') n).mpr ⟨hx', rfl⟩] at h7
        cases h7
        obtain ⟨a, b, hr, h1, h2⟩ := hr _ hx
        have := h _ _ _ _ _ hv hw hr
        simp only [List.length_cons]
        omega
  | tuple hn ha => cases hw with
    | tuple hw => cases hr with
      | tuple _ hr => exact parts_between (fun a b c lo hi => h a b c lo hi) ha hw hr
      | rstring hr => exact absurd hr (hn _ _ _)
  | rstring hx hc hs hz => cases hw with
    | rstring hx' htl => cases hr with
      | tuple hn => exact absurd hx (hn _ _ _)
      | rstring hr =>
        obtain ⟨rfl, -, -⟩ := rstring_sizing hx hx'
        obtain ⟨rfl, -, -⟩ := rstring_sizing hx hr
        have := sizeOk_items hz
        rw [List.length_append, htl.1, List.length_cons]
        omega
  | rstringEmpty hx he => cases hw with
    | rstring hx' htl => cases hr with
      | tuple hn => exact absurd hx (hn _ _ _)
      | rstring hr =>
        obtain ⟨rfl, -, -⟩ := rstring_sizing hx hx'
        obtain ⟨rfl, -, -⟩ := rstring_sizing hx hr
        subst he
        rw [List.length_append, htl.1]
        simp [leastItems]
  | struct ha => cases hw with
    | struct hw => cases hr with
      | struct hr => exact parts_between (fun f r c lo hi h1 h2 h3 => h f.2 r.2 c lo hi h1.2 h2.2 h3) ha hw hr
  | byteArray hb hl => cases hw with
    | byteArray => cases hr with
      | array hr => rw [← hl]; exact hbytes ⟨Nat.le_refl _, Nat.le_refl _⟩ (hB _ _ _ hb hr)
  | array hb hl ha => cases hw with
    | array hw => cases hr with
      | array hr => rw [← hl]; exact hitems ha hw hr
  | asciiList hx hc hz => cases hw with
    | text htl => cases hr with
      | text _ hu => exact absurd (hU _ _ hx) (by simp [hu])
      | list _ hr =>
        have := hbytes (sizeOk_items hz) (hC _ _ _ _ hx hr)
        rw [List.length_append, htl.1]
        omega
  | byteList hb hz => cases hw with
    | bytes htl => cases hr with
      | text hn _ => exact absurd hb (by simp [hn])
      | list _ hr =>
        have := hbytes (sizeOk_items hz) (hB _ _ _ hb hr)
        rw [List.length_append, htl.1]
        omega
  | unicodeList hb hu hx hz => cases hw with
    | text htl => cases hr with
      | text _ _ =>
        have := sizeOk_items hz
        rw [List.length_append, htl.1]
        omega
      | list hn _ => rcases hn with hn | hn <;> simp_all
  | list hb hu _ _ hz ha => cases hw with
    | list htl hw => cases hr with
      | text _ hn => exact absurd hu (by simp [hn])
      | list _ hr =>
        obtain ⟨h1, h2⟩ := hitems ha hw hr
        have := counted (sizeOk_items hz).1 (sizeOk_items hz).2 h1 h2
        rw [List.length_append, htl.1]
        omega
  | set _ hz ha _ => cases hw with
    | set htl hw => cases hr with
      | set hr =>
        obtain ⟨h1, h2⟩ := hitems ha hw hr
        have := counted (sizeOk_items hz).1 (sizeOk_items hz).2 h1 h2
        rw [List.length_append, htl.1]
        omega
  | @map k i sz l _ hz ha _ => cases hw with
    | @map _ _ _ _ bss pre htl hw => cases hr with
      | @map _ _ _ lo hi lo' hi' hr hr' =>
        have hl : ∀ c ∈ bss.map fun b => b.1 ++ b.2, lo + lo' ≤ c.length ∧ c.length ≤ hi + hi' := by
          intro c hc
          obtain ⟨b, hb, rfl⟩ := List.mem_map.mp hc
          refine All2.right (P := fun b => lo + lo' ≤ (b.1 ++ b.2).length ∧ (b.1 ++ b.2).length ≤ hi + hi') hw
            (fun p hp b hw => ?_) b hb
          have h1 := h _ _ _ _ _ (ha p hp).1 hw.1 hr
          have h2 := h _ _ _ _ _ (ha p hp).2 hw.2 hr'
          rw [List.length_append]
          omega
        obtain ⟨h1, h2⟩ := flatten_between hl
        rw [List.length_map, ← All2.len hw] at h1 h2
        have := counted (sizeOk_items hz).1 (sizeOk_items hz).2 h1 h2
        rw [List.length_append, htl.1]
        omega

theorem span_wire {strict : Bool} (hs : E.Sane) : ∀ {n j k : Nat} {v : Val} {id : SemId} {c : Bytes} {lo hi : Nat},
    HasTyN E strict j v id → WireN E k v id c → SpanN E strict n id lo hi → lo ≤ c.length ∧ c.length ≤ hi
  | 0, _, _, _, _, _, _, _, _, _, h => h.elim
  | _ + 1, 0, _, _, _, _, _, _, h, _, _ => h.elim
  | _ + 1, _ + 1, 0, _, _, _, _, _, _, h, _ => h.elim
  | n + 1, j + 1, k + 1, v, id, c, lo, hi, ht, hw, hr => by
    obtain ⟨t, hf, ht⟩ := ht
    obtain ⟨t', hf', hw⟩ := hw
    cases hf.symm.trans hf'
    obtain ⟨t', hf', hr⟩ := hr
    cases hf.symm.trans hf'
    refine spans_layer (T := HasTyN E strict j) (W := WireN E k) (R := SpanN E strict n) (fun v i c lo hi h1 h2 h3 => span_wire hs h1 h2 h3) ?_ ?_ ?_ (hs.wf _ _ hf) ht hw hr
    · intro i lo hi hi' h
      cases n with
      | zero => exact h.elim
      | succ n =>
        obtain ⟨t, hf, h⟩ := h
        rcases hs.byte _ _ hi' hf with rfl | rfl
        · cases h
          rw [show E.primSize Ty.BYTE_CODE = 1 from hs.sizeB]
          omega
        · cases h
          have := hs.sizes 1 (by omega) (by omega)
          rw [show E.primSize Ty.U8_CODE = 1 from this]
          omega
    · intro i C lo hi hi' h
      cases n with
      | zero => exact h.elim
      | succ n =>
        obtain ⟨t, hf, h⟩ := h
        cases hf.symm.trans hi'.1
        cases h
        omega
    · intro i C hi'
      cases hu : i.isUnicodeChar E.H with
      | false => rfl
      | true => cases hs.unicode _ _ hu hi'.1

theorem all3_exists {β : Type} {R : β → Nat → Nat → Prop} : ∀ {l : List β}, (∀ b ∈ l, ∃ lo hi, R b lo hi) →
    ∃ los his, All3 R l los his
  | [], _ => ⟨[], [], trivial⟩
  | b :: l, h => by
    obtain ⟨lo, hi, hb⟩ := h b (by simp)
    obtain ⟨los, his, hl⟩ := all3_exists (l := l) fun c hc => h c (by simp [hc])
    exact ⟨lo :: los, hi :: his, hb, hl⟩

theorem extremes {β : Type} {R : β → Nat → Nat → Prop} : ∀ {l : List β}, l ≠ [] → (∀ b ∈ l, ∃ lo hi, R b lo hi) →
    ∃ lo hi, (∀ b ∈ l, ∃ x y, R b x y ∧ lo ≤ x ∧ y ≤ hi) ∧ (∃ b ∈ l, ∃ y, R b lo y) ∧ ∃ b ∈ l, ∃ x, R b x hi
  | [], hn, _ => absurd rfl hn
  | b :: l, _, h => by
    obtain ⟨lo, hi, hb⟩ := h b (by simp)
    by_cases hl : l = []
    · subst hl
      refine ⟨lo, hi, fun c hc => ?_, ⟨b, by simp, hi, hb⟩, b, by simp, lo, hb⟩
      rw [List.mem_singleton] at hc
      subst hc
      exact ⟨lo, hi, hb, Nat.le_refl _, Nat.le_refl _⟩
    · obtain ⟨lo', hi', hall, ⟨c, hc, y, hy⟩, d, hd, x, hx⟩ := extremes hl fun c hc => h c (by simp [hc])
      refine ⟨min lo lo', max hi hi', fun e he => ?_, ?_, ?_⟩
      · rcases List.mem_cons.mp he with rfl | he
        · exact ⟨lo, hi, hb, by omega, by omega⟩
        · obtain ⟨x, y, hr, h1, h2⟩ := hall e he
          exact ⟨x, y, hr, by omega, by omega⟩
      · by_cases hc' : lo ≤ lo'
        · exact ⟨b, by simp, hi, by rwa [Nat.min_eq_left hc']⟩
        · exact ⟨c, by simp [hc], y, by rwa [Nat.min_eq_right (by omega)]⟩
      · by_cases hc' : hi' ≤ hi
        · exact ⟨b, by simp, lo, by rwa [Nat.max_eq_left hc']⟩
        · exact ⟨d, by simp [hd], x, by rwa [Nat.max_eq_right (by omega)]⟩

theorem spans_exists {strict : Bool} {R : SemId → Nat → Nat → Prop} {t : Ty SemId} (hwf : t.WF)
    (h : ∀ r ∈ t.refs, ∃ lo hi, R r lo hi) : ∃ lo hi, Spans E strict R t lo hi := by
  cases t with
  | primitive p =>
    by_cases hp : p = Ty.UNIT_CODE
    · subst hp; exact ⟨_, _, .unit⟩
    · exact ⟨_, _, .primitive hp⟩
  | unicodeChar => exact ⟨_, _, .char⟩
  | enum vs => exact ⟨_, _, .enum⟩
  | union vs =>
    have hn : vs ≠ [] := by rintro rfl; exact absurd hwf (by simp [Ty.WF, VariantsWF])
    obtain ⟨lo, hi, h1, h2, h3⟩ := extremes (R := fun p : Variant × SemId => R p.2) hn
      fun p hp => h p.2 (List.mem_map.mpr ⟨p, hp, rfl⟩)
    exact ⟨_, _, .union h1 h2 h3⟩
  | tuple ids =>
    by_cases hr : ∃ A C sz, E.RString ids A C sz
    · obtain ⟨A, C, sz, hr⟩ := hr
      exact ⟨_, _, .rstring hr⟩
    · obtain ⟨los, his, ha⟩ := all3_exists h
      exact ⟨_, _, .tuple (fun A C sz hx => hr ⟨A, C, sz, hx⟩) ha⟩
  | struct req =>
    obtain ⟨los, his, ha⟩ := all3_exists (R := fun r : Name × SemId => R r.2) (l := req)
      fun r hr => h r.2 (List.mem_map.mpr ⟨r, hr, rfl⟩)
    exact ⟨_, _, .struct ha⟩
  | array i len => obtain ⟨lo, hi, hr⟩ := h i (by simp [Ty.refs]); exact ⟨_, _, .array hr⟩
  | list i len =>
    obtain ⟨lo, hi, hr⟩ := h i (by simp [Ty.refs])
    cases hb : i.isByte E.H with
    | true => exact ⟨_, _, .list (.inl hb) hr⟩
    | false =>
      cases hu : i.isUnicodeChar E.H with
      | true => exact ⟨_, _, .text hb hu⟩
      | false => exact ⟨_, _, .list (.inr hu) hr⟩
  | set i len => obtain ⟨lo, hi, hr⟩ := h i (by simp [Ty.refs]); exact ⟨_, _, .set hr⟩
  | map k i len =>
    obtain ⟨lo, hi, hr⟩ := h k (by simp [Ty.refs])
    obtain ⟨lo', hi', hr'⟩ := h i (by simp [Ty.refs])
    exact ⟨_, _, .map hr hr'⟩

theorem span_exists {strict : Bool} (hs : E.Sane) {rank : SemId → Nat}
    (hk : ∀ id t, E.find id = some t → ∀ r ∈ t.refs, rank r < rank id) : ∀ {n : Nat} {id : SemId} {t : Ty SemId},
    rank id < n → E.find id = some t → ∃ lo hi, SpanN E strict n id lo hi
  | 0, _, _, h, _ => by omega
  | n + 1, id, t, h, hf => by
    obtain ⟨lo, hi, hr⟩ := spans_exists (E := E) (strict := strict) (R := SpanN E strict n) (hs.wf _ _ hf) fun r hr => by
      obtain ⟨u, hu⟩ := hs.closed _ _ hf r hr
      have := hk _ _ hf r hr
      exact span_exists hs hk (by omega) hu
    exact ⟨lo, hi, t, hf, hr⟩

theorem all3_unique {β : Type} {R S : β → Nat → Nat → Prop} (h : ∀ b lo hi lo' hi', R b lo hi → S b lo' hi' → lo = lo' ∧ hi = hi') :
    ∀ {l : List β} {los his los' his' : List Nat}, All3 R l los his → All3 S l los' his' → los = los' ∧ his = his'
  | [], [], [], [], [], _, _ => ⟨rfl, rfl⟩
  | b :: l, lo :: los, hi :: his, lo' :: los', hi' :: his', h1, h2 => by
    obtain ⟨rfl, rfl⟩ := h b lo hi lo' hi' h1.1 h2.1
    obtain ⟨rfl, rfl⟩ := all3_unique h h1.2 h2.2
    exact ⟨rfl, rfl⟩
  | [], _ :: _, _, _, _, h, _ => h.elim
  | [], [], _ :: _, _, _, h, _ => h.elim
  | [], [], [], _ :: _, _, _, h => h.elim
  | [], [], [], [], _ :: _, _, h => h.elim
  | _ :: _, [], _, _, _, h, _ => h.elim
  | _ :: _, _ :: _, [], _, _, h, _ => h.elim
  | _ :: _, _ :: _, _ :: _, [], _, _, h => h.elim
  | _ :: _, _ :: _, _ :: _, _ :: _, [], _, h => h.elim

theorem spans_unique {strict : Bool} {R S : SemId → Nat → Nat → Prop}
    (h : ∀ b lo hi lo' hi', R b lo hi → S b lo' hi' → lo = lo' ∧ hi = hi') {t : Ty SemId} {lo hi lo' hi' : Nat}
    (h1 : Spans E strict R t lo hi) (h2 : Spans E strict S t lo' hi') : lo = lo' ∧ hi = hi' := by
  cases h1 with
  | unit => cases h2 with
    | unit => exact ⟨rfl, rfl⟩
    | primitive hp => exact absurd rfl hp
  | primitive hp => obtain ⟨rfl, rfl⟩ := spans_prim hp h2; exact ⟨rfl, rfl⟩
  | char => cases h2; exact ⟨rfl, rfl⟩
  | enum => cases h2; exact ⟨rfl, rfl⟩
  | union ha hl hh => cases h2 with
    | union ha' hl' hh' =>
      obtain ⟨p, hp, b, hb⟩ := hl
      obtain ⟨q, hq, c, hc⟩ := hl'
      obtain ⟨p', hp', b', hb'⟩ := hh
      obtain ⟨q', hq', c', hc'⟩ := hh'
      obtain ⟨_, _, k1, k2, _⟩ := ha' p hp
      obtain ⟨_, _, k3, k4, _⟩ := ha q hq
      obtain ⟨_, _, k5, _, k6⟩ := ha' p' hp'
      obtain ⟨_, _, k7, _, k8⟩ := ha q' hq'
      obtain ⟨rfl, _⟩ := h _ _ _ _ _ hb k1
      obtain ⟨rfl, _⟩ := h _ _ _ _ _ k3 hc
      obtain ⟨_, rfl⟩ := h _ _ _ _ _ hb' k5
      obtain ⟨_, rfl⟩ := h _ _ _ _ _ k7 hc'
      omega
  | tuple hn ha => cases h2 with
    | tuple _ ha' => obtain ⟨rfl, rfl⟩ := all3_unique h ha ha'; exact ⟨rfl, rfl⟩
    | rstring hr => exact absurd hr (hn _ _ _)
  | rstring hr => cases h2 with
    | tuple hn _ => exact absurd hr (hn _ _ _)
    | rstring hr' => obtain ⟨rfl, -, -⟩ := rstring_sizing hr hr'; exact ⟨rfl, rfl⟩
  | struct ha => cases h2 with
    | struct ha' => obtain ⟨rfl, rfl⟩ := all3_unique (fun (b : Name × SemId) => h b.2) ha ha'; exact ⟨rfl, rfl⟩
  | array hr => cases h2 with
    | array hr' => obtain ⟨rfl, rfl⟩ := h _ _ _ _ _ hr hr'; exact ⟨rfl, rfl⟩
  | text hb hu => cases h2 with
    | text _ _ => exact ⟨rfl, rfl⟩
    | list hn _ => rcases hn with hn | hn <;> simp_all
  | list hn hr => cases h2 with
    | text hb hu => rcases hn with hn | hn <;> simp_all
    | list _ hr' => obtain ⟨rfl, rfl⟩ := h _ _ _ _ _ hr hr'; exact ⟨rfl, rfl⟩
  | set hr => cases h2 with
    | set hr' => obtain ⟨rfl, rfl⟩ := h _ _ _ _ _ hr hr'; exact ⟨rfl, rfl⟩
  | map hk hr => cases h2 with
    | map hk' hr' =>
      obtain ⟨rfl, rfl⟩ := h _ _ _ _ _ hk hk'
      obtain ⟨rfl, rfl⟩ := h _ _ _ _ _ hr hr'
      exact ⟨rfl, rfl⟩

theorem span_unique {strict : Bool} : ∀ {n m : Nat} {id : SemId} {lo hi lo' hi' : Nat}, SpanN E strict n id lo hi →
    SpanN E strict m id lo' hi' → lo = lo' ∧ hi = hi'
  | 0, _, _, _, _, _, _, h, _ => h.elim
  | _ + 1, 0, _, _, _, _, _, _, h => h.elim
  | n + 1, m + 1, id, lo, hi, lo', hi', h1, h2 => by
    obtain ⟨t, hf, h1⟩ := h1
    obtain ⟨t', hf', h2⟩ := h2
    cases hf.symm.trans hf'
    exact spans_unique (R := SpanN E strict n) (S := SpanN E strict m) (fun _ _ _ _ _ h1 h2 => span_unique h1 h2) h1 h2

end Verif
