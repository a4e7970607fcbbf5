import Verif.Spec.Attained
import Verif.Lemmas.Confined

/-! # Lemmas on values with data of the largest length -/

namespace Verif

variable {E : Env}

/-- The largest or the least number. -/
def pick (top : Bool) (lo hi : Nat) : Nat := if top then hi else lo

theorem pick_self (top : Bool) (n : Nat) : pick top n n = n := by cases top <;> rfl

theorem pick_add (top : Bool) (a lo hi : Nat) : pick top (a + lo) (a + hi) = a + pick top lo hi := by cases top <;> rfl

theorem pick_mul (top : Bool) (a lo hi : Nat) : pick top (a * lo) (a * hi) = a * pick top lo hi := by cases top <;> rfl

theorem pick_mul' (top : Bool) (a b lo hi : Nat) : pick top (a * lo) (b * hi) = pick top a b * pick top lo hi := by cases top <;> rfl

/-- There is a value with data of the largest or the least length. -/
def Attains (E : Env) (n : Nat) (top : Bool) (id : SemId) (lo hi : Nat) : Prop :=
  ∃ v c, HasTyN E true n v id ∧ WireN E n v id c ∧ c.length = pick top lo hi

theorem all2_replicate {α β : Type} {R : α → β → Prop} {a : α} {b : β} (h : R a b) : ∀ k, All2 R (List.replicate k a) (List.replicate k b)
  | 0 => trivial
  | k + 1 => ⟨h, all2_replicate h k⟩

theorem flatten_replicate {c : Bytes} : ∀ k, (List.replicate k c).flatten.length = k * c.length
  | 0 => by simp
  | k + 1 => by simp [List.replicate_succ, flatten_replicate k, Nat.add_mul]; omega

theorem all3_attain {β : Type} {f : β → SemId} {R : SemId → Nat → Nat → Prop} {n : Nat} {top : Bool}
    (h : ∀ b lo hi, R (f b) lo hi → Attains E n top (f b) lo hi) :
    ∀ {l : List β} {los his : List Nat}, All3 (fun b => R (f b)) l los his →
    ∃ (vs : List Val) (bss : List Bytes), vs.length = l.length ∧ All2 (fun v b => HasTyN E true n v (f b)) vs l ∧
      All3 (fun v b c => WireN E n v (f b) c) vs l bss ∧ bss.flatten.length = pick top los.sum his.sum
  | [], [], [], _ => ⟨[], [], rfl, trivial, trivial, by cases top <;> rfl⟩
  | b :: l, lo :: los, hi :: his, ha => by
    obtain ⟨v, c, h1, h2, h3⟩ := h b lo hi ha.1
    obtain ⟨vs, bss, h4, h5, h6, h7⟩ := all3_attain h ha.2
    refine ⟨v :: vs, c :: bss, by simp [h4], ⟨h1, h5⟩, ⟨h2, h6⟩, ?_⟩
    simp only [List.flatten_cons, List.length_append, h3, h7, List.sum_cons]
    cases top <;> rfl

theorem tally_exists {max n : Nat} (h : n ≤ max) (hm : max < 2 ^ 64) : ∃ pre, Tally max n pre := by
  have hlt : n < 256 ^ prefixWidth max := sizeOk_lt (strict := true) (min := 0) hm ⟨Nat.zero_le _, h⟩
  exact ⟨le (prefixWidth max) n, le_length _ _, number_le hlt⟩

theorem ascii_text (k : Nat) : Utf8 (List.replicate k 65) := by
  refine ⟨List.replicate k 65, fun c hc => ?_, ?_⟩
  · rw [List.eq_of_mem_replicate hc]; simp [Scalar]
  · induction k with
    | zero => rfl
    | succ k ih => rw [List.replicate_succ, List.replicate_succ, List.flatMap_cons, ← ih]; rfl

theorem number_zero : ∀ k, Number (List.replicate k 0) 0
  | 0 => .nil
  | k + 1 => .cons (b := 0) (number_zero k)

theorem attain_prim {T : Val → SemId → Prop} {R : Val → SemId → Bytes → Prop} {p : Byte} (hp : p ≠ Ty.UNIT_CODE) (hf : p.toNat < 0x80) :
    ∃ v c, Inhabits E true T v (.primitive p) ∧ Coded E R v (.primitive p) c ∧ c.length = E.primSize p := by
  have hc : (List.replicate (E.primSize p) (0 : Byte)).length = E.primSize p := List.length_replicate
  have hz := number_zero (E.primSize p)
  have hn : p.toNat ≠ 0 := fun h => hp (BitVec.eq_of_toNat_eq h)
  have h2 : ∀ k, (0 : Int) < 2 ^ k := fun k => Int.pow_pos (by decide)
  have h2' : ∀ k, -(2 : Int) ^ k ≤ 0 := fun k => by have := h2 k; omega
  by_cases h1 : p.toNat ≤ 8
  · have e : p = BitVec.ofNat 8 p.toNat := by simp
    refine ⟨.num (.uint 0), _, ?_, .uint hc hz, hc⟩
    rw [e]
    exact .uint (by omega) h1 (Nat.pow_pos (by decide))
  by_cases h3 : p.toNat < 0x40
  · refine ⟨.num (.bigUint 0#1024), _, .bigUint (by omega) h3 ?_, .bigUint hc ?_, hc⟩
    · rw [BitVec.toNat_ofNat, Nat.zero_mod]; exact Nat.pow_pos (by decide)
    · rw [BitVec.toNat_ofNat, Nat.zero_mod]; exact hz
  by_cases h4 : p.toNat = 0x40
  · have e : p = Ty.BYTE_CODE := BitVec.eq_of_toNat_eq h4
    subst e
    exact ⟨.num (.uint 0), _, .byte (by decide), .uint hc hz, hc⟩
  by_cases h5 : p.toNat ≤ 0x48
  · have e : p = BitVec.ofNat 8 (0x40 + (p.toNat - 0x40)) := by
      rw [show 0x40 + (p.toNat - 0x40) = p.toNat by omega]; simp
    refine ⟨.num (.int 0), _, ?_, .int hc hz (by simp), hc⟩
    rw [e]
    exact .int (by omega) (by omega) (h2' _) (h2 _)
  · refine ⟨.num (.bigInt 0#1024), _, .bigInt (by omega) hf ?_ ?_, .bigInt hc hz ?_, hc⟩
    · rw [BitVec.toInt_zero]; exact h2' _
    · rw [BitVec.toInt_zero]; exact h2 _
    · rw [BitVec.toInt_zero]; simp

theorem span_byte {n : Nat} {i : SemId} {lo hi : Nat} (hs : E.Sane) (hb : i.isByte E.H = true) (h : SpanN E true n i lo hi) :
    lo = 1 ∧ hi = 1 := by
  cases n with
  | zero => exact h.elim
  | succ n =>
    obtain ⟨t, hf, h⟩ := h
    rcases hs.byte _ _ hb hf with rfl | rfl
    · obtain ⟨rfl, rfl⟩ := spans_prim (by decide) h
      exact ⟨hs.sizeB, hs.sizeB⟩
    · obtain ⟨rfl, rfl⟩ := spans_prim (by decide) h
      exact ⟨hs.sizes 1 (by decide) (by decide), hs.sizes 1 (by decide) (by decide)⟩

theorem span_enum {n : Nat} {i : SemId} {vs : List Variant} {lo hi : Nat} (hf : E.find i = some (.enum vs))
    (h : SpanN E true n i lo hi) : lo = 1 ∧ hi = 1 := by
  cases n with
  | zero => exact h.elim
  | succ n =>
    obtain ⟨t, hf', h⟩ := h
    rw [hf] at hf'
    cases hf'
    cases h
    exact ⟨rfl, rfl⟩

theorem enum_letter {i : SemId} {vs : List Variant} (hs : E.Sane) (hf : E.find i = some (.enum vs)) : ∃ v ∈ vs, True := by
  have h := hs.wf _ _ hf
  cases vs with
  | nil => exact absurd h (by simp [Ty.WF, VariantsWF])
  | cons v vs => exact ⟨v, by simp, trivial⟩

theorem zip_fields {n : Nat} : ∀ {vs : List Val} {req : List (Name × SemId)},
    All2 (fun v (r : Name × SemId) => HasTyN E true n v r.2) vs req →
    All2 (fun f r => f.1 = r.1 ∧ HasTyN E true n f.2 r.2) ((req.map Prod.fst).zip vs) req ∧
    ∀ {bss}, All3 (fun v (r : Name × SemId) c => WireN E n v r.2 c) vs req bss →
      All3 (fun f r bs => f.1 = r.1 ∧ WireN E n f.2 r.2 bs) ((req.map Prod.fst).zip vs) req bss
  | [], [], _ => ⟨trivial, fun {bss} h => by cases bss <;> exact h⟩
  | v :: vs, r :: req, h => by
    obtain ⟨h1, h2⟩ := zip_fields h.2
    refine ⟨⟨⟨rfl, h.1⟩, h1⟩, fun {bss} hw => ?_⟩
    cases bss with
    | nil => exact hw.elim
    | cons c bss => exact ⟨⟨rfl, hw.1⟩, h2 hw.2⟩

theorem attained (hs : E.Sane) (hb : E.BoundedTails) (hE : E.Fillable) (top : Bool) : ∀ {n : Nat} {id : SemId} {lo hi : Nat},
    SpanN E true n id lo hi → Attains E n top id lo hi
  | 0, _, _, _, h => h.elim
  | n + 1, id, lo, hi, h => by
    obtain ⟨t, hf, h⟩ := h
    have ih : ∀ {i lo hi}, SpanN E true n i lo hi → Attains E n top i lo hi := fun h => attained hs hb hE top h
    have hfill := hE _ _ hf
    suffices hx : ∃ v c, Inhabits E true (HasTyN E true n) v t ∧ Coded E (WireN E n) v t c ∧ c.length = pick top lo hi by
      obtain ⟨v, c, h1, h2, h3⟩ := hx
      exact ⟨v, c, ⟨t, hf, h1⟩, ⟨t, hf, h2⟩, h3⟩
    cases h with
    | unit => exact ⟨.unit, [], .unit, .unit, (pick_self _ _).symm⟩
    | primitive hp =>
      obtain ⟨v, c, h1, h2, h3⟩ := attain_prim (E := E) hp hfill
      exact ⟨v, c, h1, h2, by rw [h3, pick_self]⟩
    | char =>
      cases top with
      | true => exact ⟨.str [0xF0, 0x90, 0x80, 0x80], _, .unicodeChar (c := 0x10000) ⟨by simp [Scalar], rfl⟩, .char, rfl⟩
      | false => exact ⟨.str [65], _, .unicodeChar (c := 65) ⟨by simp [Scalar], rfl⟩, .char, rfl⟩
    | enum =>
      obtain ⟨v, hv, -⟩ := enum_letter hs hf
      exact ⟨.enum (.name v.name), [v.tag], .enum hv, .enum hv, (pick_self _ _).symm⟩
    | union hall hlo hhi =>
      rename_i vs lo hi
      have : ∃ p ∈ vs, ∃ v c, HasTyN E true n v p.2 ∧ WireN E n v p.2 c ∧ c.length = pick top lo hi := by
        cases top with
        | true =>
          obtain ⟨p, hp, a, hr⟩ := hhi
          obtain ⟨v, c, h1, h2, h3⟩ := ih hr
          exact ⟨p, hp, v, c, h1, h2, h3⟩
        | false =>
          obtain ⟨p, hp, a, hr⟩ := hlo
          obtain ⟨v, c, h1, h2, h3⟩ := ih hr
          exact ⟨p, hp, v, c, h1, h2, h3⟩
      obtain ⟨⟨⟨m, t⟩, i⟩, hp, v, c, h1, h2, h3⟩ := this
      exact ⟨.union (.name m) v, t :: c, .union hp h1, .union hp h2, by rw [pick_add, List.length_cons, h3]; omega⟩
    | tuple hn ha =>
      obtain ⟨vs, bss, -, h1, h2, h3⟩ := all3_attain (f := fun i => i) (fun _ _ _ h => ih h) ha
      exact ⟨.tuple vs, _, .tuple hn h1, .tuple h2, h3⟩
    | rstring hr =>
      rename_i ids A C sz
      obtain ⟨a, b, c, rfl, ha, hA, hbf, hc, hC⟩ := (show E.RString _ _ _ _ from hr)
      obtain ⟨x, hx, -⟩ := enum_letter hs ha
      obtain ⟨y, hy, -⟩ := enum_letter hs hc
      obtain ⟨hmm, -⟩ := hE _ _ hbf
      have hbt := hb _ _ _ _ _ hf hr
      obtain ⟨k, hk⟩ : ∃ k, k = pick top sz.min.toNat sz.max.toNat := ⟨_, rfl⟩
      have hk' : sz.min.toNat ≤ k ∧ k ≤ sz.max.toNat := by cases top <;> simp [pick] at hk <;> omega
      have hl : (x.tag :: List.replicate k y.tag).length = k + 1 := by simp
      obtain ⟨pre, hpre⟩ := tally_exists (max := sz.max.toNat + 1) (n := (x.tag :: List.replicate k y.tag).length) (by omega) (by omega)
      refine ⟨.str (x.tag :: List.replicate k y.tag), _, .rstring hr ⟨x, hx, rfl⟩ (fun b hb => ?_) ⟨?_, ?_⟩, .rstring hr hpre, ?_⟩
      · rw [List.eq_of_mem_replicate hb]; exact ⟨y, hy, rfl⟩
      · simp only [List.length_replicate]; omega
      · simp only [List.length_replicate]; omega
      · rw [List.length_append, hpre.1, hl, pick_add, hk]
        cases top <;> simp [pick, leastItems, mostItems]
    | struct ha =>
      rename_i req los his
      obtain ⟨vs, bss, hl, h1, h2, h3⟩ := all3_attain (f := fun r : Name × SemId => r.2) (fun _ _ _ h => ih h) ha
      refine ⟨.struct ((req.map Prod.fst).zip vs), _, .struct (zip_fields h1).1, .struct ((zip_fields h1).2 h2), h3⟩
    | array hr =>
      rename_i i len lo hi
      obtain ⟨v, c, h1, h2, h3⟩ := ih hr
      cases hb : i.isByte E.H with
      | true =>
        obtain ⟨rfl, rfl⟩ := span_byte hs hb hr
        exact ⟨.bytes (List.replicate len.toNat 0), _, .byteArray hb (by simp), .byteArray, by simp [pick_self]⟩
      | false =>
        refine ⟨.list (List.replicate len.toNat v), _, .array hb (by simp) (fun w hw => ?_), .array (all2_replicate (R := fun v bs => WireN E n v i bs) h2 len.toNat), ?_⟩
        · rw [List.eq_of_mem_replicate hw]; exact h1
        · rw [flatten_replicate, h3, pick_mul]
    | text hb hu =>
      rename_i i sz
      obtain ⟨hmm, hmem⟩ := hfill
      obtain ⟨k, hk⟩ : ∃ k, k = pick top sz.min.toNat sz.max.toNat := ⟨_, rfl⟩
      have hk' : sz.min.toNat ≤ k ∧ k ≤ sz.max.toNat := by cases top <;> simp [pick] at hk <;> omega
      obtain ⟨pre, hpre⟩ := tally_exists (max := sz.max.toNat) (n := (List.replicate k (65 : Byte)).length)
        (by simp only [List.length_replicate]; omega) sz.max.isLt
      refine ⟨.str (List.replicate k 65), _, .unicodeList hb hu (ascii_text k) ⟨?_, ?_⟩, .text hpre, ?_⟩
      · simp only [List.length_replicate]; omega
      · simp only [List.length_replicate]; omega
      · rw [List.length_append, hpre.1, List.length_replicate, pick_add, hk]
        cases top <;> simp [pick, leastItems, mostItems]
    | list ho hr =>
      rename_i i sz lo hi
      obtain ⟨hmm, hmem⟩ := hfill
      obtain ⟨k, hk⟩ : ∃ k, k = pick top sz.min.toNat sz.max.toNat := ⟨_, rfl⟩
      have hk' : sz.min.toNat ≤ k ∧ k ≤ sz.max.toNat := by cases top <;> simp [pick] at hk <;> omega
      obtain ⟨pre, hpre⟩ := tally_exists (max := sz.max.toNat) (n := k) (by omega) sz.max.isLt
      have hlen : ∀ (bs : Bytes) (m : Nat), bs.length = k * m → m = pick top lo hi →
          (pre ++ bs).length = pick top (prefixWidth sz.max.toNat + leastItems true sz.min.toNat * lo)
            (prefixWidth sz.max.toNat + mostItems true sz.max.toNat * hi) := fun bs m h1 h2 => by
        rw [List.length_append, hpre.1, h1, h2, pick_add, hk]
        cases top <;> simp [pick, leastItems, mostItems]
      cases hb : i.isByte E.H with
      | true =>
        obtain ⟨rfl, rfl⟩ := span_byte hs hb hr
        refine ⟨.bytes (List.replicate k 0), _, .byteList hb ⟨?_, ?_⟩, .bytes (pre := pre) (by simpa using hpre), hlen _ 1 (by simp) (by cases top <;> rfl)⟩
        · simp only [List.length_replicate]; omega
        · simp only [List.length_replicate]; omega
      | false =>
        have hu : i.isUnicodeChar E.H = false := by simpa [hb] using ho
        by_cases hC : ∃ C, E.CharEnum i C
        · obtain ⟨C, hC⟩ := hC
          obtain ⟨y, hy, -⟩ := enum_letter hs hC.1
          obtain ⟨rfl, rfl⟩ := span_enum hC.1 hr
          refine ⟨.str (List.replicate k y.tag), _, .asciiList hC (fun b hb => ?_) ⟨?_, ?_⟩, .text (pre := pre) (by simpa using hpre), hlen _ 1 (by simp) (by cases top <;> rfl)⟩
          · rw [List.eq_of_mem_replicate hb]; exact ⟨y, hy, rfl⟩
          · simp only [List.length_replicate]; omega
          · simp only [List.length_replicate]; omega
        · obtain ⟨v, c, h1, h2, h3⟩ := ih hr
          refine ⟨.list (List.replicate k v), _, .list hb hu (fun C h => hC ⟨C, h⟩) ?_ ⟨?_, ?_⟩ (fun w hw => ?_),
            .list (pre := pre) (by simpa using hpre) (all2_replicate (R := fun v bs => WireN E n v i bs) h2 k), hlen _ c.length (flatten_replicate k) h3⟩
          · simp only [List.length_replicate]
            exact Nat.lt_of_le_of_lt (Nat.mul_le_mul_right _ hk'.2) hmem
          · simp only [List.length_replicate]; omega
          · simp only [List.length_replicate]; omega
          · rw [List.eq_of_mem_replicate hw]; exact h1
    | set => exact hfill.elim
    | map => exact hfill.elim

end Verif
