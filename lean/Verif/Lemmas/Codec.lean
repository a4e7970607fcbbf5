import Verif.Model.Codec
import Verif.Spec.Value
import Verif.Lemmas.Basic
import Verif.Lemmas.Ast
import Verif.Lemmas.Fuel

/-!
# Lemmas about serialisation and deserialisation of values
-/

namespace Verif

/-! ## Raw reading -/

theorem byteSize_eq (s : Sizing) : s.byteSize = prefixWidth s.max.toNat := by
  unfold Sizing.byteSize prefixWidth
  repeat' split
  all_goals first | rfl | omega

theorem lt_prefixWidth {m n : Nat} (hm : m ≤ n) (hn : n < 2 ^ 64) : m < 256 ^ prefixWidth n := by
  unfold prefixWidth
  split
  · omega
  · split
    · omega
    · split
      · omega
      · split <;> omega

theorem prefixWidth_mono {m n : Nat} (h : m ≤ n) : prefixWidth m ≤ prefixWidth n := by
  unfold prefixWidth
  repeat' split
  all_goals omega

theorem readRaw_append (s rest : Bytes) : readRaw s.length (s ++ rest) = .ok (s, rest) := by
  simp [readRaw]

theorem readRaw_ok {n : Nat} {bs b rest : Bytes} (h : readRaw n bs = .ok (b, rest)) :
    bs = b ++ rest ∧ b.length = n := by
  unfold readRaw at h
  split at h
  · cases h
    refine ⟨by simp, by simp; omega⟩
  · cases h

theorem readLe_append {w n : Nat} (h : n < 256 ^ w) (rest : Bytes) :
    readLe w (le w n ++ rest) = .ok (n, rest) := by
  have := readRaw_append (le w n) rest
  rw [le_length] at this
  simp [readLe, this, fromLe_le_of_lt h]

theorem readLe_ok {w n : Nat} {bs rest : Bytes} (h : readLe w bs = .ok (n, rest)) :
    bs = le w n ++ rest ∧ n < 256 ^ w := by
  obtain ⟨⟨b, r⟩, h1, h2⟩ := Out.bind_eq_ok.mp h
  obtain ⟨rfl, hl⟩ := readRaw_ok h1
  cases h2
  subst hl
  exact ⟨by rw [le_fromLe], fromLe_lt b⟩

theorem readAscii_append {w : Nat} {s : Bytes} (hl : s.length < 256 ^ w) (ha : isAscii s = true)
    (rest : Bytes) : readAscii w (le w s.length ++ s ++ rest) = .ok (.str s, rest) := by
  simp [readAscii, List.append_assoc, readLe_append hl, readRaw_append, ha]

theorem readString_append {w : Nat} {s : Bytes} (hl : s.length < 256 ^ w)
    (ha : utf8Valid s = true) (rest : Bytes) :
    readString w (le w s.length ++ s ++ rest) = .ok (.str s, rest) := by
  simp [readString, List.append_assoc, readLe_append hl, readRaw_append, ha]

theorem readBlob_append {w : Nat} {s : Bytes} (hl : s.length < 256 ^ w) (rest : Bytes) :
    readBlob w (le w s.length ++ s ++ rest) = .ok (.bytes s, rest) := by
  simp [readBlob, List.append_assoc, readLe_append hl, readRaw_append]

theorem readAscii_ok {w : Nat} {bs rest : Bytes} {v : Val} (h : readAscii w bs = .ok (v, rest)) :
    ∃ s, v = .str s ∧ bs = le w s.length ++ s ++ rest ∧ s.length < 256 ^ w ∧ isAscii s = true := by
  obtain ⟨⟨n, r⟩, h1, h2⟩ := Out.bind_eq_ok.mp h
  obtain ⟨rfl, hn⟩ := readLe_ok h1
  obtain ⟨⟨s, r'⟩, h3, h4⟩ := Out.bind_eq_ok.mp h2
  obtain ⟨e, hl⟩ := readRaw_ok h3
  dsimp only at e h4
  split at h4
  · rename_i ha
    cases h4
    subst hl
    exact ⟨s, rfl, by simp [e], hn, ha⟩
  · cases h4

theorem readString_ok {w : Nat} {bs rest : Bytes} {v : Val} (h : readString w bs = .ok (v, rest)) :
    ∃ s, v = .str s ∧ bs = le w s.length ++ s ++ rest ∧ s.length < 256 ^ w ∧
      utf8Valid s = true := by
  obtain ⟨⟨n, r⟩, h1, h2⟩ := Out.bind_eq_ok.mp h
  obtain ⟨rfl, hn⟩ := readLe_ok h1
  obtain ⟨⟨s, r'⟩, h3, h4⟩ := Out.bind_eq_ok.mp h2
  obtain ⟨e, hl⟩ := readRaw_ok h3
  dsimp only at e h4
  split at h4
  · rename_i ha
    cases h4
    subst hl
    exact ⟨s, rfl, by simp [e], hn, ha⟩
  · cases h4

theorem readBlob_ok {w : Nat} {bs rest : Bytes} {v : Val} (h : readBlob w bs = .ok (v, rest)) :
    ∃ s, v = .bytes s ∧ bs = le w s.length ++ s ++ rest ∧ s.length < 256 ^ w := by
  obtain ⟨⟨n, r⟩, h1, h2⟩ := Out.bind_eq_ok.mp h
  obtain ⟨rfl, hn⟩ := readLe_ok h1
  obtain ⟨⟨s, r'⟩, h3, h4⟩ := Out.bind_eq_ok.mp h2
  obtain ⟨e, hl⟩ := readRaw_ok h3
  dsimp only at e h4
  cases h4
  subst hl
  exact ⟨s, rfl, by simp [e], hn⟩

/-! ## Restricted strings -/

theorem isCharEnum_iff (t : Ty SemId) : t.isCharEnum = true ↔ ∃ vs, t = .enum vs ∧ CharVariants vs := by
  constructor
  · intro h
    cases t with
    | enum vs =>
      refine ⟨vs, rfl, fun v hv => ?_⟩
      simp only [Ty.isCharEnum, List.all_eq_true, Bool.and_eq_true, decide_eq_true_eq] at h
      exact h v hv
    | _ => simp [Ty.isCharEnum] at h
  · rintro ⟨vs, rfl, h⟩
    simp only [Ty.isCharEnum, List.all_eq_true, Bool.and_eq_true, decide_eq_true_eq]
    exact h

theorem rstringSizing_list {E : Env} {a b c : SemId} {l : List SemId} {sz : Sizing}
    (hb : E.find b = some (.list c sz))
    (hov : E.debug = false ∨ (sz.min.toNat < 2 ^ 64 - 1 ∧ sz.max.toNat < 2 ^ 64 - 1)) :
    E.rstringSizing (a :: b :: l) = .ok (some (c, ⟨sz.min + 1, sz.max + 1⟩)) := by
  have hov' : (E.debug && (sz.min == -1 || sz.max == -1)) = false := by
    rcases hov with h | ⟨h1, h2⟩
    · simp [h]
    · have h1 : (sz.min == -1) = false := by
        rw [beq_eq_false_iff_ne]
        intro h
        rw [h] at h1
        exact absurd h1 (by decide)
      have h2 : (sz.max == -1) = false := by
        rw [beq_eq_false_iff_ne]
        intro h
        rw [h] at h2
        exact absurd h2 (by decide)
      rw [h1, h2]
      simp
  simp only [Env.rstringSizing, List.getElem?_cons_succ, List.getElem?_cons_zero,
    Out.expect_some, Out.bind_ok, hb, hov']
  rfl

theorem isRString_true {E : Env} {ids : List SemId} {A C : List Variant} {sz : Sizing}
    (h : E.RString ids A C sz)
    (hov : E.debug = false ∨ (sz.min.toNat < 2 ^ 64 - 1 ∧ sz.max.toNat < 2 ^ 64 - 1)) :
    E.isRString ids = .ok true ∧
      ∃ c, E.rstringSizing ids = .ok (some (c, ⟨sz.min + 1, sz.max + 1⟩)) := by
  obtain ⟨a, b, c, rfl, ha, hA, hb, hc, hC⟩ := h
  have hr := rstringSizing_list (a := a) (l := []) hb hov
  refine ⟨?_, c, hr⟩
  have h1 := (isCharEnum_iff (.enum A)).mpr ⟨A, rfl, hA⟩
  have h2 := (isCharEnum_iff (.enum C)).mpr ⟨C, rfl, hC⟩
  simp [Env.isRString, hr, ha, hc, h1, h2]

/-- What a positive answer means (no assumption). -/
theorem rstring_of_isRString {E : Env} {ids : List SemId} (h : E.isRString ids = .ok true) :
    ∃ A C sz, E.RString ids A C sz ∧
      ∃ c, E.rstringSizing ids = .ok (some (c, ⟨sz.min + 1, sz.max + 1⟩)) := by
  unfold Env.isRString at h
  split at h
  · cases h
  · rename_i hl
    match ids, hl with
    | [a, b], _ =>
      simp only [List.getElem?_cons_zero, Out.expect_some, Out.bind_ok] at h
      obtain ⟨o, h1, h2⟩ := Out.bind_eq_ok.mp h
      cases o with
      | none => cases h2
      | some p =>
        obtain ⟨c, lim⟩ := p
        dsimp only at h2
        have h1' := h1
        simp only [Env.rstringSizing, List.getElem?_cons_succ, List.getElem?_cons_zero,
          Out.expect_some, Out.bind_ok] at h1'
        split at h1'
        · cases h1'
        · rename_i rest' sz hb
          split at h1'
          · cases h1'
          · cases h1'
            split at h2
            · cases h2
            · rename_i t ht
              split at h2
              · cases h2
              · rename_i hct
                split at h2
                · cases h2
                · rename_i u hu
                  cases hcu : u.isCharEnum with
                  | false => rw [hcu] at h2; cases h2
                  | true =>
                    obtain ⟨A, rfl, hA⟩ := (isCharEnum_iff t).mp (by simpa using hct)
                    obtain ⟨C, rfl, hC⟩ := (isCharEnum_iff u).mp hcu
                    exact ⟨A, C, sz, ⟨a, b, c, rfl, ht, hA, hb, hu, hC⟩, c, h1⟩
        · cases h1'
    | [], h => simp at h
    | [_], h => simp at h
    | _ :: _ :: _ :: _, h => simp at h

theorem isRString_false {E : Env} {ids : List SemId} (hn : ∀ A C sz, ¬ E.RString ids A C sz)
    (hcl : ∀ r ∈ ids, ∃ u, E.find r = some u)
    (hlist : ∀ a b, ids = [a, b] → ∀ c sz, E.find b = some (.list c sz) →
      (∃ u, E.find c = some u) ∧
      (E.debug = false ∨ (sz.min.toNat < 2 ^ 64 - 1 ∧ sz.max.toNat < 2 ^ 64 - 1))) :
    E.isRString ids = .ok false := by
  unfold Env.isRString
  split
  · rfl
  · rename_i hl
    match ids, hl with
    | [a, b], _ =>
      obtain ⟨t, ha⟩ := hcl a (by simp)
      obtain ⟨u, hb⟩ := hcl b (by simp)
      simp only [List.getElem?_cons_zero, Out.expect_some, Out.bind_ok]
      by_cases hu : ∃ c sz, u = .list c sz
      · obtain ⟨c, sz, rfl⟩ := hu
        obtain ⟨⟨w, hc⟩, hov⟩ := hlist a b rfl c sz hb
        rw [rstringSizing_list hb hov]
        simp only [Out.bind_ok, ha, hc]
        cases hct : t.isCharEnum with
        | false => rfl
        | true =>
          cases hcw : w.isCharEnum with
          | false => simp
          | true =>
            obtain ⟨A, rfl, hA⟩ := (isCharEnum_iff t).mp hct
            obtain ⟨C, rfl, hC⟩ := (isCharEnum_iff w).mp hcw
            exact absurd ⟨a, b, c, rfl, ha, hA, hb, hc, hC⟩ (hn A C sz)
      · have : E.rstringSizing [a, b] = .ok none := by
          simp only [Env.rstringSizing, List.getElem?_cons_succ, List.getElem?_cons_zero,
            Out.expect_some, Out.bind_ok, hb]
          cases u with
          | list c sz => exact absurd ⟨c, sz, rfl⟩ hu
          | _ => rfl
        rw [this]
        rfl
    | [], h => simp at h
    | [_], h => simp at h
    | _ :: _ :: _ :: _, h => simp at h

/-! ## Numbers -/

theorem signExtend_le {n : Nat} (hn : n = 1 ∨ n = 2 ∨ n = 4 ∨ n = 8) {x : BitVec 64}
    (h1 : -(2 : Int) ^ (8 * n - 1) ≤ x.toInt) (h2 : x.toInt < (2 : Int) ^ (8 * n - 1)) :
    signExtend n (x.toNat % 256 ^ n) = x := by
  have hx := x.isLt
  unfold signExtend
  rw [BitVec.toInt_eq_toNat_cond] at h1 h2
  apply BitVec.eq_of_toNat_eq
  rcases hn with rfl | rfl | rfl | rfl <;> 
    simp only [Nat.reduceMul, Nat.reduceSub, Nat.reducePow, Int.reducePow, Int.reduceNeg] at * <;>
    split <;> simp only [BitVec.toNat_ofNat] <;> split at h1 <;> omega

theorem signExtend_range {n : Nat} (hn : n = 1 ∨ n = 2 ∨ n = 4 ∨ n = 8) {x : Nat}
    (h : x < 256 ^ n) : -(2 : Int) ^ (8 * n - 1) ≤ (signExtend n x).toInt ∧
      (signExtend n x).toInt < (2 : Int) ^ (8 * n - 1) ∧ (signExtend n x).toNat % 256 ^ n = x := by
  rw [BitVec.toInt_eq_toNat_cond]
  unfold signExtend
  rcases hn with rfl | rfl | rfl | rfl <;>
    simp only [Nat.reduceMul, Nat.reduceSub, Nat.reducePow, Int.reducePow, Int.reduceNeg] at * <;>
    split <;> simp only [BitVec.toNat_ofNat] <;> refine ⟨?_, ?_, ?_⟩ <;> (try split) <;> omega

end Verif
