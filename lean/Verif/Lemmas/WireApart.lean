import Verif.Lemmas.Wire
import Verif.Lemmas.StonTyped

/-! # No encoding is the beginning of another -/

namespace Verif

variable {E : Env}

theorem utf8Char_prefix {c d : Nat} (hc : Scalar c) (hd : Scalar d) {r r' : Bytes} (h : utf8Char c ++ r = utf8Char d ++ r') :
    utf8Char c = utf8Char d := by
  unfold Scalar at hc hd
  unfold utf8Char at h ⊢
  split at h <;> split at h <;> (try split at h) <;> (try split at h) <;> (try split at h) <;> (try split at h) <;>
    simp only [List.cons_append, List.nil_append, List.cons.injEq] at h <;>
    first
    | (have h0 := congrArg BitVec.toNat h.1; simp only [BitVec.toNat_ofNat] at h0; exfalso; omega)
    | (simp only [*, if_true, if_false])

theorem number_prefix {a b r r' : Bytes} {k n m : Nat} (ha : a.length = k) (hb : b.length = k) (h1 : Number a n)
    (h2 : Number b m) (h : a ++ r = b ++ r') : n = m ∧ a = b ∧ r = r' := by
  obtain ⟨rfl, h3⟩ := List.append_inj h (ha.trans hb.symm)
  exact ⟨(number_iff.mp h1).symm.trans (number_iff.mp h2), rfl, h3⟩

theorem tally_prefix {a b r r' : Bytes} {k n m : Nat} (h1 : Tally k n a) (h2 : Tally k m b) (h : a ++ r = b ++ r') :
    n = m ∧ a = b ∧ r = r' := number_prefix h1.1 h2.1 h1.2 h2.2 h

theorem dvd_small {a : Int} {M : Int} (h : M ∣ a) (h1 : a < M) (h2 : -M < a) : a = 0 := by
  rcases Int.lt_trichotomy a 0 with h0 | h0 | h0
  · have := Int.le_of_dvd (by omega) (Int.dvd_neg.mpr h)
    omega
  · exact h0
  · have := Int.le_of_dvd h0 h
    omega

theorem signed_unique {x y : Int} {k : Nat} (hk : 0 < k) (h : x % 256 ^ k = y % 256 ^ k) (hx : -(2 : Int) ^ (8 * k - 1) ≤ x)
    (hx' : x < (2 : Int) ^ (8 * k - 1)) (hy : -(2 : Int) ^ (8 * k - 1) ≤ y) (hy' : y < (2 : Int) ^ (8 * k - 1)) : x = y := by
  have hM : (256 : Int) ^ k = 2 * 2 ^ (8 * k - 1) := by
    rw [show (256 : Int) = 2 ^ 8 by decide, ← Int.pow_mul, ← Int.pow_succ']
    congr 1
    omega
  have hd := Int.dvd_of_emod_eq_zero (Int.emod_eq_emod_iff_emod_sub_eq_zero.mp h)
  have := dvd_small hd (by omega) (by omega)
  omega

theorem items_prefix {P Q : Val → Bytes → Prop} : ∀ {l m : List Val} {a b : List Bytes} {r r' : Bytes}, All2 P l a → All2 Q m b →
    l.length = m.length → (∀ x ∈ l, ∀ y ∈ m, ∀ c d r r', P x c → Q y d → c ++ r = d ++ r' → x = y ∧ c = d ∧ r = r') →
    a.flatten ++ r = b.flatten ++ r' → l = m ∧ a.flatten = b.flatten ∧ r = r'
  | [], [], [], [], _, _, _, _, _, _, h => ⟨rfl, rfl, by simpa using h⟩
  | x :: l, y :: m, c :: a, d :: b, r, r', h1, h2, hl, hp, h => by
    simp only [List.flatten_cons, List.append_assoc] at h
    obtain ⟨rfl, rfl, h4⟩ := hp x (by simp) y (by simp) c d _ _ h1.1 h2.1 h
    obtain ⟨rfl, h3, h5⟩ := items_prefix h1.2 h2.2 (by simpa using hl)
      (fun x hx y hy => hp x (List.mem_cons_of_mem _ hx) y (List.mem_cons_of_mem _ hy)) h4
    exact ⟨rfl, by simp [h3], h5⟩
  | [], _ :: _, _, _, _, _, _, _, hl, _, _ => by simp at hl
  | _ :: _, [], _, _, _, _, _, _, hl, _, _ => by simp at hl
  | [], [], _ :: _, _, _, _, h, _, _, _, _ => h.elim
  | [], [], [], _ :: _, _, _, _, h, _, _, _ => h.elim
  | _ :: _, _ :: _, [], _, _, _, h, _, _, _, _ => h.elim
  | _ :: _, _ :: _, _ :: _, [], _, _, _, h, _, _, _ => h.elim

theorem pairs_prefix {P Q : Val × Val → Bytes × Bytes → Prop} : ∀ {l m : List (Val × Val)} {a b : List (Bytes × Bytes)}
    {r r' : Bytes}, All2 P l a → All2 Q m b → l.length = m.length →
    (∀ x ∈ l, ∀ y ∈ m, ∀ c d r r', P x c → Q y d → c.1 ++ (c.2 ++ r) = d.1 ++ (d.2 ++ r') → x = y ∧ c = d ∧ r = r') →
    (a.map fun b => b.1 ++ b.2).flatten ++ r = (b.map fun b => b.1 ++ b.2).flatten ++ r' →
    l = m ∧ (a.map fun b => b.1 ++ b.2).flatten = (b.map fun b => b.1 ++ b.2).flatten ∧ r = r'
  | [], [], [], [], _, _, _, _, _, _, h => ⟨rfl, rfl, by simpa using h⟩
  | x :: l, y :: m, c :: a, d :: b, r, r', h1, h2, hl, hp, h => by
    simp only [List.map_cons, List.flatten_cons, List.append_assoc] at h
    obtain ⟨rfl, rfl, h4⟩ := hp x (by simp) y (by simp) c d _ _ h1.1 h2.1 h
    obtain ⟨rfl, h3, h5⟩ := pairs_prefix h1.2 h2.2 (by simpa using hl)
      (fun x hx y hy => hp x (List.mem_cons_of_mem _ hx) y (List.mem_cons_of_mem _ hy)) h4
    exact ⟨rfl, by simp only [List.map_cons, List.flatten_cons, h3], h5⟩
  | [], _ :: _, _, _, _, _, _, _, hl, _, _ => by simp at hl
  | _ :: _, [], _, _, _, _, _, _, hl, _, _ => by simp at hl
  | [], [], _ :: _, _, _, _, h, _, _, _, _ => h.elim
  | [], [], [], _ :: _, _, _, _, h, _, _, _ => h.elim
  | _ :: _, _ :: _, [], _, _, _, h, _, _, _, _ => h.elim
  | _ :: _, _ :: _, _ :: _, [], _, _, _, h, _, _, _ => h.elim

theorem tuple_prefix {α ι : Type} {P Q : α → ι → Bytes → Prop} {T U : α → ι → Prop} : ∀ {l m : List α} {ids : List ι}
    {a b : List Bytes} {r r' : Bytes}, All3 P l ids a → All3 Q m ids b → All2 T l ids → All2 U m ids →
    (∀ x y i c d r r', T x i → U y i → P x i c → Q y i d → c ++ r = d ++ r' → x = y ∧ c = d ∧ r = r') →
    a.flatten ++ r = b.flatten ++ r' → l = m ∧ a.flatten = b.flatten ∧ r = r'
  | [], [], [], [], [], _, _, _, _, _, _, _, h => ⟨rfl, rfl, by simpa using h⟩
  | x :: l, y :: m, i :: ids, c :: a, d :: b, r, r', h1, h2, ht, hu, hp, h => by
    simp only [List.flatten_cons, List.append_assoc] at h
    obtain ⟨rfl, rfl, h4⟩ := hp x y i c d _ _ ht.1 hu.1 h1.1 h2.1 h
    obtain ⟨rfl, h3, h5⟩ := tuple_prefix h1.2 h2.2 ht.2 hu.2 hp h4
    exact ⟨rfl, by simp [h3], h5⟩
  | [], _, _ :: _, _, _, _, _, _, _, h, _, _, _ => h.elim
  | _ :: _, _, [], _, _, _, _, _, _, h, _, _, _ => h.elim
  | _, [], _ :: _, _, _, _, _, _, _, _, h, _, _ => h.elim
  | _, _ :: _, [], _, _, _, _, _, _, _, h, _, _ => h.elim
  | [], [], [], _ :: _, _, _, _, h, _, _, _, _, _ => by simp [All3] at h
  | [], [], [], [], _ :: _, _, _, _, h, _, _, _, _ => by simp [All3] at h
  | _ :: _, _ :: _, _ :: _, [], _, _, _, h, _, _, _, _, _ => by simp [All3] at h
  | _ :: _, _ :: _, _ :: _, _ :: _, [], _, _, _, h, _, _, _, _ => by simp [All3] at h

theorem coded_prim_prefix {R S : Val → SemId → Bytes → Prop} {T U : Val → SemId → Prop} (hz : E.SignedSizes) {v w : Val} {p : Byte}
    (hv : Inhabits E true T v (.primitive p)) (hw : Inhabits E true U w (.primitive p)) {a b r r' : Bytes}
    (h1 : Coded E R v (.primitive p) a) (h2 : Coded E S w (.primitive p) b) (h : a ++ r = b ++ r') :
    v = w ∧ a = b ∧ r = r' := by
  have int_bounds : ∀ {T : Val → SemId → Prop} {x : BitVec 64}, Inhabits E true T (.num (.int x)) (.primitive p) →
      0 < E.primSize p ∧ -(2 : Int) ^ (8 * E.primSize p - 1) ≤ x.toInt ∧ x.toInt < (2 : Int) ^ (8 * E.primSize p - 1) := by
    intro T x h
    cases h with
    | int hn h8 hx hx' => rw [hz.1 _ hn h8]; exact ⟨hn, hx, hx'⟩
  have big_bounds : ∀ {T : Val → SemId → Prop} {x : BitVec 1024}, Inhabits E true T (.num (.bigInt x)) (.primitive p) →
      0 < E.primSize p ∧ -(2 : Int) ^ (8 * E.primSize p - 1) ≤ x.toInt ∧ x.toInt < (2 : Int) ^ (8 * E.primSize p - 1) := by
    intro T x h
    cases h with
    | bigInt hn h8 hx hx' => exact ⟨hz.2 _ hn h8, hx, hx'⟩
  rcases prim_inv hv with ⟨hp, rfl⟩ | ⟨x, rfl, hp⟩ | ⟨x, rfl, hp⟩ | ⟨x, rfl, hp⟩ | ⟨x, rfl, hp⟩ <;>
  rcases prim_inv hw with ⟨hq, rfl⟩ | ⟨y, rfl, hq⟩ | ⟨y, rfl, hq⟩ | ⟨y, rfl, hq⟩ | ⟨y, rfl, hq⟩ <;>
  first
  | (exfalso; omega)
  | skip
  · have e : ∀ {R : Val → SemId → Bytes → Prop} {a : Bytes}, Coded E R .unit (.primitive p) a → a = [] := by
      intro R a h
      generalize ht : Ty.primitive p = t at h
      cases h
      rfl
    cases e h1
    cases e h2
    exact ⟨rfl, rfl, h⟩
  · cases h1 with | uint h3 h4 => cases h2 with | uint h5 h6 =>
    obtain ⟨hn, h7⟩ := number_prefix h3 h5 h4 h6 h
    rw [BitVec.eq_of_toNat_eq hn]
    exact ⟨rfl, h7⟩
  · cases h1 with | bigUint h3 h4 => cases h2 with | bigUint h5 h6 =>
    obtain ⟨hn, h7⟩ := number_prefix h3 h5 h4 h6 h
    rw [BitVec.eq_of_toNat_eq hn]
    exact ⟨rfl, h7⟩
  · cases h1 with | int h3 h4 h8 => cases h2 with | int h5 h6 h9 =>
    obtain ⟨rfl, h7⟩ := number_prefix h3 h5 h4 h6 h
    obtain ⟨hk, hx, hx'⟩ := int_bounds hv
    obtain ⟨-, hy, hy'⟩ := int_bounds hw
    rw [BitVec.eq_of_toInt_eq (signed_unique hk (h8.symm.trans h9) hx hx' hy hy')]
    exact ⟨rfl, h7⟩
  · cases h1 with | bigInt h3 h4 h8 => cases h2 with | bigInt h5 h6 h9 =>
    obtain ⟨rfl, h7⟩ := number_prefix h3 h5 h4 h6 h
    obtain ⟨hk, hx, hx'⟩ := big_bounds hv
    obtain ⟨-, hy, hy'⟩ := big_bounds hw
    rw [BitVec.eq_of_toInt_eq (signed_unique hk (h8.symm.trans h9) hx hx' hy hy')]
    exact ⟨rfl, h7⟩

theorem coded_prefix {R S : Val → SemId → Bytes → Prop} {T U : Val → SemId → Prop} (hs : E.Sane) (hz : E.SignedSizes)
    (hp : ∀ x y i c d r r', T x i → U y i → R x i c → S y i d → c ++ r = d ++ r' → x = y ∧ c = d ∧ r = r')
    {id : SemId} {t : Ty SemId} (hf : E.find id = some t) {v w : Val} (hv : Inhabits E true T v t) (hw : Inhabits E true U w t)
    {a b r r' : Bytes} (h1 : Coded E R v t a) (h2 : Coded E S w t b) (h : a ++ r = b ++ r') : v = w ∧ a = b ∧ r = r' := by
  have hwf := hs.wf _ _ hf
  have counted : ∀ {k : Nat} {p q s z : Bytes}, Tally k s.length p → Tally k z.length q → p ++ s ++ r = q ++ z ++ r' →
      s = z ∧ p ++ s = q ++ z ∧ r = r' := by
    intro k p q s z h1 h2 h
    rw [List.append_assoc, List.append_assoc] at h
    obtain ⟨hl, rfl, h3⟩ := tally_prefix h1 h2 h
    obtain ⟨rfl, rfl⟩ := List.append_inj h3 hl
    exact ⟨rfl, rfl, rfl⟩
  cases t with
  | primitive p => exact coded_prim_prefix hz hv hw h1 h2 h
  | unicodeChar =>
    cases h1 with | char => cases h2 with | char =>
    cases hv with | unicodeChar hc => cases hw with | unicodeChar hd =>
    have e : a = b := by
      have e1 := hc.2
      have e2 := hd.2
      simp only [List.flatMap_cons, List.flatMap_nil, List.append_nil] at e1 e2
      rw [e1, e2] at h ⊢
      exact utf8Char_prefix (hc.1 _ (by simp)) (hd.1 _ (by simp)) h
    subst e
    exact ⟨rfl, rfl, by simpa using h⟩
  | enum vs =>
    cases h1 with | enum h3 => cases h2 with | enum h4 =>
    simp only [List.cons_append, List.nil_append, List.cons.injEq] at h
    obtain ⟨rfl, rfl⟩ := h
    have h5 := (enumNameByTag_iff hwf _ _).mpr h3
    rw [(enumNameByTag_iff hwf _ _).mpr h4] at h5
    cases h5
    exact ⟨rfl, rfl, rfl⟩
  | union vs =>
    cases h1 with | @union _ n t i v a h3 h5 => cases h2 with | @union _ m t' j w b h4 h6 =>
    simp only [List.cons_append, List.cons.injEq] at h
    obtain ⟨rfl, h⟩ := h
    have e := (unionByTag_iff hwf (⟨n, t⟩, i) t).mpr ⟨h3, rfl⟩
    rw [(unionByTag_iff hwf (⟨m, t⟩, j) t).mpr ⟨h4, rfl⟩] at e
    cases e
    have uniq : ∀ {t' j}, (⟨n, t'⟩, j) ∈ vs → j = i := by
      intro t' j hm
      have e := (unionByName_iff hwf (⟨n, t⟩, i) n).mpr ⟨h3, rfl⟩
      rw [(unionByName_iff hwf (⟨n, t'⟩, j) n).mpr ⟨hm, rfl⟩] at e
      cases e
      rfl
    cases hv with | union hm hv => cases hw with | union hm' hw =>
    cases uniq hm
    cases uniq hm'
    obtain ⟨rfl, rfl, rfl⟩ := hp _ _ _ _ _ _ _ hv hw h5 h6 h
    exact ⟨rfl, rfl, rfl⟩
  | tuple ids =>
    cases hv with
    | tuple hn hv =>
      cases hw with
      | tuple _ hw =>
        cases h1 with | tuple h3 => cases h2 with | tuple h4 =>
        obtain ⟨rfl, h5⟩ := tuple_prefix h3 h4 hv hw hp h
        exact ⟨rfl, h5⟩
      | rstring hr => exact absurd hr (hn _ _ _)
      | rstringEmpty hr => exact absurd hr (hn _ _ _)
    | rstring hr =>
      cases hw with
      | tuple hn => exact absurd hr (hn _ _ _)
      | rstring hr' =>
        cases h1 with | rstring h3 h4 => cases h2 with | rstring h5 h6 =>
        obtain ⟨rfl, -, -⟩ := rstring_sizing h3 h5
        obtain ⟨h7, h8⟩ := counted h4 h6 h
        exact ⟨by rw [h7], h8⟩
      | rstringEmpty _ hst => cases hst
    | rstringEmpty _ hst => cases hst
  | struct req =>
    cases hv with | struct hv => cases hw with | struct hw =>
    cases h1 with | struct h3 => cases h2 with | struct h4 =>
    obtain ⟨rfl, h5⟩ := tuple_prefix h3 h4 hv hw (fun x y i c d r r' ht hu h1 h2 h => by
      obtain ⟨h5, h6⟩ := hp _ _ _ _ _ _ _ ht.2 hu.2 h1.2 h2.2 h
      exact ⟨Prod.ext (ht.1.trans hu.1.symm) h5, h6⟩) h
    exact ⟨rfl, h5⟩
  | array i len =>
    cases hv with
    | byteArray hb hl =>
      cases hw with
      | byteArray hb' hl' =>
        cases h1 with | byteArray => cases h2 with | byteArray =>
        obtain ⟨rfl, rfl⟩ := List.append_inj h (hl.trans hl'.symm)
        exact ⟨rfl, rfl, rfl⟩
      | array hb' => rw [hb] at hb'; cases hb'
    | array hb hl hv =>
      cases hw with
      | byteArray hb' => rw [hb] at hb'; cases hb'
      | array hb' hl' hw =>
        cases h1 with | array h3 => cases h2 with | array h4 =>
        obtain ⟨rfl, h5⟩ := items_prefix h3 h4 (hl.trans hl'.symm)
          (fun x hx y hy c d r r' h1 h2 h => hp _ _ _ _ _ _ _ (hv x hx) (hw y hy) h1 h2 h) h
        exact ⟨rfl, h5⟩
  | list i sz =>
    have str : ∀ {s z : Bytes}, v = .str s → w = .str z → v = w ∧ a = b ∧ r = r' := by
      rintro s z rfl rfl
      cases h1 with | text h3 => cases h2 with | text h4 =>
      obtain ⟨h7, h8⟩ := counted h3 h4 h
      exact ⟨by rw [h7], h8⟩
    have notChar : ∀ {C}, E.CharEnum i C → i.isByte E.H = true → False := by
      intro C h1 h2
      rcases hs.byte _ _ h2 h1.1 with h | h <;> cases h
    cases hv with
    | asciiList hc =>
      cases hw with
      | asciiList => exact str rfl rfl
      | byteList hb => exact (notChar hc hb).elim
      | unicodeList => exact str rfl rfl
      | list _ _ hn => exact absurd hc (hn _)
    | byteList hb =>
      cases hw with
      | asciiList hc => exact (notChar hc hb).elim
      | byteList =>
        cases h1 with | bytes h3 => cases h2 with | bytes h4 =>
        obtain ⟨h7, h8⟩ := counted h3 h4 h
        exact ⟨by rw [h7], h8⟩
      | unicodeList hb' => rw [hb] at hb'; cases hb'
      | list hb' => rw [hb] at hb'; cases hb'
    | unicodeList hb hu =>
      cases hw with
      | asciiList => exact str rfl rfl
      | byteList hb' => rw [hb] at hb'; cases hb'
      | unicodeList => exact str rfl rfl
      | list _ hu' => rw [hu] at hu'; cases hu'
    | list hb hu hn _ _ hv =>
      cases hw with
      | asciiList hc => exact absurd hc (hn _)
      | byteList hb' => rw [hb] at hb'; cases hb'
      | unicodeList _ hu' => rw [hu] at hu'; cases hu'
      | list _ _ _ _ _ hw =>
        cases h1 with | list h3 h5 => cases h2 with | list h4 h6 =>
        rw [List.append_assoc, List.append_assoc] at h
        obtain ⟨hl, rfl, h9⟩ := tally_prefix h3 h4 h
        obtain ⟨rfl, h7, h8⟩ := items_prefix h5 h6 hl
          (fun x hx y hy c d r r' h1 h2 h => hp _ _ _ _ _ _ _ (hv x hx) (hw y hy) h1 h2 h) h9
        exact ⟨rfl, by rw [h7], h8⟩
  | set i sz =>
    cases hv with | set _ _ hv => cases hw with | set _ _ hw =>
    cases h1 with | set h3 h5 => cases h2 with | set h4 h6 =>
    rw [List.append_assoc, List.append_assoc] at h
    obtain ⟨hl, rfl, h9⟩ := tally_prefix h3 h4 h
    obtain ⟨rfl, h7, h8⟩ := items_prefix h5 h6 hl
      (fun x hx y hy c d r r' h1 h2 h => hp _ _ _ _ _ _ _ (hv x hx) (hw y hy) h1 h2 h) h9
    exact ⟨rfl, by rw [h7], h8⟩
  | map k i sz =>
    cases hv with | map _ _ hv => cases hw with | map _ _ hw =>
    cases h1 with | map h3 h5 => cases h2 with | map h4 h6 =>
    rw [List.append_assoc, List.append_assoc] at h
    obtain ⟨hl, rfl, h9⟩ := tally_prefix h3 h4 h
    obtain ⟨rfl, h7, h8⟩ := pairs_prefix h5 h6 hl
      (fun x hx y hy c d r r' h1 h2 h => by
        obtain ⟨e1, e2, h⟩ := hp _ _ _ _ _ _ _ (hv x hx).1 (hw y hy).1 h1.1 h2.1 h
        obtain ⟨e3, e4, h⟩ := hp _ _ _ _ _ _ _ (hv x hx).2 (hw y hy).2 h1.2 h2.2 h
        exact ⟨Prod.ext e1 e3, Prod.ext e2 e4, h⟩) h9
    exact ⟨rfl, by rw [h7], h8⟩

theorem wire_prefix (hs : E.Sane) (hz : E.SignedSizes) : ∀ {n m k l : Nat} {v w : Val} {id : SemId} {a b r r' : Bytes},
    HasTyN E true n v id → HasTyN E true m w id → WireN E k v id a → WireN E l w id b → a ++ r = b ++ r' →
    v = w ∧ a = b ∧ r = r'
  | 0, _, _, _, _, _, _, _, _, _, _, h, _, _, _, _ => h.elim
  | _ + 1, 0, _, _, _, _, _, _, _, _, _, _, h, _, _, _ => h.elim
  | _ + 1, _ + 1, 0, _, _, _, _, _, _, _, _, _, _, h, _, _ => h.elim
  | _ + 1, _ + 1, _ + 1, 0, _, _, _, _, _, _, _, _, _, _, h, _ => h.elim
  | n + 1, m + 1, k + 1, l + 1, v, w, id, a, b, r, r', hv, hw, h1, h2, h => by
    obtain ⟨t, hf, hv⟩ := hv
    obtain ⟨t', hf', hw⟩ := hw
    cases hf.symm.trans hf'
    obtain ⟨t', hf', h1⟩ := h1
    cases hf.symm.trans hf'
    obtain ⟨t', hf', h2⟩ := h2
    cases hf.symm.trans hf'
    exact coded_prefix (R := WireN E k) (S := WireN E l) (T := HasTyN E true n) (U := HasTyN E true m) hs hz
      (fun x y i c d r r' h1 h2 h3 h4 h => wire_prefix hs hz h1 h2 h3 h4 h) hf hv hw h1 h2 h

end Verif
