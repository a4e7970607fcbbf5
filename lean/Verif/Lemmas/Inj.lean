import Verif.Lemmas.Canon

/-!
# Equal values were read from equal bytes
-/

namespace Verif

/-- Equal results were read from equal bytes. -/
def InjRd {α : Type} (rd : Bytes → Out DErr (RdPair α)) : Prop :=
  ∀ bs₁ bs₂ v r₁ r₂, rd bs₁ = .ok (v, r₁) → rd bs₂ = .ok (v, r₂) →
    ∃ c, bs₁ = c ++ r₁ ∧ bs₂ = c ++ r₂

theorem readLe_inj (w : Nat) : InjRd (readLe w) := by
  intro bs₁ bs₂ v r₁ r₂ h₁ h₂
  exact ⟨_, (readLe_ok h₁).1, (readLe_ok h₂).1⟩

theorem readRaw_inj (w : Nat) : InjRd (readRaw w) := by
  intro bs₁ bs₂ v r₁ r₂ h₁ h₂
  exact ⟨_, (readRaw_ok h₁).1, (readRaw_ok h₂).1⟩

theorem readAscii_inj (w : Nat) : InjRd (readAscii w) := by
  intro bs₁ bs₂ v r₁ r₂ h₁ h₂
  obtain ⟨s, rfl, h₁, -⟩ := readAscii_ok h₁
  obtain ⟨s', h, h₂, -⟩ := readAscii_ok h₂
  cases h
  exact ⟨_, h₁, h₂⟩

theorem readString_inj (w : Nat) : InjRd (readString w) := by
  intro bs₁ bs₂ v r₁ r₂ h₁ h₂
  obtain ⟨s, rfl, h₁, -⟩ := readString_ok h₁
  obtain ⟨s', h, h₂, -⟩ := readString_ok h₂
  cases h
  exact ⟨_, h₁, h₂⟩

theorem readBlob_inj (w : Nat) : InjRd (readBlob w) := by
  intro bs₁ bs₂ v r₁ r₂ h₁ h₂
  obtain ⟨s, rfl, h₁, -⟩ := readBlob_ok h₁
  obtain ⟨s', h, h₂, -⟩ := readBlob_ok h₂
  cases h
  exact ⟨_, h₁, h₂⟩

theorem readUint_inj {n : Nat} (hn : n ≤ 8) : InjRd (readUint n) := by
  intro bs₁ bs₂ v r₁ r₂ h₁ h₂
  obtain ⟨⟨x, s⟩, hx, h₁⟩ := Out.bind_eq_ok.mp h₁
  obtain ⟨⟨y, s'⟩, hy, h₂⟩ := Out.bind_eq_ok.mp h₂
  cases h₁
  have he : BitVec.ofNat 64 x = BitVec.ofNat 64 y ∧ r₂ = s' := by
    injection h₂ with h
    injection h with h h'
    injection h with h
    injection h with h
    exact ⟨h.symm, h'.symm⟩
  obtain ⟨h1, hx'⟩ := readLe_ok hx
  obtain ⟨h2, hy'⟩ := readLe_ok hy
  have h64 : 256 ^ n ≤ 2 ^ 64 := Nat.le_trans (Nat.pow_le_pow_right (by decide) hn) (by decide)
  have hxy : x = y := by
    have := congrArg BitVec.toNat he.1
    simpa [Nat.mod_eq_of_lt (Nat.lt_of_lt_of_le hx' h64),
      Nat.mod_eq_of_lt (Nat.lt_of_lt_of_le hy' h64)] using this
  subst hxy
  rw [he.2]
  exact ⟨_, h1, h2⟩

theorem readInt_inj {n : Nat} (hn : n = 1 ∨ n = 2 ∨ n = 4 ∨ n = 8) : InjRd (readInt n) := by
  intro bs₁ bs₂ v r₁ r₂ h₁ h₂
  obtain ⟨⟨x, s⟩, hx, h₁⟩ := Out.bind_eq_ok.mp h₁
  obtain ⟨⟨y, s'⟩, hy, h₂⟩ := Out.bind_eq_ok.mp h₂
  cases h₁
  have he : signExtend n x = signExtend n y ∧ r₂ = s' := by
    injection h₂ with h
    injection h with h h'
    injection h with h
    injection h with h
    exact ⟨h.symm, h'.symm⟩
  obtain ⟨h1, hx'⟩ := readLe_ok hx
  obtain ⟨h2, hy'⟩ := readLe_ok hy
  have hxy : x = y := by
    rw [← (signExtend_range hn hx').2.2, ← (signExtend_range hn hy').2.2, he.1]
  subst hxy
  rw [he.2]
  exact ⟨_, h1, h2⟩

theorem readPrim_inj (p : Byte) : InjRd (readPrim p) := by
  unfold readPrim
  repeat' split
  · intro bs₁ bs₂ v r₁ r₂ h₁ h₂
    cases h₁
    cases h₂
    exact ⟨[], rfl, rfl⟩
  · exact readUint_inj (by omega)
  · exact readUint_inj (by omega)
  · exact readInt_inj (by omega)
  · exact readInt_inj (by omega)
  · exact readInt_inj (by omega)
  · exact readInt_inj (by omega)
  · intro bs₁ bs₂ v r₁ r₂ h₁
    cases h₁

variable {rd : SemId → Bytes → Out DErr (RdPair Val)} {E : Env}

theorem readItems_len {id : SemId} {n : Nat} {bs rest : Bytes} {l : List Val}
    (h : readItems rd id n bs = .ok (l, rest)) : l.length = n := by
  induction n generalizing bs l with
  | zero => cases h; rfl
  | succ n ih =>
    obtain ⟨⟨v, r⟩, h1, h2⟩ := Out.bind_eq_ok.mp h
    obtain ⟨⟨vs, r'⟩, h3, h4⟩ := Out.bind_eq_ok.mp h2
    cases h4
    simp [ih h3]

theorem readPairs_len {kid id : SemId} {n : Nat} {bs rest : Bytes} {l : List (Val × Val)}
    (h : readPairs rd kid id n bs = .ok (l, rest)) : l.length = n := by
  induction n generalizing bs l with
  | zero => cases h; rfl
  | succ n ih =>
    obtain ⟨⟨k, r0⟩, h0, h⟩ := Out.bind_eq_ok.mp h
    obtain ⟨⟨v, r⟩, h1, h2⟩ := Out.bind_eq_ok.mp h
    obtain ⟨⟨vs, r'⟩, h3, h4⟩ := Out.bind_eq_ok.mp h2
    cases h4
    simp [ih h3]

section
variable (hrd : ∀ id, InjRd (rd id))
include hrd

theorem readItems_inj (id : SemId) (n : Nat) : InjRd (readItems rd id n) := by
  induction n with
  | zero =>
    intro bs₁ bs₂ v r₁ r₂ h₁ h₂
    cases h₁
    cases h₂
    exact ⟨[], rfl, rfl⟩
  | succ n ih =>
    intro bs₁ bs₂ l r₁ r₂ h₁ h₂
    obtain ⟨⟨v, s⟩, hv, h⟩ := Out.bind_eq_ok.mp h₁
    obtain ⟨⟨vs, s'⟩, hvs, h'⟩ := Out.bind_eq_ok.mp h
    cases h'
    obtain ⟨⟨w, t⟩, hw, h⟩ := Out.bind_eq_ok.mp h₂
    obtain ⟨⟨ws, t'⟩, hws, h'⟩ := Out.bind_eq_ok.mp h
    cases h'
    obtain ⟨c, rfl, rfl⟩ := hrd _ _ _ _ _ _ hv hw
    obtain ⟨d, h1, h2⟩ := ih _ _ _ _ _ hvs hws
    subst h1
    subst h2
    exact ⟨c ++ d, by simp, by simp⟩

theorem readPairs_inj (kid id : SemId) (n : Nat) : InjRd (readPairs rd kid id n) := by
  induction n with
  | zero =>
    intro bs₁ bs₂ v r₁ r₂ h₁ h₂
    cases h₁
    cases h₂
    exact ⟨[], rfl, rfl⟩
  | succ n ih =>
    intro bs₁ bs₂ l r₁ r₂ h₁ h₂
    obtain ⟨⟨k, s0⟩, hk, h⟩ := Out.bind_eq_ok.mp h₁
    obtain ⟨⟨v, s⟩, hv, h⟩ := Out.bind_eq_ok.mp h
    obtain ⟨⟨vs, s'⟩, hvs, h'⟩ := Out.bind_eq_ok.mp h
    cases h'
    obtain ⟨⟨j, t0⟩, hj, h⟩ := Out.bind_eq_ok.mp h₂
    obtain ⟨⟨w, t⟩, hw, h⟩ := Out.bind_eq_ok.mp h
    obtain ⟨⟨ws, t'⟩, hws, h'⟩ := Out.bind_eq_ok.mp h
    cases h'
    obtain ⟨b, rfl, rfl⟩ := hrd _ _ _ _ _ _ hk hj
    obtain ⟨c, h1, h2⟩ := hrd _ _ _ _ _ _ hv hw
    subst h1
    subst h2
    obtain ⟨d, h1, h2⟩ := ih _ _ _ _ _ hvs hws
    subst h1
    subst h2
    exact ⟨b ++ (c ++ d), by simp, by simp⟩

theorem readTuple_inj (ids : List SemId) : InjRd (readTuple rd ids) := by
  induction ids with
  | nil =>
    intro bs₁ bs₂ v r₁ r₂ h₁ h₂
    cases h₁
    cases h₂
    exact ⟨[], rfl, rfl⟩
  | cons id ids ih =>
    intro bs₁ bs₂ l r₁ r₂ h₁ h₂
    obtain ⟨⟨v, s⟩, hv, h⟩ := Out.bind_eq_ok.mp h₁
    obtain ⟨⟨vs, s'⟩, hvs, h'⟩ := Out.bind_eq_ok.mp h
    cases h'
    obtain ⟨⟨w, t⟩, hw, h⟩ := Out.bind_eq_ok.mp h₂
    obtain ⟨⟨ws, t'⟩, hws, h'⟩ := Out.bind_eq_ok.mp h
    cases h'
    obtain ⟨c, rfl, rfl⟩ := hrd _ _ _ _ _ _ hv hw
    obtain ⟨d, h1, h2⟩ := ih _ _ _ _ _ hvs hws
    subst h1
    subst h2
    exact ⟨c ++ d, by simp, by simp⟩

theorem readFields_inj {req : List (Name × SemId)} {acc₁ acc₂ : List (Name × Val)}
    (hl : acc₁.length = acc₂.length)
    (hn₁ : (acc₁.map Prod.fst ++ req.map Prod.fst).Nodup)
    (hn₂ : (acc₂.map Prod.fst ++ req.map Prod.fst).Nodup) {bs₁ bs₂ r₁ r₂ : Bytes}
    {fs : List (Name × Val)} (h₁ : readFields rd req acc₁ bs₁ = .ok (fs, r₁))
    (h₂ : readFields rd req acc₂ bs₂ = .ok (fs, r₂)) :
    acc₁ = acc₂ ∧ ∃ c, bs₁ = c ++ r₁ ∧ bs₂ = c ++ r₂ := by
  induction req generalizing acc₁ acc₂ bs₁ bs₂ with
  | nil =>
    cases h₁
    cases h₂
    exact ⟨rfl, [], rfl, rfl⟩
  | cons r req ih =>
    obtain ⟨n, id⟩ := r
    obtain ⟨⟨v, s⟩, hv, h₁⟩ := Out.bind_eq_ok.mp h₁
    obtain ⟨⟨w, t⟩, hw, h₂⟩ := Out.bind_eq_ok.mp h₂
    have hm₁ : n ∉ acc₁.map Prod.fst := by
      intro hmem
      exact (List.nodup_append.mp hn₁).2.2 n hmem n (by simp) rfl
    have hm₂ : n ∉ acc₂.map Prod.fst := by
      intro hmem
      exact (List.nodup_append.mp hn₂).2.2 n hmem n (by simp) rfl
    dsimp only at h₁ h₂
    rw [imInsert_append hm₁] at h₁
    rw [imInsert_append hm₂] at h₂
    obtain ⟨he, d, rfl, rfl⟩ := ih (by simp [hl]) (by simpa using hn₁) (by simpa using hn₂) h₁ h₂
    obtain ⟨he1, he2⟩ := List.append_inj' he (by simp)
    simp only [List.cons.injEq, Prod.mk.injEq, true_and, and_true] at he2
    subst he2
    obtain ⟨c, rfl, rfl⟩ := hrd _ _ _ _ _ _ hv hw
    exact ⟨he1, c ++ d, by simp, by simp⟩

theorem readSeq_inj (id : SemId) (w : Nat) : InjRd (readSeq rd E id w) := by
  intro bs₁ bs₂ l r₁ r₂ h₁ h₂
  obtain ⟨n, r, rfl, -, -, h1⟩ := readSeq_ok h₁
  obtain ⟨m, s, rfl, -, -, h2⟩ := readSeq_ok h₂
  have : m = n := by rw [← readItems_len h1, ← readItems_len h2]
  subst this
  obtain ⟨c, rfl, rfl⟩ := readItems_inj hrd _ _ _ _ _ _ _ h1 h2
  exact ⟨le w m ++ c, by simp, by simp⟩

theorem readMapSeq_inj (kid id : SemId) (w : Nat) : InjRd (readMapSeq rd E kid id w) := by
  intro bs₁ bs₂ l r₁ r₂ h₁ h₂
  obtain ⟨n, r, rfl, -, -, h1⟩ := readMapSeq_ok h₁
  obtain ⟨m, s, rfl, -, -, h2⟩ := readMapSeq_ok h₂
  have : m = n := by rw [← readPairs_len h1, ← readPairs_len h2]
  subst this
  obtain ⟨c, rfl, rfl⟩ := readPairs_inj hrd _ _ _ _ _ _ _ _ h1 h2
  exact ⟨le w m ++ c, by simp, by simp⟩

theorem readTy_inj {spec : SemId} {t : Ty SemId} (hwf : t.WF) (hfd : t.FieldsDistinct) :
    InjRd (readTy rd E spec t) := by
  intro bs₁ bs₂ v r₁ r₂ h₁ h₂
  cases t with
  | primitive p => exact readPrim_inj p _ _ _ _ _ h₁ h₂
  | unicodeChar => cases h₁
  | enum vs =>
    have hwf : VariantsWF vs := hwf
    obtain ⟨⟨x, r⟩, h1, h2⟩ := Out.bind_eq_ok.mp h₁
    obtain ⟨⟨y, s⟩, k1, k2⟩ := Out.bind_eq_ok.mp h₂
    obtain ⟨rfl, hx⟩ := readLe_ok h1
    obtain ⟨rfl, hy⟩ := readLe_ok k1
    dsimp only at h2 k2
    split at h2
    · cases h2
    rename_i n hn
    split at k2
    · cases k2
    rename_i m hm
    cases h2
    cases k2
    have e1 := (enumTagByName_iff hwf _ _).mpr ((enumNameByTag_iff hwf _ _).mp hn)
    have e2 := (enumTagByName_iff hwf _ _).mpr ((enumNameByTag_iff hwf _ _).mp hm)
    rw [e1] at e2
    have : x = y := by
      have := congrArg BitVec.toNat (Option.some.inj e2)
      simp only [BitVec.toNat_ofNat] at this
      omega
    subst this
    exact ⟨_, rfl, rfl⟩
  | union vs =>
    have hwf : VariantsWF (vs.map Prod.fst) := hwf
    obtain ⟨⟨x, r⟩, h1, h2⟩ := Out.bind_eq_ok.mp h₁
    obtain ⟨⟨y, s⟩, k1, k2⟩ := Out.bind_eq_ok.mp h₂
    obtain ⟨rfl, hx⟩ := readLe_ok h1
    obtain ⟨rfl, hy⟩ := readLe_ok k1
    dsimp only at h2 k2
    split at h2
    · cases h2
    rename_i p hp
    split at k2
    · cases k2
    rename_i q hq
    obtain ⟨⟨w, r'⟩, h3, h4⟩ := Out.bind_eq_ok.mp h2
    obtain ⟨⟨w', s'⟩, k3, k4⟩ := Out.bind_eq_ok.mp k2
    cases h4
    have hname : p.1.name = q.1.name ∧ w = w' ∧ r₂ = s' := by
      injection k4 with h
      injection h with h h'
      injection h with h h''
      injection h with h
      exact ⟨h.symm, h''.symm, h'.symm⟩
    obtain ⟨hpm, hpt⟩ := (unionByTag_iff hwf p _).mp hp
    obtain ⟨hqm, hqt⟩ := (unionByTag_iff hwf q _).mp hq
    have e1 := (unionByName_iff hwf p q.1.name).mpr ⟨hpm, hname.1⟩
    have e2 := (unionByName_iff hwf q q.1.name).mpr ⟨hqm, rfl⟩
    rw [e1] at e2
    have hpq := Option.some.inj e2
    subst hpq
    have : x = y := by
      rw [hpt] at hqt
      have := congrArg BitVec.toNat hqt
      simp only [BitVec.toNat_ofNat] at this
      omega
    subst this
    rw [← hname.2.1, ← hname.2.2] at k3
    obtain ⟨c, hc1, hc2⟩ := hrd _ _ _ _ _ _ h3 k3
    subst hc1
    subst hc2
    exact ⟨le 1 x ++ c, by simp, by simp⟩
  | tuple ids =>
    replace h₁ : readTupleTy rd E ids bs₁ = .ok (v, r₁) := h₁
    replace h₂ : readTupleTy rd E ids bs₂ = .ok (v, r₂) := h₂
    unfold readTupleTy at h₁ h₂
    obtain ⟨b, h1, h2⟩ := Out.bind_eq_ok.mp h₁
    rw [h1] at h₂
    rw [Out.bind_ok] at h₂
    cases b with
    | true =>
      rw [if_pos rfl] at h2 h₂
      obtain ⟨o, h3, h4⟩ := Out.bind_eq_ok.mp h2
      rw [h3, Out.bind_ok] at h₂
      match o, h4, h₂ with
      | some (_, sz), h4, h₂ => exact readAscii_inj _ _ _ _ _ _ h4 h₂
      | none, h4, _ => cases h4
    | false =>
      rw [if_neg (by decide)] at h2 h₂
      obtain ⟨⟨l, r⟩, h3, h4⟩ := Out.bind_eq_ok.mp h2
      obtain ⟨⟨l', r'⟩, k3, k4⟩ := Out.bind_eq_ok.mp h₂
      cases h4
      cases k4
      exact readTuple_inj hrd _ _ _ _ _ _ h3 k3
  | struct req =>
    obtain ⟨⟨l, r⟩, h3, h4⟩ := Out.bind_eq_ok.mp h₁
    obtain ⟨⟨l', r'⟩, k3, k4⟩ := Out.bind_eq_ok.mp h₂
    cases h4
    cases k4
    have hn : (req.map Prod.fst).Nodup := hfd
    exact (readFields_inj hrd rfl (by simpa using hn) (by simpa using hn) h3 k3).2
  | array id len =>
    simp only [readTy] at h₁ h₂
    split at h₁
    · rename_i hb
      rw [if_pos hb] at h₂
      obtain ⟨⟨l, r⟩, h3, h4⟩ := Out.bind_eq_ok.mp h₁
      obtain ⟨⟨l', r'⟩, k3, k4⟩ := Out.bind_eq_ok.mp h₂
      cases h4
      cases k4
      exact readRaw_inj _ _ _ _ _ _ h3 k3
    · rename_i hb
      rw [if_neg hb] at h₂
      obtain ⟨⟨l, r⟩, h3, h4⟩ := Out.bind_eq_ok.mp h₁
      obtain ⟨⟨l', r'⟩, k3, k4⟩ := Out.bind_eq_ok.mp h₂
      cases h4
      cases k4
      exact readItems_inj hrd _ _ _ _ _ _ _ h3 k3
  | list id sz =>
    simp only [readTy, readList] at h₁ h₂
    split at h₁
    · cases h₁
    · rename_i u hu
      rw [hu] at h₂
      dsimp only at h₂
      split at h₁
      · rename_i hc
        rw [if_pos hc] at h₂
        exact readAscii_inj _ _ _ _ _ _ h₁ h₂
      · rename_i hc
        rw [if_neg hc] at h₂
        split at h₁
        · rename_i hb
          rw [if_pos hb] at h₂
          exact readBlob_inj _ _ _ _ _ _ h₁ h₂
        · rename_i hb
          rw [if_neg hb] at h₂
          split at h₁
          · rename_i hu
            rw [if_pos hu] at h₂
            exact readString_inj _ _ _ _ _ _ h₁ h₂
          · rename_i hu
            rw [if_neg hu] at h₂
            obtain ⟨⟨l, r⟩, h3, h4⟩ := Out.bind_eq_ok.mp h₁
            obtain ⟨⟨l', r'⟩, k3, k4⟩ := Out.bind_eq_ok.mp h₂
            cases h4
            cases k4
            exact readSeq_inj hrd _ _ _ _ _ _ _ h3 k3
  | set id sz =>
    obtain ⟨⟨l, r⟩, h3, h4⟩ := Out.bind_eq_ok.mp h₁
    obtain ⟨⟨l', r'⟩, k3, k4⟩ := Out.bind_eq_ok.mp h₂
    cases h4
    cases k4
    exact readSeq_inj hrd _ _ _ _ _ _ _ h3 k3
  | map kid id sz =>
    obtain ⟨⟨l, r⟩, h3, h4⟩ := Out.bind_eq_ok.mp h₁
    obtain ⟨⟨l', r'⟩, k3, k4⟩ := Out.bind_eq_ok.mp h₂
    cases h4
    cases k4
    exact readMapSeq_inj hrd _ _ _ _ _ _ _ _ h3 k3

end

theorem read_inj (hs : E.Sane) (n : Nat) (id : SemId) : InjRd (read E n id) := by
  induction n generalizing id with
  | zero =>
    intro bs₁ bs₂ v r₁ r₂ h₁
    cases h₁
  | succ n ih =>
    intro bs₁ bs₂ v r₁ r₂ h₁ h₂
    simp only [read] at h₁ h₂
    split at h₁
    · cases h₁
    · rename_i t ht
      rw [ht] at h₂
      exact readTy_inj ih (hs.wf _ _ ht) (hs.fields _ _ ht) _ _ _ _ _ h₁ h₂

end Verif
