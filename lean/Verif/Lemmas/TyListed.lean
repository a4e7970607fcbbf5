import Verif.Lemmas.TyCodecTy
import Verif.Spec.TyCodec

/-! # Types read from lists of variants (C10) -/

namespace Verif

variable {Ref : Type}

/-! ## Enums -/

theorem cmpInsert_some_last {α : Type} {cmp : α → α → Ordering} {acc out : List α} {x : α}
    (h : cmpInsert cmp acc x = some out) (hl : ∀ a ∈ acc, cmp x a ≠ .lt) : out = acc ++ [x] := by
  induction acc generalizing out with
  | nil => cases h; rfl
  | cons y m ih =>
    unfold cmpInsert at h
    cases hc : cmp x y with
    | lt => exact absurd hc (hl y (by simp))
    | eq => rw [hc] at h; cases h
    | gt =>
      rw [hc] at h
      dsimp only at h
      obtain ⟨o, h1, rfl⟩ := Option.map_eq_some_iff.mp h
      rw [ih h1 fun a ha => hl a (by simp [ha])]
      rfl

/-- Variants are read in the order given if no name is given twice. -/
theorem decOrd_listed {R : Variant → Bytes → Prop} {d : Bytes → Out CErr (Variant × Bytes)} (hd : Parsed R d) {n : Nat}
    {acc out : List Variant} {bs rest : Bytes} (h : decOrd variantCmp d n acc bs = .ok (out, rest)) :
    ∃ l cs, l.length = n ∧ bs = cs.flatten ++ rest ∧ All2 R l cs ∧
      (((acc ++ l).map Variant.name).Nodup → acc.Pairwise (fun a b => a.tag.toNat < b.tag.toNat) →
        out = acc ++ l ∧ out.Pairwise (fun a b => a.tag.toNat < b.tag.toNat)) := by
  induction n generalizing acc bs with
  | zero => cases h; exact ⟨[], [], rfl, rfl, trivial, fun _ h => ⟨by simp, h⟩⟩
  | succ n ih =>
    obtain ⟨⟨x, b1⟩, h1, h2⟩ := Out.bind_eq_ok.mp h
    dsimp only at h2
    split at h2
    · cases h2
    rename_i hg
    split at h2
    · cases h2
    rename_i acc' hi
    obtain ⟨l, cs, hl, hb, hr, hn⟩ := ih h2
    obtain ⟨c, rfl, hc⟩ := hd _ _ _ h1
    refine ⟨x :: l, c :: cs, by simp [hl], by rw [hb]; simp, ⟨hc, hr⟩, fun hnd hs => ?_⟩
    have hname : ∀ a ∈ acc, a.name ≠ x.name := by
      intro a ha e
      rw [List.map_append, List.nodup_append] at hnd
      exact hnd.2.2 a.name (List.mem_map_of_mem ha) x.name (by simp) e
    have hle : ∀ a ∈ acc, a.tag.toNat ≤ x.tag.toNat := by
      intro a ha
      cases hlast : acc.getLast? with
      | none => rw [List.getLast?_eq_none_iff.mp hlast] at ha; cases ha
      | some z =>
        obtain ⟨ys, rfl⟩ := List.getLast?_eq_some_iff.mp hlast
        have haz : a.tag.toNat ≤ z.tag.toNat := by
          rcases List.mem_append.mp ha with ha | ha
          · exact Nat.le_of_lt ((List.pairwise_append.mp hs).2.2 a ha z (by simp))
          · simp only [List.mem_singleton] at ha
            rw [ha]; exact Nat.le_refl _
        have hz : z.tag.toNat ≤ x.tag.toNat := by
          unfold lastGt at hg
          rw [hlast] at hg
          simp only [decide_eq_true_eq] at hg
          apply Nat.le_of_not_lt
          intro hlt
          apply hg
          have h1 : z.tag ≠ x.tag := fun e => by rw [e] at hlt; omega
          unfold variantCmp Variant.cmp Variant.eqv
          rw [if_neg (by simp [h1, hname z (by simp)]), if_neg (by omega)]
        omega
    have hout : acc' = acc ++ [x] := by
      refine cmpInsert_some_last hi fun a ha he => ?_
      unfold variantCmp Variant.cmp at he
      have := hle a ha
      split at he
      · cases he
      · rw [if_neg (by omega)] at he
        cases he
    subst hout
    have hlt : ∀ a ∈ acc, a.tag.toNat < x.tag.toNat := by
      intro a ha
      apply Nat.lt_of_le_of_ne (hle a ha)
      intro e
      -- a variant with the same tag is refused
      have he : variantCmp x a = .eq := by
        unfold variantCmp Variant.cmp Variant.eqv
        rw [if_pos (by simp [BitVec.eq_of_toNat_eq e])]
      clear hn h2 hle hname hnd hs hg ih
      have key : ∀ (acc out : List Variant), cmpInsert variantCmp acc x = some (out ++ [x]) → out = acc → a ∉ acc := by
        intro acc
        induction acc with
        | nil => simp
        | cons y m ih2 =>
          intro out h ho
          subst ho
          unfold cmpInsert at h
          cases hc : variantCmp x y with
          | lt =>
            rw [hc] at h
            dsimp only at h
            have h := Option.some.inj h
            simp only [List.cons_append, List.cons.injEq] at h
            rw [h.1] at hc
            unfold variantCmp Variant.cmp Variant.eqv at hc
            simp at hc
          | eq => rw [hc] at h; cases h
          | gt =>
            rw [hc] at h
            dsimp only at h
            obtain ⟨o, h1, h2⟩ := Option.map_eq_some_iff.mp h
            simp only [List.cons_append, List.cons.injEq, true_and] at h2
            subst h2
            intro hm
            rcases List.mem_cons.mp hm with rfl | hm
            · rw [he] at hc; cases hc
            · exact ih2 _ h1 rfl hm
      exact key acc acc hi rfl ha
    have := hn (by simpa using hnd) (by
      rw [List.pairwise_append]
      exact ⟨hs, List.pairwise_singleton _ _, fun a ha b hb => by rw [List.mem_singleton.mp hb]; exact hlt a ha⟩)
    exact ⟨by rw [this.1]; simp, this.2⟩

theorem decSet_variants {R : Variant → Bytes → Prop} {d : Bytes → Out CErr (Variant × Bytes)} (hd : Parsed R d) {bs rest : Bytes}
    {vs : List Variant} (h : decSet 1 1 variantCmp d bs = .ok (vs, rest)) :
    ∃ l c, bs = c ++ rest ∧ SeqOf 1 R l c ∧ l.length < 256 ∧ ((l.map Variant.name).Nodup → vs = l ∧ VariantsWF vs) := by
  obtain ⟨⟨n, b1⟩, h1, h2⟩ := Out.bind_eq_ok.mp h
  obtain ⟨⟨l', b2⟩, h3, h4⟩ := Out.bind_eq_ok.mp h2
  obtain ⟨l'', h5, h6⟩ := Out.bind_eq_ok.mp h4
  cases h6
  unfold checkMin at h5
  split at h5
  · rename_i hlen
    cases h5
    obtain ⟨rfl, hn⟩ := decNat_ok h1
    obtain ⟨l, cs, rfl, hb, hr, hw⟩ := decOrd_listed hd h3
    refine ⟨l, le 1 l.length ++ cs.flatten, ?_, ⟨cs, rfl, hr⟩, by simpa using hn, fun hnd => ?_⟩
    · rw [hb]; simp
    · obtain ⟨h7, h8⟩ := hw (by simpa using hnd) .nil
      simp only [List.nil_append] at h7
      subst h7
      exact ⟨rfl, hlen, by simpa using Nat.le_of_lt_succ hn, h8, by rwa [List.Nodup, List.pairwise_map] at hnd⟩
  · cases h5

/-! ## Unions -/

theorem decUnion_listed {f : Ref → Bytes} {d : Bytes → Out CErr (Ref × Bytes)} (hd : Canonical f d) {bs rest : Bytes}
    {vs : List (Variant × Ref)} (h : decUnion d bs = .ok (vs, rest)) :
    ∃ l c, bs = c ++ rest ∧ c = encSeq 1 (encEntry f) (l.map fieldOf) ∧ l.length < 256 ∧
      ((l.map fun p => p.1.name).Nodup → vs = l ∧ VariantsWF (vs.map Prod.fst)) := by
  obtain ⟨⟨m, b1⟩, h1, h2⟩ := Out.bind_eq_ok.mp h
  obtain ⟨vs', h3, h4⟩ := Out.bind_eq_ok.mp h2
  cases h4
  unfold checkMin at h3
  split at h3
  · rename_i hlen
    cases h3
    have hex : Canonical (encEntry f) (decPair decByte (decPair decName d)) := by
      intro bs e rest h
      obtain ⟨c, rfl, c', rfl, hc⟩ := decEntry_parsed hd.parsed _ _ _ h
      rw [show c' = f e.2.2 from hc]
      rfl
    obtain ⟨c, hb, hc⟩ := decSet_parsed_key (key := Prod.fst) hex.parsed _ _ _ h1
    obtain ⟨hsort, _, hlt⟩ := decSet_sorted (key := Prod.fst) h1
    have hm : m = (m.map fun e => ((⟨e.2.1, e.1⟩, e.2.2) : Variant × Ref)).map fieldOf := by
      rw [List.map_map]
      exact (List.map_id' m).symm
    refine ⟨m.map fun e => (⟨e.2.1, e.1⟩, e.2.2), c, hb, ?_, by simpa using hlt, fun hnd => ?_⟩
    · rw [← hm]; exact seqOf_exact hc
    · generalize hl : m.map (fun e => ((⟨e.2.1, e.1⟩, e.2.2) : Variant × Ref)) = l at hm hnd
      subst hm
      have hwf : VariantsWF (l.map Prod.fst) := by
        refine ⟨?_, ?_, ?_, ?_⟩
        · cases l with
          | nil => simp [unionOfFields] at hlen
          | cons => simp
        · simp only [List.length_map] at hlt ⊢
          omega
        · rw [List.pairwise_map] at hsort ⊢
          exact hsort.imp fun {a b} hab => of_decide_eq_true hab
        · rw [List.pairwise_map]
          rwa [List.Nodup, List.pairwise_map] at hnd
      rw [unionOfFields_eq hwf]
      exact ⟨rfl, hwf⟩
  · cases h3

/-! ## Types -/

theorem encSeq_inj {α : Type} {f : α → Bytes} {d : Bytes → Out CErr (α × Bytes)} (h : ∀ a, ReadsBack f d a) {l m : List α}
    (hl : l.length < 256) (hm : m.length < 256) (e : encSeq 1 f l = encSeq 1 f m) : l = m := by
  have h1 := decVec_append (w := 1) (lo := 0) (l := l) (fun a _ => h a) (Nat.zero_le _) (by simpa using hl) []
  have h2 := decVec_append (w := 1) (lo := 0) (l := m) (fun a _ => h a) (Nat.zero_le _) (by simpa using hm) []
  rw [e, h2] at h1
  cases h1
  rfl

theorem le_one (n : Nat) : le 1 n = [BitVec.ofNat 8 n] := rfl

theorem decTy_inv {d : Bytes → Out CErr (Ref × Bytes)} {bs rest : Bytes} {t : Ty Ref} (h : decTy d bs = .ok (t, rest)) :
    (∀ vs, t = .enum vs → ∃ b, bs = 3 :: b ∧ decSet 1 1 variantCmp decVariant b = .ok (vs, rest)) ∧
    (∀ vs, t = .union vs → ∃ b, bs = 4 :: b ∧ decUnion d b = .ok (vs, rest)) := by
  obtain ⟨⟨tag, b⟩, h1, h2⟩ := Out.bind_eq_ok.mp h
  have h1 := decByte_ok h1
  subst h1
  have ht : ∀ n, tag.toNat = n → tag = BitVec.ofNat 8 n := fun n hn => by
    rw [← hn]; simp
  dsimp only at h2
  split at h2
  · obtain ⟨⟨c, b2⟩, h3, h4⟩ := Out.bind_eq_ok.mp h2
    cases h4
    exact ⟨nofun, nofun⟩
  · cases h2
    exact ⟨nofun, nofun⟩
  · rename_i hn
    obtain ⟨⟨vs, b2⟩, h3, h4⟩ := Out.bind_eq_ok.mp h2
    cases h4
    refine ⟨fun us e => ?_, nofun⟩
    cases e
    exact ⟨b, by rw [ht _ hn]; rfl, h3⟩
  · rename_i hn
    obtain ⟨⟨vs, b2⟩, h3, h4⟩ := Out.bind_eq_ok.mp h2
    cases h4
    refine ⟨nofun, fun us e => ?_⟩
    cases e
    exact ⟨b, by rw [ht _ hn]; rfl, h3⟩
  · obtain ⟨⟨fs, b2⟩, h3, h4⟩ := Out.bind_eq_ok.mp h2
    cases h4
    exact ⟨nofun, nofun⟩
  · obtain ⟨⟨fs, b2⟩, h3, h4⟩ := Out.bind_eq_ok.mp h2
    cases h4
    exact ⟨nofun, nofun⟩
  · obtain ⟨⟨ty, b2⟩, h3, h4⟩ := Out.bind_eq_ok.mp h2
    obtain ⟨⟨len, b3⟩, h5, h6⟩ := Out.bind_eq_ok.mp h4
    cases h6
    exact ⟨nofun, nofun⟩
  · obtain ⟨⟨ty, b2⟩, h3, h4⟩ := Out.bind_eq_ok.mp h2
    obtain ⟨⟨len, b3⟩, h5, h6⟩ := Out.bind_eq_ok.mp h4
    cases h6
    exact ⟨nofun, nofun⟩
  · obtain ⟨⟨ty, b2⟩, h3, h4⟩ := Out.bind_eq_ok.mp h2
    obtain ⟨⟨len, b3⟩, h5, h6⟩ := Out.bind_eq_ok.mp h4
    cases h6
    exact ⟨nofun, nofun⟩
  · obtain ⟨⟨k, b2⟩, h3, h4⟩ := Out.bind_eq_ok.mp h2
    obtain ⟨⟨ty, b3⟩, h5, h6⟩ := Out.bind_eq_ok.mp h4
    obtain ⟨⟨sz, b4⟩, h7, h8⟩ := Out.bind_eq_ok.mp h6
    cases h8
    exact ⟨nofun, nofun⟩
  · cases h2

theorem enum_listing (vs : List Variant) : encSeq 1 encVariant vs =
    BitVec.ofNat 8 vs.length :: vs.flatMap fun v => BitVec.ofNat 8 v.name.bytes.length :: (v.name.bytes ++ [v.tag]) := by
  unfold encSeq
  rw [le_one, List.singleton_append]
  congr 2

theorem union_listing (vs : List (Variant × SemId)) : encSeq 1 (encEntry encId) (vs.map fieldOf) =
    BitVec.ofNat 8 vs.length ::
      vs.flatMap fun v => v.1.tag :: BitVec.ofNat 8 v.1.name.bytes.length :: (v.1.name.bytes ++ v.2.bytes) := by
  unfold encSeq
  rw [le_one, List.singleton_append, List.length_map, List.flatMap_map]
  congr 2

/-- The bytes read as a type are its encoding unless they list variants of the same name. -/
theorem decTy_listed {bs rest : Bytes} {t : Ty SemId} (h : decTy decId bs = .ok (t, rest)) :
    ∃ c, bs = c ++ rest ∧ (¬NamesTwice c → c = t.encode encId) ∧ (t.WF → NamesTwice c → c ≠ t.encode encId) := by
  have hne : ∀ c, c = t.encode encId → t.WF → ¬NamesTwice c := by
    rintro c rfl hw hc
    cases t with
    | enum vs =>
      generalize hb : (Ty.enum vs).encode encId = b at hc
      cases hc with
      | enum h1 h2 =>
        rename_i us
        rw [← enum_listing] at hb
        have := encSeq_inj decVariant_append (by have := hw.2.1; omega) h1 (List.cons.inj hb).2
        subst this
        have h4 := hw.2.2.2
        exact h2 (by rwa [List.Nodup, List.pairwise_map])
      | union h1 h2 => cases hb
    | union vs =>
      generalize hb : (Ty.union vs).encode encId = b at hc
      cases hc with
      | enum h1 h2 => cases hb
      | union h1 h2 =>
        rename_i us
        rw [← union_listing] at hb
        have hb' : encSeq 1 (encEntry encId) (unionFields vs) = encSeq 1 (encEntry encId) (us.map fieldOf) := (List.cons.inj hb).2
        have hw : VariantsWF (vs.map Prod.fst) := hw
        rw [unionFields_eq hw] at hb'
        have hl := hw.2.1
        rw [List.length_map] at hl
        have := encSeq_inj (fun e => decEntry_append (decId_append _)) (by simp; omega) (by simpa using h1) hb'
        have h4 := hw.2.2.2
        apply h2
        have hmap : ∀ l : List (Variant × SemId), (l.map fun v => v.1.name) = (l.map fieldOf).map fun e => e.2.1 := fun l => by
          rw [List.map_map]; rfl
        rw [hmap, ← this, ← hmap]
        rw [List.pairwise_map] at h4
        rwa [List.Nodup, List.pairwise_map]
    | _ =>
      rw [Ty.encode] at hc
      generalize hb : (_ :: _ : Bytes) = b at hc
      cases hc <;> cases hb
  by_cases hu : ∃ vs, t = .union vs
  · obtain ⟨vs, rfl⟩ := hu
    obtain ⟨b, rfl, h5⟩ := (decTy_inv h).2 vs rfl
    obtain ⟨l, c, rfl, hc, hlt, hl⟩ := decUnion_listed decId_ok h5
    refine ⟨4 :: c, rfl, fun hn => ?_, fun hw hn he => hne _ he hw hn⟩
    by_cases hnd : (l.map fun p => p.1.name).Nodup
    · obtain ⟨rfl, hw⟩ := hl hnd
      rw [hc, ← unionFields_eq hw]
      rfl
    · rw [union_listing] at hc
      exact absurd (hc ▸ .union hlt hnd) hn
  by_cases he : ∃ vs, t = .enum vs
  · obtain ⟨vs, rfl⟩ := he
    obtain ⟨b, rfl, h5⟩ := (decTy_inv h).1 vs rfl
    obtain ⟨l, c, rfl, hc, hlt, hl⟩ := decSet_variants decVariant_ok.parsed h5
    have hc := seqOf_exact hc
    refine ⟨3 :: c, rfl, fun hn => ?_, fun hw hn he => hne _ he hw hn⟩
    by_cases hnd : (l.map Variant.name).Nodup
    · obtain ⟨rfl, hw⟩ := hl hnd
      rw [hc]
      rfl
    · rw [enum_listing] at hc
      exact absurd (hc ▸ .enum hlt hnd) hn
  · obtain ⟨c, rfl, hc⟩ := decTy_exact decId_ok _ _ _ h
    exact ⟨c, rfl, fun _ => hc (fun vs e => absurd ⟨vs, e⟩ he) fun vs e => hu ⟨vs, e⟩, fun hw hn he => hne c he hw hn⟩

end Verif
