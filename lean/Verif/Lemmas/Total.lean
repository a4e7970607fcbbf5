import Verif.Lemmas.Canon

/-!
# Reading returns
-/

namespace Verif

/-- The function returned, with a value or an error. -/
def Rets {ε α : Type} (o : Out ε α) : Prop := o.returned = true

theorem Rets.ok {ε α : Type} {a : α} : Rets (.ok a : Out ε α) := rfl
theorem Rets.err {ε α : Type} {e : ε} : Rets (.err e : Out ε α) := rfl

theorem Rets.bind {ε α β : Type} {o : Out ε α} {f : α → Out ε β} (h : Rets o)
    (hf : ∀ a, o = .ok a → Rets (f a)) : Rets (o >>= f) := by
  cases o with
  | ok a => exact hf a rfl
  | err e => exact Rets.err
  | panic => cases h
  | diverge => cases h

theorem readRaw_rets (n : Nat) (bs : Bytes) : Rets (readRaw n bs) := by
  unfold readRaw
  split
  · exact .ok
  · exact .err

theorem readLe_rets (n : Nat) (bs : Bytes) : Rets (readLe n bs) :=
  (readRaw_rets n bs).bind fun _ _ => .ok

theorem readUint_rets (n : Nat) (bs : Bytes) : Rets (readUint n bs) :=
  (readLe_rets n bs).bind fun _ _ => .ok

theorem readInt_rets (n : Nat) (bs : Bytes) : Rets (readInt n bs) :=
  (readLe_rets n bs).bind fun _ _ => .ok

theorem readPrim_rets (p : Byte) (bs : Bytes) : Rets (readPrim p bs) := by
  unfold readPrim
  repeat' split
  all_goals first | exact .ok | exact .err | exact readUint_rets _ _ | exact readInt_rets _ _

theorem readAscii_rets (n : Nat) (bs : Bytes) : Rets (readAscii n bs) := by
  refine (readLe_rets n bs).bind fun a _ => (readRaw_rets _ _).bind fun b _ => ?_
  dsimp only
  split
  · exact .ok
  · exact .err

theorem readString_rets (n : Nat) (bs : Bytes) : Rets (readString n bs) := by
  refine (readLe_rets n bs).bind fun a _ => (readRaw_rets _ _).bind fun b _ => ?_
  dsimp only
  split
  · exact .ok
  · exact .err

theorem readBlob_rets (n : Nat) (bs : Bytes) : Rets (readBlob n bs) :=
  (readLe_rets n bs).bind fun _ _ => (readRaw_rets _ _).bind fun _ _ => .ok

variable {rd : SemId → Bytes → Out DErr (RdPair Val)} {E : Env}

theorem readItems_rets {id : SemId} (h : ∀ bs, Rets (rd id bs)) (n : Nat) (bs : Bytes) :
    Rets (readItems rd id n bs) := by
  induction n generalizing bs with
  | zero => exact .ok
  | succ n ih => exact (h bs).bind fun _ _ => (ih _).bind fun _ _ => .ok

theorem readPairs_rets {kid id : SemId} (hk : ∀ bs, Rets (rd kid bs)) (h : ∀ bs, Rets (rd id bs))
    (n : Nat) (bs : Bytes) : Rets (readPairs rd kid id n bs) := by
  induction n generalizing bs with
  | zero => exact .ok
  | succ n ih =>
    exact (hk bs).bind fun _ _ => (h _).bind fun _ _ => (ih _).bind fun _ _ => .ok

theorem readTuple_rets {ids : List SemId} (h : ∀ r ∈ ids, ∀ bs, Rets (rd r bs)) (bs : Bytes) :
    Rets (readTuple rd ids bs) := by
  induction ids generalizing bs with
  | nil => exact .ok
  | cons id ids ih =>
    exact (h id (by simp) bs).bind fun _ _ =>
      (ih (fun r hr => h r (by simp [hr])) _).bind fun _ _ => .ok

theorem readFields_rets {req : List (Name × SemId)}
    (h : ∀ r ∈ req.map Prod.snd, ∀ bs, Rets (rd r bs)) (acc : List (Name × Val)) (bs : Bytes) :
    Rets (readFields rd req acc bs) := by
  induction req generalizing bs acc with
  | nil => exact .ok
  | cons f req ih =>
    exact (h f.2 (by simp) bs).bind fun _ _ =>
      ih (fun r hr => h r (by simp only [List.map_cons, List.mem_cons]; exact Or.inr hr)) _ _

theorem width_le {sz : Sizing} (h : sz.max.toNat < 2 ^ 32) : 256 ^ sz.byteSize ≤ 2 ^ 32 := by
  have : sz.byteSize ≤ 4 := by
    rw [byteSize_eq]
    unfold prefixWidth
    repeat' split
    all_goals omega
  calc 256 ^ sz.byteSize ≤ 256 ^ 4 := Nat.pow_le_pow_right (by decide) this
    _ = 2 ^ 32 := by decide

theorem readSeq_rets {id : SemId} {sz : Sizing} (hm : sz.max.toNat < 2 ^ 32)
    (hmem : 2 ^ 32 * (2 * E.valSize) < 2 ^ 63) (h : ∀ bs, Rets (rd id bs)) (bs : Bytes) :
    Rets (readSeq rd E id sz.byteSize bs) := by
  refine (readLe_rets _ bs).bind fun a ha => ?_
  obtain ⟨n, r⟩ := a
  obtain ⟨-, hn⟩ := readLe_ok ha
  have hn : n ≤ 2 ^ 32 := Nat.le_trans (Nat.le_of_lt hn) (width_le hm)
  refine Rets.bind ?_ fun _ _ => readItems_rets h _ _
  unfold withCapacity
  rw [if_pos]
  · exact .ok
  · calc n * E.valSize ≤ 2 ^ 32 * E.valSize := Nat.mul_le_mul_right _ hn
      _ ≤ 2 ^ 32 * (2 * E.valSize) := Nat.mul_le_mul_left _ (by omega)
      _ < 2 ^ 63 := hmem

theorem readMapSeq_rets {kid id : SemId} {sz : Sizing} (hm : sz.max.toNat < 2 ^ 32)
    (hmem : 2 ^ 32 * (2 * E.valSize) < 2 ^ 63) (hk : ∀ bs, Rets (rd kid bs))
    (h : ∀ bs, Rets (rd id bs)) (bs : Bytes) : Rets (readMapSeq rd E kid id sz.byteSize bs) := by
  refine (readLe_rets _ bs).bind fun a ha => ?_
  obtain ⟨n, r⟩ := a
  obtain ⟨-, hn⟩ := readLe_ok ha
  have hn : n ≤ 2 ^ 32 := Nat.le_trans (Nat.le_of_lt hn) (width_le hm)
  refine Rets.bind ?_ fun _ _ => readPairs_rets hk h _ _
  unfold withCapacity
  rw [if_pos]
  · exact .ok
  · calc n * (2 * E.valSize) ≤ 2 ^ 32 * (2 * E.valSize) := Nat.mul_le_mul_right _ hn
      _ < 2 ^ 63 := hmem

theorem isRString_rets {ids : List SemId}
    (hl : ∀ r ∈ ids, ∀ i sz, E.find r = some (.list i sz) →
      sz.min.toNat < 2 ^ 64 - 1 ∧ sz.max.toNat < 2 ^ 64 - 1) :
    Rets (E.isRString ids) := by
  unfold Env.isRString
  split
  · exact .ok
  · rename_i hlen
    match ids, hlen with
    | [a, b], _ =>
      refine Rets.bind .ok fun _ _ => Rets.bind ?_ fun o _ => ?_
      · cases hb : E.find b with
        | none =>
          simp only [Env.rstringSizing, List.getElem?_cons_succ, List.getElem?_cons_zero,
            Out.expect_some, Out.bind_ok, hb]
          exact .err
        | some u =>
          by_cases hu : ∃ c sz, u = .list c sz
          · obtain ⟨c, sz, rfl⟩ := hu
            rw [rstringSizing_list hb (Or.inr (hl b (by simp) c sz hb))]
            exact .ok
          · simp only [Env.rstringSizing, List.getElem?_cons_succ, List.getElem?_cons_zero,
              Out.expect_some, Out.bind_ok, hb]
            cases u with
            | list c sz => exact absurd ⟨c, sz, rfl⟩ hu
            | _ => exact .ok
      · repeat' split
        all_goals first | exact .ok | exact .err
    | [], h => simp at h
    | [_], h => simp at h
    | _ :: _ :: _ :: _, h => simp at h

theorem readTy_rets {rank : SemId → Nat} (hD : E.Decodable rank)
    {spec : SemId} {t : Ty SemId} (ht : E.find spec = some t) (hnu : t ≠ .unicodeChar)
    (h : ∀ r ∈ t.refs, E.find r ≠ some .unicodeChar → ∀ bs, Rets (rd r bs)) (bs : Bytes) :
    Rets (readTy rd E spec t bs) := by
  have hc := hD.chars spec t ht
  have h' : (∀ i sz, t ≠ .list i sz) → ∀ r ∈ t.refs, ∀ bs, Rets (rd r bs) := by
    intro hnl r hr
    rcases hc with hc | ⟨i, sz, rfl, -⟩
    · exact h r hr (hc r hr)
    · exact absurd rfl (hnl i sz)
  cases t with
  | primitive p => exact readPrim_rets p bs
  | unicodeChar => exact absurd rfl hnu
  | enum vs =>
    refine (readLe_rets 1 bs).bind fun a _ => ?_
    dsimp only
    split
    · exact .err
    · exact .ok
  | union vs =>
    refine (readLe_rets 1 bs).bind fun a _ => ?_
    dsimp only
    split
    · exact .err
    · rename_i p hp
      refine (h' (by simp) p.2 ?_ _).bind fun _ _ => .ok
      simp only [Ty.refs, List.mem_map]
      exact ⟨p, List.mem_of_find?_eq_some hp, rfl⟩
  | tuple ids =>
    have hr : Rets (E.isRString ids) := isRString_rets fun r hr i sz hf => by
      have := hD.list r i sz hf
      omega
    show Rets (readTupleTy rd E ids bs)
    unfold readTupleTy
    refine Rets.bind ?_ fun b hb => ?_
    · unfold ofUnknown
      cases hx : E.isRString ids with
      | ok b => exact .ok
      | err e => exact .err
      | panic => rw [hx] at hr; cases hr
      | diverge => rw [hx] at hr; cases hr
    · have hb' : E.isRString ids = .ok b := by
        unfold ofUnknown Out.mapErr at hb
        split at hb <;> simp_all
      cases b with
      | true =>
        obtain ⟨A, C, sz, -, c, hsz⟩ := rstring_of_isRString hb'
        rw [if_pos rfl]
        simp only [hsz, ofUnknown, Out.mapErr, Out.bind_ok]
        exact readAscii_rets _ _
      | false =>
        rw [if_neg (by decide)]
        exact (readTuple_rets (h' (by simp)) bs).bind fun _ _ => .ok
  | struct req =>
    exact (readFields_rets (h' (by simp)) [] bs).bind fun _ _ => .ok
  | array id len =>
    simp only [readTy]
    split
    · exact (readRaw_rets _ _).bind fun _ _ => .ok
    · exact (readItems_rets (h' (by simp) id (by simp [Ty.refs])) _ _).bind fun _ _ => .ok
  | list id sz =>
    have hm := (hD.list spec id sz ht).2
    simp only [readTy, readList]
    split
    · exact .err
    · rename_i u hu
      split
      · exact readAscii_rets _ _
      · split
        · exact readBlob_rets _ _
        · split
          · exact readString_rets _ _
          · rename_i hns
            have hnu : id.isUnicodeChar E.H = false := by
              cases hx : id.isUnicodeChar E.H with
              | false => rfl
              | true => exact absurd ⟨hx, by omega⟩ hns
            have hne : E.find id ≠ some .unicodeChar := by
              rcases hc with hc | ⟨i, sz', he, hx⟩
              · exact hc id (by simp [Ty.refs])
              · cases he
                rw [hnu] at hx
                cases hx
            exact (readSeq_rets hm hD.memory (h id (by simp [Ty.refs]) hne) bs).bind fun _ _ => .ok
  | set id sz =>
    exact (readSeq_rets (hD.set spec id sz ht) hD.memory
      (h' (by simp) id (by simp [Ty.refs])) bs).bind fun _ _ => .ok
  | map kid id sz =>
    exact (readMapSeq_rets (hD.map spec kid id sz ht) hD.memory
      (h' (by simp) kid (by simp [Ty.refs])) (h' (by simp) id (by simp [Ty.refs])) bs).bind
        fun _ _ => .ok

theorem read_rets {rank : SemId → Nat} (hD : E.Decodable rank) {n : Nat} {id : SemId}
    (hn : rank id < n) (hnu : E.find id ≠ some .unicodeChar) (bs : Bytes) :
    Rets (read E n id bs) := by
  induction n generalizing id bs with
  | zero => omega
  | succ n ih =>
    simp only [read]
    split
    · exact .err
    · rename_i t ht
      refine readTy_rets hD ht (fun h => hnu (by rw [ht, h])) (fun r hr hne bs => ?_) bs
      have := hD.acyclic id t ht r hr
      exact ih (by omega) hne bs

end Verif
