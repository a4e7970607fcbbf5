import Verif.Model.Codec
import Verif.Lemmas.Fuel

/-!
# Readers look only at what they consume
-/

namespace Verif
variable {α β : Type}

/-- A reader that succeeds has looked only at the bytes `c` it consumed: it does the same whatever
follows, and hits the end of input when the bytes are cut. -/
def LocalRd (f : Bytes → Out DErr (RdPair α)) : Prop :=
  ∀ bs v rest, f bs = .ok (v, rest) → ∃ c, bs = c ++ rest ∧ (∀ ext, f (c ++ ext) = .ok (v, ext)) ∧
    ∀ p q, c = p ++ q → q ≠ [] → f p = .err .io

namespace LocalRd

theorem pure (a : α) : LocalRd fun bs => .ok (a, bs) := by
  intro bs v rest h
  cases h
  refine ⟨[], rfl, fun _ => rfl, fun p q h hq => ?_⟩
  exact absurd (List.append_eq_nil_iff.mp h.symm).2 hq

theorem fail {f : Bytes → Out DErr (RdPair α)} (h : ∀ bs r, f bs ≠ .ok r) : LocalRd f := by
  intro bs v rest hf
  exact absurd hf (h _ _)

theorem bind {f : Bytes → Out DErr (RdPair α)} {g : RdPair α → Out DErr (RdPair β)}
    (hf : LocalRd f) (hg : ∀ a, LocalRd fun bs => g (a, bs)) : LocalRd fun bs => f bs >>= g := by
  intro bs v rest h
  obtain ⟨⟨a, bs'⟩, h1, h2⟩ := Out.bind_eq_ok.mp h
  obtain ⟨c, rfl, hc, hp⟩ := hf bs a bs' h1
  obtain ⟨d, rfl, hd, hq⟩ := hg a bs' v rest h2
  refine ⟨c ++ d, by simp, fun ext => ?_, fun p q hpq hne => ?_⟩
  · dsimp only
    rw [List.append_assoc, hc]
    exact hd ext
  · rcases List.append_eq_append_iff.mp hpq with ⟨x, rfl, hx⟩ | ⟨x, hx, rfl⟩
    · dsimp only
      rw [hc]
      exact hq x q hx hne
    · by_cases hxe : x = []
      · subst hxe
        simp only [List.append_nil] at hx
        subst hx
        dsimp only
        have := hc []
        rw [List.append_nil] at this
        rw [this]
        refine hq [] d rfl ?_
        simpa using hne
      · dsimp only
        rw [hp p x hx hxe]
        rfl

/-- A step that does not read. -/
theorem guard {γ : Type} (x : Out DErr γ) {g : γ → Bytes → Out DErr (RdPair β)}
    (hg : ∀ a, LocalRd (g a)) : LocalRd fun bs => x >>= fun a => g a bs := by
  cases x with
  | ok a => exact hg a
  | err e => exact fail fun _ _ => by simp
  | panic => exact fail fun _ _ => by simp
  | diverge => exact fail fun _ _ => by simp

end LocalRd

theorem readRaw_local (n : Nat) : LocalRd (readRaw n) := by
  intro bs v rest h
  unfold readRaw at h
  split at h
  · rename_i hl
    cases h
    refine ⟨bs.take n, by simp, fun ext => ?_, fun p q hpq hne => ?_⟩
    · have : (bs.take n).length = n := by simp; omega
      unfold readRaw
      rw [if_pos (by simp; omega)]
      congr 2
      · rw [List.take_append_of_le_length (by omega), List.take_of_length_le (by omega)]
      · rw [List.drop_append_of_le_length (by omega), List.drop_of_length_le (by omega)]
        rfl
    · have h2 := congrArg List.length hpq
      have h3 : 0 < q.length := List.length_pos_iff.mpr hne
      simp only [List.length_take, List.length_append] at h2
      unfold readRaw
      rw [if_neg (by omega)]
  · cases h

theorem readLe_local (n : Nat) : LocalRd (readLe n) :=
  (readRaw_local n).bind fun _ => LocalRd.pure _

theorem readUint_local (n : Nat) : LocalRd (readUint n) := by
  unfold readUint
  exact (readLe_local n).bind fun _ => LocalRd.pure _

theorem readInt_local (n : Nat) : LocalRd (readInt n) := by
  unfold readInt
  exact (readLe_local n).bind fun _ => LocalRd.pure _

theorem readPrim_local (p : Byte) : LocalRd (readPrim p) := by
  unfold readPrim
  split
  · exact LocalRd.pure _
  · split
    · exact readUint_local 1
    · split
      · exact readUint_local _
      · split
        · exact readInt_local _
        · split
          · exact readInt_local _
          · split
            · exact readInt_local _
            · split
              · exact readInt_local _
              · exact LocalRd.fail fun _ _ => by simp

theorem readAscii_local (w : Nat) : LocalRd (readAscii w) := by
  unfold readAscii
  refine (readLe_local w).bind fun len => ?_
  refine (readRaw_local len).bind fun s => ?_
  dsimp only
  split
  · exact LocalRd.pure _
  · exact LocalRd.fail fun _ _ => by simp

theorem readString_local (w : Nat) : LocalRd (readString w) := by
  unfold readString
  refine (readLe_local w).bind fun len => ?_
  refine (readRaw_local len).bind fun s => ?_
  dsimp only
  split
  · exact LocalRd.pure _
  · exact LocalRd.fail fun _ _ => by simp

theorem readBlob_local (w : Nat) : LocalRd (readBlob w) := by
  unfold readBlob
  refine (readLe_local w).bind fun len => ?_
  exact (readRaw_local len).bind fun _ => LocalRd.pure _

section
variable {rec : SemId → Bytes → Out DErr (RdPair Val)} (hrec : ∀ id, LocalRd (rec id))
include hrec

theorem readItems_local (id : SemId) (n : Nat) : LocalRd (readItems rec id n) := by
  induction n with
  | zero => exact LocalRd.pure _
  | succ n ih => exact (hrec id).bind fun v => ih.bind fun _ => LocalRd.pure _

theorem readPairs_local (kid id : SemId) (n : Nat) : LocalRd (readPairs rec kid id n) := by
  induction n with
  | zero => exact LocalRd.pure _
  | succ n ih =>
    exact (hrec kid).bind fun k =>
      (hrec id).bind fun v => ih.bind fun _ => LocalRd.pure _

theorem readTuple_local (ids : List SemId) : LocalRd (readTuple rec ids) := by
  induction ids with
  | nil => exact LocalRd.pure _
  | cons i ids ih => exact (hrec i).bind fun v => ih.bind fun _ => LocalRd.pure _

theorem readFields_local (req : List (Name × SemId)) (acc : List (Name × Val)) :
    LocalRd (readFields rec req acc) := by
  induction req generalizing acc with
  | nil => exact LocalRd.pure _
  | cons r req ih => exact (hrec r.2).bind fun v => ih _

theorem readSeq_local (E : Env) (id : SemId) (w : Nat) : LocalRd (readSeq rec E id w) :=
  (readLe_local w).bind fun len =>
    LocalRd.guard _ fun _ => readItems_local hrec id len

theorem readMapSeq_local (E : Env) (kid id : SemId) (w : Nat) :
    LocalRd (readMapSeq rec E kid id w) :=
  (readLe_local w).bind fun len =>
    LocalRd.guard _ fun _ => readPairs_local hrec kid id len

theorem readTy_local (E : Env) (spec : SemId) (t : Ty SemId) : LocalRd (readTy rec E spec t) := by
  cases t with
  | primitive p => exact readPrim_local p
  | unicodeChar => exact LocalRd.fail fun _ _ => by simp [readTy]
  | enum vs =>
    refine (readLe_local 1).bind fun t => ?_
    dsimp only
    cases Ty.enumNameByTag vs (BitVec.ofNat 8 t) with
    | none => exact LocalRd.fail fun _ _ => by simp
    | some n => exact LocalRd.pure _
  | union vs =>
    refine (readLe_local 1).bind fun t => ?_
    dsimp only
    cases Ty.unionByTag vs (BitVec.ofNat 8 t) with
    | none => exact LocalRd.fail fun _ _ => by simp
    | some p => exact (hrec p.2).bind fun a => LocalRd.pure (Val.union (.name p.1.name) a)
  | tuple ids =>
    refine LocalRd.guard _ fun b => ?_
    cases b with
    | true =>
      refine LocalRd.guard _ fun o => ?_
      cases o with
      | none => exact LocalRd.fail fun _ _ => by simp
      | some p => exact readAscii_local _
    | false => exact (readTuple_local hrec ids).bind fun _ => LocalRd.pure _
  | struct req => exact (readFields_local hrec req []).bind fun _ => LocalRd.pure _
  | array id len =>
    show LocalRd fun bs => readTy rec E spec (.array id len) bs
    simp only [readTy]
    split
    · exact (readRaw_local _).bind fun a => LocalRd.pure (Val.bytes a)
    · exact (readItems_local hrec id _).bind fun a => LocalRd.pure (Val.list a)
  | list id sz =>
    show LocalRd fun bs => readTy rec E spec (.list id sz) bs
    simp only [readTy, readList]
    cases E.find id with
    | none => exact LocalRd.fail fun _ _ => by simp
    | some t =>
      dsimp only
      split
      · exact readAscii_local _
      · split
        · exact readBlob_local _
        · split
          · exact readString_local _
          · exact (readSeq_local hrec E id _).bind fun a => LocalRd.pure (Val.list a)
  | set id sz => exact (readSeq_local hrec E id _).bind fun _ => LocalRd.pure _
  | map kid id sz => exact (readMapSeq_local hrec E kid id _).bind fun _ => LocalRd.pure _

end

theorem read_local (E : Env) (n : Nat) (id : SemId) : LocalRd (read E n id) := by
  induction n generalizing id with
  | zero => exact LocalRd.fail fun _ _ => by simp [read]
  | succ n ih =>
    show LocalRd fun bs => read E (n + 1) id bs
    unfold read
    cases E.find id with
    | none => exact LocalRd.fail fun _ _ => by simp
    | some t => exact readTy_local ih E id t

end Verif
