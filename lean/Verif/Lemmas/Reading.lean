import Verif.Lemmas.Total
import Verif.Lemmas.Fuel
import Verif.Spec.Reading

/-!
# The course of reading
-/

namespace Verif

/-- Both panic, both go on for ever, or none of both. -/
def SameWay {ε α β : Type} (o : Out ε α) (o' : Out ε β) : Prop :=
  (o = .panic ↔ o' = .panic) ∧ (o = .diverge ↔ o' = .diverge)

theorem SameWay.map {ε α β : Type} (o : Out ε α) (f : α → β) : SameWay (o >>= fun a => pure (f a)) o := by
  cases o <;> exact ⟨⟨by rintro ⟨⟩ <;> rfl, by rintro ⟨⟩ <;> rfl⟩, ⟨by rintro ⟨⟩ <;> rfl, by rintro ⟨⟩ <;> rfl⟩⟩

theorem SameWay.trans {ε α β γ : Type} {o : Out ε α} {p : Out ε β} {q : Out ε γ} (h : SameWay o p) (h' : SameWay p q) :
    SameWay o q := ⟨h.1.trans h'.1, h.2.trans h'.2⟩

theorem SameWay.bind {ε α β γ : Type} {o : Out ε α} {f : α → Out ε β} {g : α → Out ε γ} (h : ∀ a, SameWay (f a) (g a)) :
    SameWay (o >>= f) (o >>= g) := by
  cases o with
  | ok a => exact h a
  | err e => exact ⟨⟨nofun, nofun⟩, ⟨nofun, nofun⟩⟩
  | panic => exact ⟨⟨fun _ => rfl, fun _ => rfl⟩, ⟨nofun, nofun⟩⟩
  | diverge => exact ⟨⟨nofun, nofun⟩, ⟨fun _ => rfl, fun _ => rfl⟩⟩

theorem SameWay.symm {ε α β : Type} {o : Out ε α} {p : Out ε β} (h : SameWay o p) : SameWay p o := ⟨h.1.symm, h.2.symm⟩

theorem SameWay.refl {ε α : Type} (o : Out ε α) : SameWay o o := ⟨Iff.rfl, Iff.rfl⟩

variable {rd : SemId → Bytes → Out DErr (RdPair Val)} {E : Env}

theorem readItems_eq (id : SemId) (n : Nat) (bs : Bytes) :
    readItems rd id n bs = readTuple rd (List.replicate n id) bs := by
  induction n generalizing bs with
  | zero => rfl
  | succ n ih => simp only [readItems, List.replicate_succ, readTuple, ih]

theorem readFields_same (req : List (Name × SemId)) (acc : List (Name × Val)) (bs : Bytes) :
    SameWay (readFields rd req acc bs) (readTuple rd (req.map Prod.snd) bs) := by
  induction req generalizing acc bs with
  | nil => exact ⟨⟨nofun, nofun⟩, ⟨nofun, nofun⟩⟩
  | cons f req ih =>
    obtain ⟨n, id⟩ := f
    exact SameWay.bind fun a => (ih _ _).trans (SameWay.map _ _).symm

theorem readPairs_same (kid id : SemId) (n : Nat) (bs : Bytes) :
    SameWay (readPairs rd kid id n bs) (readTuple rd (List.replicate n [kid, id]).flatten bs) := by
  induction n generalizing bs with
  | zero => exact ⟨⟨nofun, nofun⟩, ⟨nofun, nofun⟩⟩
  | succ n ih =>
    simp only [List.replicate_succ, List.flatten_cons, List.cons_append, List.nil_append]
    refine SameWay.bind fun a => ?_
    dsimp only
    refine SameWay.trans ?_ (SameWay.map _ _).symm
    refine SameWay.bind fun b => ?_
    exact (SameWay.map _ _).trans ((ih _).trans (SameWay.map _ _).symm)

theorem announces_read {max : BitVec 64} {sz : Sizing} (hm : sz.max = max) {bs rest : Bytes} {n : Nat}
    (h : Announces max bs n rest) : readLe sz.byteSize bs = .ok (n, rest) := by
  obtain ⟨h1, rfl⟩ := h
  rw [byteSize_eq, hm]
  exact readLe_append h1 rest

theorem read_announces {sz : Sizing} {bs rest : Bytes} {n : Nat} (h : readLe sz.byteSize bs = .ok (n, rest)) :
    Announces sz.max bs n rest := by
  obtain ⟨h1, h2⟩ := readLe_ok h
  rw [byteSize_eq] at h1 h2
  exact ⟨h2, h1⟩

theorem plainList_read (hs : E.Sane) {id r : SemId} {sz : Sizing} (hf : E.find id = some (.list r sz))
    (h : E.PlainList r sz) (bs : Bytes) :
    readTy rd E id (.list r sz) bs = (do
      let (l, bs) ← readSeq rd E r sz.byteSize bs
      pure (.list l, bs)) := by
  obtain ⟨u, hu⟩ := hs.closed id _ hf r (by simp [Ty.refs])
  simp only [readTy, readList, hu]
  rw [if_neg, if_neg, if_neg]
  · rintro ⟨h1, h2⟩
    have := h.2 (.inr h1)
    omega
  · rintro ⟨h1, h2⟩
    have := h.2 (.inl h1)
    omega
  · intro hc
    obtain ⟨C, rfl, hC⟩ := (isCharEnum_iff u).mp hc
    exact h.1 C ⟨hu, hC⟩

theorem overflows_sizing {ids : List SemId} (h : E.Overflows ids) : E.isRString ids = .panic := by
  obtain ⟨hd, a, b, c, sz, rfl, hb, hm⟩ := h
  have : (E.debug && (sz.min == -1 || sz.max == -1)) = true := by
    rw [hd, Bool.true_and, Bool.or_eq_true]
    rcases hm with hm | hm
    · exact .inl (by rw [beq_iff_eq]; exact BitVec.eq_of_toNat_eq hm)
    · exact .inr (by rw [beq_iff_eq]; exact BitVec.eq_of_toNat_eq hm)
  simp only [Env.isRString, List.length_cons, List.length_nil, Nat.zero_add, Nat.reduceAdd, ne_eq, not_true_eq_false,
    if_false, List.getElem?_cons_zero, Out.expect_some, Out.bind_ok, Env.rstringSizing, List.getElem?_cons_succ, hb]
  rw [if_pos this]
  rfl

theorem not_overflows {ids : List SemId} (h : ¬ E.Overflows ids) {a b c : SemId} {sz : Sizing} (hi : ids = [a, b])
    (hb : E.find b = some (.list c sz)) :
    E.debug = false ∨ (sz.min.toNat < 2 ^ 64 - 1 ∧ sz.max.toNat < 2 ^ 64 - 1) := by
  by_cases hd : E.debug = true
  · right
    have h1 := sz.min.isLt
    have h2 := sz.max.isLt
    have : ¬ (sz.min.toNat = 2 ^ 64 - 1 ∨ sz.max.toNat = 2 ^ 64 - 1) := fun hm => h ⟨hd, a, b, c, sz, hi, hb, hm⟩
    omega
  · left
    simpa using hd

theorem not_rstring_read (hs : E.Sane) {id : SemId} {ids : List SemId} (hf : E.find id = some (.tuple ids))
    (hr : ∀ A C sz, ¬ E.RString ids A C sz) (ho : ¬ E.Overflows ids) : E.isRString ids = .ok false :=
  isRString_false hr (fun r hr => hs.closed id _ hf r hr) fun a b hi c sz hb =>
    ⟨hs.closed b _ hb c (by simp [Ty.refs]), not_overflows ho hi hb⟩

theorem trap_panics (hs : E.Sane) {id : SemId} {bs : Bytes} (h : Trap E id bs) {t : Ty SemId} (ht : E.find id = some t) :
    readTy rd E id t bs = .panic := by
  have cap : ∀ {k n}, ¬ InMemory k n → withCapacity k n = .panic := fun h => if_neg h
  cases h with
  | char hf => rw [hf] at ht; cases ht; rfl
  | pair hf ho =>
    rw [hf] at ht; cases ht
    simp only [readTy, readTupleTy, overflows_sizing ho]
    rfl
  | list hf hp ha hm =>
    rw [hf] at ht; cases ht
    rw [plainList_read hs hf hp]
    simp only [readSeq, announces_read rfl ha, Out.bind_ok, cap hm]
    rfl
  | set hf ha hm =>
    rw [hf] at ht; cases ht
    simp only [readTy, readSeq, announces_read rfl ha, Out.bind_ok, cap hm]
    rfl
  | map hf ha hm =>
    rw [hf] at ht; cases ht
    simp only [readTy, readMapSeq, announces_read rfl ha, Out.bind_ok, cap hm]
    rfl

theorem queue_same (hs : E.Sane) {id : SemId} {bs bs' : Bytes} {ids : List SemId} (h : Queue E id bs ids bs')
    {t : Ty SemId} (ht : E.find id = some t) : SameWay (readTy rd E id t bs) (readTuple rd ids bs') := by
  have cap : ∀ {k n}, InMemory k n → withCapacity k n = .ok () := fun h => if_pos h
  cases h with
  | tuple hf hr ho =>
    rw [hf] at ht; cases ht
    simp only [readTy, readTupleTy, not_rstring_read hs hf hr ho]
    exact SameWay.map _ _
  | struct hf =>
    rw [hf] at ht; cases ht
    exact (SameWay.map _ _).trans (readFields_same _ _ _)
  | union hf hv =>
    rename_i r vs n t
    rw [hf] at ht; cases ht
    have hw := hs.wf id _ hf
    have h1 : readLe 1 (t :: bs') = .ok (t.toNat, bs') := by
      have := readLe_append (w := 1) (n := t.toNat) (by have := t.isLt; omega) bs'
      rw [show le 1 t.toNat = [t] by simp [le]] at this
      exact this
    have h2 : Ty.unionByTag vs (BitVec.ofNat 8 t.toNat) = some (⟨n, t⟩, r) :=
      (unionByTag_iff hw _ _).mpr ⟨hv, by simp⟩
    simp only [readTy, h1, Out.bind_ok, h2, readTuple]
    exact SameWay.bind fun _ => ⟨⟨nofun, nofun⟩, ⟨nofun, nofun⟩⟩
  | array hf hb =>
    rw [hf] at ht; cases ht
    simp only [readTy, hb, Bool.false_eq_true, if_false, readItems_eq]
    exact SameWay.map _ _
  | list hf hp ha hm =>
    rw [hf] at ht; cases ht
    rw [plainList_read hs hf hp]
    simp only [readSeq, announces_read rfl ha, Out.bind_ok, cap hm, readItems_eq]
    exact SameWay.map _ _
  | set hf ha hm =>
    rw [hf] at ht; cases ht
    simp only [readTy, readSeq, announces_read rfl ha, Out.bind_ok, cap hm, readItems_eq]
    exact SameWay.map _ _
  | map hf ha hm =>
    rw [hf] at ht; cases ht
    simp only [readTy, readMapSeq, announces_read rfl ha, Out.bind_ok, cap hm]
    exact (SameWay.map _ _).trans (readPairs_same _ _ _ _)

theorem course (hs : E.Sane) {id : SemId} {bs : Bytes} {t : Ty SemId} (ht : E.find id = some t) :
    Trap E id bs ∨ (∃ ids bs', Queue E id bs ids bs') ∨ ∀ rd, Rets (readTy rd E id t bs) := by
  cases t with
  | primitive p => exact .inr (.inr fun rd => readPrim_rets p bs)
  | unicodeChar => exact .inl (.char ht)
  | enum vs =>
    refine .inr (.inr fun rd => (readLe_rets 1 bs).bind fun a _ => ?_)
    dsimp only
    split
    · exact .err
    · exact .ok
  | union vs =>
    have hw := hs.wf id _ ht
    cases h1 : readLe 1 bs with
    | ok a =>
      obtain ⟨k, bs'⟩ := a
      obtain ⟨rfl, hk⟩ := readLe_ok h1
      cases h2 : Ty.unionByTag vs (BitVec.ofNat 8 k) with
      | some p =>
        obtain ⟨⟨n, t⟩, r⟩ := p
        obtain ⟨h3, h4⟩ := (unionByTag_iff hw _ _).mp h2
        refine .inr (.inl ⟨[r], bs', ?_⟩)
        rw [show le 1 k = [t] by simp only at h4; rw [h4]; simp [le]]
        exact .union ht h3
      | none =>
        refine .inr (.inr fun rd => ?_)
        simp only [readTy, h1, Out.bind_ok, h2]
        exact .err
    | err e => refine .inr (.inr fun rd => ?_); simp only [readTy, h1]; exact .err
    | panic => exact absurd (readLe_rets 1 bs) (by rw [h1]; nofun)
    | diverge => exact absurd (readLe_rets 1 bs) (by rw [h1]; nofun)
  | tuple ids =>
    by_cases ho : E.Overflows ids
    · exact .inl (.pair ht ho)
    · by_cases hr : ∃ A C sz, E.RString ids A C sz
      · obtain ⟨A, C, sz, hr⟩ := hr
        have hr' := hr
        obtain ⟨a, b, c, hi, ha, hA, hb, hc, hC⟩ := hr'
        obtain ⟨h1, k, h2⟩ := isRString_true hr (not_overflows ho hi hb)
        refine .inr (.inr fun rd => ?_)
        simp only [readTy, readTupleTy, h1, h2, ofUnknown, Out.mapErr, Out.bind_ok, if_true]
        exact readAscii_rets _ _
      · exact .inr (.inl ⟨ids, bs, .tuple ht (fun A C sz h => hr ⟨A, C, sz, h⟩) ho⟩)
  | struct fs => exact .inr (.inl ⟨_, _, .struct ht⟩)
  | array r len =>
    cases hb : r.isByte E.H with
    | true =>
      refine .inr (.inr fun rd => ?_)
      simp only [readTy, hb, if_true]
      exact (readRaw_rets _ _).bind fun _ _ => .ok
    | false => exact .inr (.inl ⟨_, _, .array ht hb⟩)
  | list r sz =>
    by_cases hp : E.PlainList r sz
    · cases h1 : readLe sz.byteSize bs with
      | ok a =>
        obtain ⟨k, bs'⟩ := a
        by_cases hm : InMemory E.valSize k
        · exact .inr (.inl ⟨_, _, .list ht hp (read_announces h1) hm⟩)
        · exact .inl (.list ht hp (read_announces h1) hm)
      | err e =>
        refine .inr (.inr fun rd => ?_)
        rw [plainList_read hs ht hp]
        simp only [readSeq, h1]
        exact .err
      | panic => exact absurd (readLe_rets _ bs) (by rw [h1]; nofun)
      | diverge => exact absurd (readLe_rets _ bs) (by rw [h1]; nofun)
    · refine .inr (.inr fun rd => ?_)
      obtain ⟨u, hu⟩ := hs.closed id _ ht r (by simp [Ty.refs])
      simp only [readTy, readList, hu]
      split
      · exact readAscii_rets _ _
      · split
        · exact readBlob_rets _ _
        · split
          · exact readString_rets _ _
          · rename_i h1 h2 h3
            refine absurd ⟨fun C hC => ?_, ?_⟩ hp
            · have := hC.1
              rw [hu] at this
              cases this
              exact h1 ((isCharEnum_iff _).mpr ⟨C, rfl, hC.2⟩)
            · rintro (h | h)
              · have : ¬ sz.max.toNat ≤ 0xffffffff := fun hx => h2 ⟨h, hx⟩
                omega
              · have : ¬ sz.max.toNat ≤ 0xffffffff := fun hx => h3 ⟨h, hx⟩
                omega
  | set r sz =>
    cases h1 : readLe sz.byteSize bs with
    | ok a =>
      obtain ⟨k, bs'⟩ := a
      by_cases hm : InMemory E.valSize k
      · exact .inr (.inl ⟨_, _, .set ht (read_announces h1) hm⟩)
      · exact .inl (.set ht (read_announces h1) hm)
    | err e =>
      refine .inr (.inr fun rd => ?_)
      simp only [readTy, readSeq, h1]
      exact .err
    | panic => exact absurd (readLe_rets _ bs) (by rw [h1]; nofun)
    | diverge => exact absurd (readLe_rets _ bs) (by rw [h1]; nofun)
  | map k r sz =>
    cases h1 : readLe sz.byteSize bs with
    | ok a =>
      obtain ⟨n, bs'⟩ := a
      by_cases hm : InMemory (2 * E.valSize) n
      · exact .inr (.inl ⟨_, _, .map ht (read_announces h1) hm⟩)
      · exact .inl (.map ht (read_announces h1) hm)
    | err e =>
      refine .inr (.inr fun rd => ?_)
      simp only [readTy, readMapSeq, h1]
      exact .err
    | panic => exact absurd (readLe_rets _ bs) (by rw [h1]; nofun)
    | diverge => exact absurd (readLe_rets _ bs) (by rw [h1]; nofun)

/-! ## Parts -/

theorem read_mono_ne {n m : Nat} (h : n ≤ m) {id : SemId} {bs : Bytes} (hv : read E n id bs ≠ .diverge) :
    read E m id bs = read E n id bs :=
  (read_le (Env.Agree.refl E) h trivial bs).ne hv

theorem readTuple_mono_ne {n m : Nat} (h : n ≤ m) {ids : List SemId} {bs : Bytes}
    (hv : readTuple (read E n) ids bs ≠ .diverge) : readTuple (read E m) ids bs = readTuple (read E n) ids bs :=
  (readTuple_le (fun _ _ bs => read_le (Env.Agree.refl E) h trivial bs) bs).ne hv

theorem readTuple_panic {n : Nat} {ids : List SemId} {bs : Bytes} (h : readTuple (read E n) ids bs = .panic) :
    ∃ before id after bs', ids = before ++ id :: after ∧ Through E before bs bs' ∧ read E n id bs' = .panic := by
  induction ids generalizing bs with
  | nil => cases h
  | cons id ids ih =>
    cases h1 : read E n id bs with
    | ok a =>
      obtain ⟨v, bs'⟩ := a
      simp only [readTuple, h1, Out.bind_ok] at h
      have h2 := (SameWay.map _ _).1.mp h
      obtain ⟨b, i, a, bs'', rfl, h3, h4⟩ := ih h2
      exact ⟨id :: b, i, a, bs'', rfl, .cons h1 h3, h4⟩
    | err e => rw [readTuple, h1] at h; cases h
    | panic => exact ⟨[], id, ids, bs, rfl, .nil, h1⟩
    | diverge => rw [readTuple, h1] at h; cases h

theorem through_panic {before : List SemId} {id : SemId} {after : List SemId} {bs bs' : Bytes}
    (h : Through E before bs bs') {n : Nat} (hp : read E n id bs' = .panic) :
    ∃ m, readTuple (read E m) (before ++ id :: after) bs = .panic := by
  induction h with
  | nil => exact ⟨n, by rw [List.nil_append, readTuple, hp]; rfl⟩
  | @cons k i ids b b' b'' v h1 _ ih =>
    obtain ⟨m, h2⟩ := ih hp
    refine ⟨max k m, ?_⟩
    rw [List.cons_append, readTuple, read_mono (Nat.le_max_left k m) h1, Out.bind_ok]
    dsimp only
    rw [readTuple_mono_ne (Nat.le_max_right k m) (by rw [h2]; nofun), h2]
    rfl

theorem readTuple_diverge {ids : List SemId} {bs : Bytes} (h : ∀ n, readTuple (read E n) ids bs = .diverge) :
    ∃ before id after bs', ids = before ++ id :: after ∧ Through E before bs bs' ∧
      ∀ n, read E n id bs' = .diverge := by
  induction ids generalizing bs with
  | nil => cases h 0
  | cons id ids ih =>
    by_cases hd : ∀ n, read E n id bs = .diverge
    · exact ⟨[], id, ids, bs, rfl, .nil, hd⟩
    · obtain ⟨k, hk⟩ := Classical.not_forall.mp hd
      cases h1 : read E k id bs with
      | ok a =>
        obtain ⟨v, bs'⟩ := a
        have h2 : ∀ n, readTuple (read E n) ids bs' = .diverge := by
          intro n
          have h3 := h (max k n)
          rw [readTuple, read_mono (Nat.le_max_left k n) h1, Out.bind_ok] at h3
          have h4 := (SameWay.map _ _).2.mp h3
          refine Classical.byContradiction fun hne => hne ?_
          rw [← readTuple_mono_ne (Nat.le_max_right k n) hne]
          exact h4
        obtain ⟨b, i, a, bs'', rfl, h3, h4⟩ := ih h2
        exact ⟨id :: b, i, a, bs'', rfl, .cons h1 h3, h4⟩
      | err e => have := h k; rw [readTuple, h1] at this; cases this
      | panic => have := h k; rw [readTuple, h1] at this; cases this
      | diverge => exact absurd h1 hk

theorem through_diverge {before : List SemId} {id : SemId} {after : List SemId} {bs bs' : Bytes}
    (h : Through E before bs bs') {n : Nat} (hp : read E n id bs' = .diverge) :
    readTuple (read E n) (before ++ id :: after) bs = .diverge := by
  induction h with
  | nil => rw [List.nil_append, readTuple, hp]; rfl
  | @cons k i ids b b' b'' v h1 _ ih =>
    rw [List.cons_append, readTuple]
    by_cases hd : read E n i b = .diverge
    · rw [hd]; rfl
    · have : read E n i b = .ok (v, b') := by
        rcases Nat.le_total k n with hk | hk
        · exact read_mono hk h1
        · rw [← read_mono_ne hk hd]; exact h1
      rw [this, Out.bind_ok]
      dsimp only
      rw [ih hp]
      rfl

/-! ## The outcome -/

theorem read_panic (hs : E.Sane) {n : Nat} {id : SemId} {bs : Bytes} (h : read E n id bs = .panic) :
    ∃ id' bs', GetsTo E id bs id' bs' ∧ Trap E id' bs' := by
  induction n generalizing id bs with
  | zero => cases h
  | succ n ih =>
    cases hf : E.find id with
    | none => simp only [read, hf] at h; cases h
    | some t =>
      simp only [read, hf] at h
      rcases course hs hf (bs := bs) with ht | ⟨ids, bs0, hq⟩ | hr
      · exact ⟨id, bs, .here, ht⟩
      · have := (queue_same hs hq hf).1.mp h
        obtain ⟨b, i, a, bs', rfl, h1, h2⟩ := readTuple_panic this
        obtain ⟨id', bs'', h3, h4⟩ := ih h2
        exact ⟨id', bs'', .step ⟨b, a, bs0, hq, h1⟩ h3, h4⟩
      · exact absurd (hr (read E n)) (by rw [h]; nofun)

theorem Queue.found {id : SemId} {bs bs' : Bytes} {ids : List SemId} (h : Queue E id bs ids bs') :
    ∃ t, E.find id = some t := by
  cases h <;> exact ⟨_, by assumption⟩

theorem Trap.found {id : SemId} {bs : Bytes} (h : Trap E id bs) : ∃ t, E.find id = some t := by
  cases h <;> exact ⟨_, by assumption⟩

theorem meets_panic (hs : E.Sane) {id id' : SemId} {bs bs' : Bytes} (h : GetsTo E id bs id' bs') (ht : Trap E id' bs') :
    ∃ n, read E n id bs = .panic := by
  induction h with
  | here =>
    obtain ⟨t, hf⟩ := ht.found
    exact ⟨1, by simp only [read, hf]; exact trap_panics hs ht hf⟩
  | step hn _ ih =>
    obtain ⟨b, a, bs0, hq, h1⟩ := hn
    obtain ⟨n, h2⟩ := ih ht
    obtain ⟨m, h3⟩ := through_panic (after := a) h1 h2
    obtain ⟨t, hf⟩ := hq.found
    exact ⟨m + 1, by simp only [read, hf]; exact (queue_same hs hq hf).1.mpr h3⟩

theorem read_diverge (hs : E.Sane) {id : SemId} {bs : Bytes} (h : ∀ n, read E n id bs = .diverge) :
    ∃ id' bs', Next E id bs id' bs' ∧ ∀ n, read E n id' bs' = .diverge := by
  cases hf : E.find id with
  | none => have := h 1; simp only [read, hf] at this; cases this
  | some t =>
    have h' : ∀ n, readTy (read E n) E id t bs = .diverge := fun n => by
      have := h (n + 1)
      simpa only [read, hf] using this
    rcases course hs hf (bs := bs) with ht | ⟨ids, bs0, hq⟩ | hr
    · have := h' 0
      rw [trap_panics hs ht hf] at this
      cases this
    · obtain ⟨b, i, a, bs', rfl, h1, h2⟩ := readTuple_diverge fun n => (queue_same hs hq hf).2.mp (h' n)
      exact ⟨i, bs', ⟨b, a, bs0, hq, h1⟩, h2⟩
    · exact absurd (hr (read E 0)) (by rw [h' 0]; nofun)

theorem next_diverge (hs : E.Sane) {id id' : SemId} {bs bs' : Bytes} (h : Next E id bs id' bs') {n : Nat}
    (hd : read E n id' bs' = .diverge) : read E (n + 1) id bs = .diverge := by
  obtain ⟨b, a, bs0, hq, h1⟩ := h
  obtain ⟨t, hf⟩ := hq.found
  simp only [read, hf]
  exact (queue_same hs hq hf).2.mpr (through_diverge h1 hd)

/-- Going from place to place where reading never ends. -/
theorem descent (hs : E.Sane) {id : SemId} {bs : Bytes} (h : ∀ n, read E n id bs = .diverge) :
    ∃ f : Nat → SemId × Bytes, f 0 = (id, bs) ∧ ∀ k, Next E (f k).1 (f k).2 (f (k + 1)).1 (f (k + 1)).2 := by
  let P := { p : SemId × Bytes // ∀ n, read E n p.1 p.2 = .diverge }
  have step : ∀ p : P, ∃ q : P, Next E p.1.1 p.1.2 q.1.1 q.1.2 := fun p => by
    obtain ⟨i, b, h1, h2⟩ := read_diverge hs p.2
    exact ⟨⟨(i, b), h2⟩, h1⟩
  let g : Nat → P := fun k => Nat.rec (⟨(id, bs), h⟩ : P) (fun _ p => Classical.choose (step p)) k
  exact ⟨fun k => (g k).1, rfl, fun k => Classical.choose_spec (step (g k))⟩

theorem descent_diverge (hs : E.Sane) {f : Nat → SemId × Bytes}
    (h : ∀ k, Next E (f k).1 (f k).2 (f (k + 1)).1 (f (k + 1)).2) (n k : Nat) :
    read E n (f k).1 (f k).2 = .diverge := by
  induction n generalizing k with
  | zero => rfl
  | succ n ih => exact next_diverge hs (h k) (ih (k + 1))

end Verif
