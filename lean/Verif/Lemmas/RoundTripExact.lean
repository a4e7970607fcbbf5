import Verif.Lemmas.TypifyExact

/-! # Which well-typed values are read back -/

namespace Verif

variable {E : Env} {wr : Val → SemId → Out EErr Bytes} {rd : SemId → Bytes → Out DErr (RdPair Val)}

/-! ## Values without unread parts -/

theorem round_trip {strict : Bool} (hs : E.Sane) (hd : strict = true ∨ E.debug = false) {n : Nat} {v : Val} {id : SemId}
    (h : HasTyN E strict n v id) (hu : ∀ w i, Sub E v id w i → ¬ Unread E w i) : RT (write E n v id) (read E n id) v := by
  induction n generalizing v id with
  | zero => exact h.elim
  | succ n ih =>
    obtain ⟨t, ht, hi⟩ := h
    obtain ⟨bs, h1, h2⟩ := rt_ty (wr := write E n) (rd := read E n) hs hd ht (inhabits_parts ht hi) (hu _ _ (.refl _ _))
      (fun ha w i hw => ih hw.1 fun u j hj => hu u j (.step (hw.2 ha) hj)) id
    refine ⟨bs, ?_, fun rest => ?_⟩
    · simp only [write, hs.typeOf ht, h1]
    · simp only [read, ht, h2]

/-! ## Parts of what is written -/

theorem writeItems_each {id : SemId} {l : List Val} {bs : Bytes} (h : writeItems wr id l = .ok bs) :
    ∀ v ∈ l, ∃ c, wr v id = .ok c := by
  induction l generalizing bs with
  | nil => simp
  | cons v l ih =>
    obtain ⟨a, h1, h2⟩ := Out.bind_eq_ok.mp h
    obtain ⟨b, h3, -⟩ := Out.bind_eq_ok.mp h2
    intro w hw
    rcases List.mem_cons.mp hw with rfl | hw
    · exact ⟨a, h1⟩
    · exact ih h3 w hw

theorem writePairs_each {kid id : SemId} {l : List (Val × Val)} {bs : Bytes} (h : writePairs wr kid id l = .ok bs) :
    ∀ p ∈ l, (∃ c, wr p.1 kid = .ok c) ∧ ∃ c, wr p.2 id = .ok c := by
  induction l generalizing bs with
  | nil => simp
  | cons v l ih =>
    obtain ⟨a, h1, h2⟩ := Out.bind_eq_ok.mp h
    obtain ⟨b, h3, h4⟩ := Out.bind_eq_ok.mp h2
    obtain ⟨c, h5, -⟩ := Out.bind_eq_ok.mp h4
    intro w hw
    rcases List.mem_cons.mp hw with rfl | hw
    · exact ⟨⟨a, h1⟩, b, h3⟩
    · exact ih h5 w hw

theorem writeZip_each {l : List Val} {ids : List SemId} {bs : Bytes} (h : writeZip wr l ids = .ok bs) :
    ∀ (k : Nat) v i, l[k]? = some v → ids[k]? = some i → ∃ c, wr v i = .ok c := by
  induction l generalizing ids bs with
  | nil => simp
  | cons v l ih =>
    cases ids with
    | nil => simp
    | cons i ids =>
      obtain ⟨a, h1, h2⟩ := Out.bind_eq_ok.mp h
      obtain ⟨b, h3, -⟩ := Out.bind_eq_ok.mp h2
      intro k u j hk hi
      cases k with
      | zero => simp only [List.getElem?_cons_zero, Option.some.injEq] at hk hi; subst hk hi; exact ⟨a, h1⟩
      | succ k => exact ih h3 k u j (by simpa using hk) (by simpa using hi)

theorem writeFields_each {fs : List (Name × Val)} {req : List (Name × SemId)} {bs : Bytes}
    (h : writeFields wr fs req = .ok bs) : ∀ r ∈ req, ∃ v c, imGet fs r.1 = some v ∧ wr v r.2 = .ok c := by
  induction req generalizing bs with
  | nil => simp
  | cons r req ih =>
    simp only [writeFields] at h
    split at h
    · cases h
    · rename_i v hv
      obtain ⟨a, h1, h2⟩ := Out.bind_eq_ok.mp h
      obtain ⟨b, h3, -⟩ := Out.bind_eq_ok.mp h2
      intro w hw
      rcases List.mem_cons.mp hw with rfl | hw
      · exact ⟨v, a, hv, h1⟩
      · exact ih h3 w hw

theorem imGet_mem {V : Type} {l : List (Name × V)} (hn : (l.map Prod.fst).Nodup) {n : Name} {v : V} (h : (n, v) ∈ l) :
    imGet l n = some v := by
  induction l with
  | nil => cases h
  | cons p l ih =>
    simp only [List.map_cons, List.nodup_cons] at hn
    rcases List.mem_cons.mp h with rfl | h
    · simp [imGet]
    · have : p.1 ≠ n := fun e => hn.1 (e ▸ List.mem_map_of_mem (f := Prod.fst) h)
      have he : (p.1 == n) = false := by rw [beq_eq_false_iff_ne]; exact this
      simp only [imGet] at ih ⊢
      rw [List.find?_cons, he]
      exact ih hn.2 h

theorem part_written (hs : E.Sane) {id : SemId} {t : Ty SemId} (hf : E.find id = some t) {v w : Val} {i : SemId}
    (hi : ∀ fs, v = .struct fs → (fs.map Prod.fst).Nodup) (hp : Part E v id w i) {bs : Bytes}
    (h : writeTy wr E v t = .ok bs) : ∃ c, wr w i = .ok c := by
  cases hp with
  | listItem hf' hm =>
    cases hf.symm.trans hf'
    obtain ⟨a, h1, -⟩ := Out.bind_eq_ok.mp h
    exact writeItems_each h1 _ hm
  | setItem hf' hm =>
    cases hf.symm.trans hf'
    obtain ⟨a, h1, -⟩ := Out.bind_eq_ok.mp h
    exact writeItems_each h1 _ hm
  | mapKey hf' hm =>
    cases hf.symm.trans hf'
    obtain ⟨a, h1, -⟩ := Out.bind_eq_ok.mp h
    exact (writePairs_each h1 _ hm).1
  | mapValue hf' hm =>
    cases hf.symm.trans hf'
    obtain ⟨a, h1, -⟩ := Out.bind_eq_ok.mp h
    exact (writePairs_each h1 _ hm).2
  | tupleField hf' h1 h2 =>
    cases hf.symm.trans hf'
    obtain ⟨a, -, h4⟩ := Out.bind_eq_ok.mp h
    exact writeZip_each h4 _ _ _ h1 h2
  | @structField _ _ req fs n _ hf' h1 h2 =>
    cases hf.symm.trans hf'
    obtain ⟨a, -, h4⟩ := Out.bind_eq_ok.mp h
    obtain ⟨v, c, h5, h6⟩ := writeFields_each h4 _ h2
    rw [imGet_mem (hi _ rfl) h1] at h5
    cases h5
    exact ⟨c, h6⟩
  | byName hf' h1 =>
    cases hf.symm.trans hf'
    have hwf : VariantsWF _ := hs.wf _ _ hf
    simp only [writeTy, writeUnion, (unionByName_iff hwf (_, _) _).mpr ⟨h1, rfl⟩, Out.expect_some, Out.bind_ok] at h
    obtain ⟨a, h3, -⟩ := Out.bind_eq_ok.mp h
    exact ⟨a, h3⟩
  | byTag hf' h1 =>
    cases hf.symm.trans hf'
    have hwf : VariantsWF _ := hs.wf _ _ hf
    simp only [writeTy, writeUnion, (unionTyByTag_iff hwf _ _).mpr ⟨_, h1⟩, Out.expect_some, Out.bind_ok] at h
    obtain ⟨a, h3, -⟩ := Out.bind_eq_ok.mp h
    exact ⟨a, h3⟩

/-! ## Parts of what is read -/

theorem readItems_each {id : SemId} {n : Nat} {bs rest : Bytes} {l : List Val}
    (h : readItems rd id n bs = .ok (l, rest)) : ∀ v ∈ l, ∃ c r, rd id c = .ok (v, r) := by
  induction n generalizing bs l with
  | zero => cases h; simp
  | succ n ih =>
    obtain ⟨⟨v, b1⟩, h1, h2⟩ := Out.bind_eq_ok.mp h
    obtain ⟨⟨vs, b2⟩, h3, h4⟩ := Out.bind_eq_ok.mp h2
    cases h4
    intro w hw
    rcases List.mem_cons.mp hw with rfl | hw
    · exact ⟨_, _, h1⟩
    · exact ih h3 w hw

theorem readPairs_each {kid id : SemId} {n : Nat} {bs rest : Bytes} {l : List (Val × Val)}
    (h : readPairs rd kid id n bs = .ok (l, rest)) :
    ∀ p ∈ l, (∃ c r, rd kid c = .ok (p.1, r)) ∧ ∃ c r, rd id c = .ok (p.2, r) := by
  induction n generalizing bs l with
  | zero => cases h; simp
  | succ n ih =>
    obtain ⟨⟨k, b1⟩, h1, h2⟩ := Out.bind_eq_ok.mp h
    obtain ⟨⟨v, b2⟩, h3, h4⟩ := Out.bind_eq_ok.mp h2
    obtain ⟨⟨vs, b3⟩, h5, h6⟩ := Out.bind_eq_ok.mp h4
    cases h6
    intro w hw
    rcases List.mem_cons.mp hw with rfl | hw
    · exact ⟨⟨_, _, h1⟩, _, _, h3⟩
    · exact ih h5 w hw

theorem readTuple_each {ids : List SemId} {bs rest : Bytes} {l : List Val} (h : readTuple rd ids bs = .ok (l, rest)) :
    ∀ (k : Nat) v i, l[k]? = some v → ids[k]? = some i → ∃ c r, rd i c = .ok (v, r) := by
  induction ids generalizing bs l with
  | nil => simp
  | cons i ids ih =>
    obtain ⟨⟨v, b1⟩, h1, h2⟩ := Out.bind_eq_ok.mp h
    obtain ⟨⟨vs, b2⟩, h3, h4⟩ := Out.bind_eq_ok.mp h2
    cases h4
    intro k u j hk hi
    cases k with
    | zero => simp only [List.getElem?_cons_zero, Option.some.injEq] at hk hi; subst hk hi; exact ⟨_, _, h1⟩
    | succ k => exact ih h3 k u j (by simpa using hk) (by simpa using hi)

theorem readFields_each {req : List (Name × SemId)} {acc fs : List (Name × Val)} {bs rest : Bytes}
    (hn : (acc.map Prod.fst ++ req.map Prod.fst).Nodup) (h : readFields rd req acc bs = .ok (fs, rest)) :
    ∃ l, fs = acc ++ l ∧ All2 (fun f r => f.1 = r.1 ∧ ∃ c b, rd r.2 c = .ok (f.2, b)) l req := by
  induction req generalizing acc bs with
  | nil => cases h; exact ⟨[], by simp, trivial⟩
  | cons r req ih =>
    obtain ⟨n, i⟩ := r
    obtain ⟨⟨v, b1⟩, h1, h2⟩ := Out.bind_eq_ok.mp h
    have hni : n ∉ acc.map Prod.fst := by
      intro hm
      rw [List.nodup_append] at hn
      exact hn.2.2 n hm n (by simp) rfl
    dsimp only at h2
    rw [imInsert_append hni] at h2
    obtain ⟨l, rfl, h3⟩ := ih (acc := acc ++ [(n, v)]) (by simpa using hn) h2
    exact ⟨(n, v) :: l, by simp, ⟨⟨rfl, _, _, h1⟩, h3⟩⟩

theorem part_read (hs : E.Sane) {id spec : SemId} {t : Ty SemId} (hf : E.find id = some t) {v w : Val} {i : SemId}
    (hp : Part E v id w i) {bs rest : Bytes} (h : readTy rd E spec t bs = .ok (v, rest)) : ∃ c r, rd i c = .ok (w, r) := by
  cases hp with
  | listItem hf' hm =>
    cases hf.symm.trans hf'
    simp only [readTy, readList] at h
    split at h
    · cases h
    · split at h
      · simp only [readAscii] at h
        obtain ⟨⟨_, _⟩, -, h⟩ := Out.bind_eq_ok.mp h
        obtain ⟨⟨_, _⟩, -, h⟩ := Out.bind_eq_ok.mp h
        dsimp only at h
        split at h <;> cases h
      · split at h
        · simp only [readBlob] at h
          obtain ⟨⟨_, _⟩, -, h⟩ := Out.bind_eq_ok.mp h
          obtain ⟨⟨_, _⟩, -, h⟩ := Out.bind_eq_ok.mp h
          cases h
        · split at h
          · simp only [readString] at h
            obtain ⟨⟨_, _⟩, -, h⟩ := Out.bind_eq_ok.mp h
            obtain ⟨⟨_, _⟩, -, h⟩ := Out.bind_eq_ok.mp h
            dsimp only at h
            split at h <;> cases h
          · obtain ⟨⟨l, b⟩, h1, h2⟩ := Out.bind_eq_ok.mp h
            cases h2
            simp only [readSeq] at h1
            obtain ⟨⟨_, _⟩, -, h1⟩ := Out.bind_eq_ok.mp h1
            obtain ⟨_, -, h1⟩ := Out.bind_eq_ok.mp h1
            exact readItems_each h1 _ hm
  | setItem hf' hm =>
    cases hf.symm.trans hf'
    obtain ⟨⟨l, b⟩, h1, h2⟩ := Out.bind_eq_ok.mp h
    cases h2
    simp only [readSeq] at h1
    obtain ⟨⟨_, _⟩, -, h1⟩ := Out.bind_eq_ok.mp h1
    obtain ⟨_, -, h1⟩ := Out.bind_eq_ok.mp h1
    exact readItems_each h1 _ hm
  | mapKey hf' hm =>
    cases hf.symm.trans hf'
    obtain ⟨⟨l, b⟩, h1, h2⟩ := Out.bind_eq_ok.mp h
    cases h2
    simp only [readMapSeq] at h1
    obtain ⟨⟨_, _⟩, -, h1⟩ := Out.bind_eq_ok.mp h1
    obtain ⟨_, -, h1⟩ := Out.bind_eq_ok.mp h1
    exact (readPairs_each h1 _ hm).1
  | mapValue hf' hm =>
    cases hf.symm.trans hf'
    obtain ⟨⟨l, b⟩, h1, h2⟩ := Out.bind_eq_ok.mp h
    cases h2
    simp only [readMapSeq] at h1
    obtain ⟨⟨_, _⟩, -, h1⟩ := Out.bind_eq_ok.mp h1
    obtain ⟨_, -, h1⟩ := Out.bind_eq_ok.mp h1
    exact (readPairs_each h1 _ hm).2
  | tupleField hf' h1 h2 =>
    cases hf.symm.trans hf'
    simp only [readTy, readTupleTy] at h
    obtain ⟨b, -, h⟩ := Out.bind_eq_ok.mp h
    split at h
    · obtain ⟨o, -, h⟩ := Out.bind_eq_ok.mp h
      split at h
      · simp only [readAscii] at h
        obtain ⟨⟨_, _⟩, -, h⟩ := Out.bind_eq_ok.mp h
        obtain ⟨⟨_, _⟩, -, h⟩ := Out.bind_eq_ok.mp h
        dsimp only at h
        split at h <;> cases h
      · cases h
    · obtain ⟨⟨l, b⟩, h3, h4⟩ := Out.bind_eq_ok.mp h
      cases h4
      exact readTuple_each h3 _ _ _ h1 h2
  | @structField _ _ req fs n _ hf' h1 h2 =>
    cases hf.symm.trans hf'
    have hd : (req.map Prod.fst).Nodup := hs.fields _ _ hf
    obtain ⟨⟨l, b⟩, h3, h4⟩ := Out.bind_eq_ok.mp h
    cases h4
    obtain ⟨l, h5, ha⟩ := readFields_each (by simpa using hd) h3
    rw [List.nil_append] at h5
    subst h5
    obtain ⟨k, hk⟩ := List.getElem?_of_mem h1
    have hk' : k < req.length := by
      rw [← all2_length ha]; exact (List.getElem?_eq_some_iff.mp hk).1
    have hg := all2_get ha hk (List.getElem?_eq_getElem hk')
    have h6 := (fieldTy_iff hd n req[k].2).mpr (by rw [show n = req[k].1 from hg.1]; exact List.getElem_mem hk')
    rw [(fieldTy_iff hd _ _).mpr h2] at h6
    cases h6
    exact hg.2
  | @byName _ _ vs n tg _ hf' h1 =>
    cases hf.symm.trans hf'
    have hwf : VariantsWF _ := hs.wf _ _ hf
    obtain ⟨⟨x, b⟩, -, h⟩ := Out.bind_eq_ok.mp h
    dsimp only at h
    split at h
    · cases h
    · rename_i q hq
      obtain ⟨⟨u, b'⟩, h3, h4⟩ := Out.bind_eq_ok.mp h
      cases h4
      obtain ⟨hq1, -⟩ := (unionByTag_iff hwf q _).mp hq
      have h5 := (unionTyByName_iff hwf _ _).mpr ⟨_, h1⟩
      rw [(unionTyByName_iff hwf q.1.name q.2).mpr ⟨q.1.tag, hq1⟩] at h5
      cases h5
      exact ⟨_, _, h3⟩
  | byTag hf' h1 =>
    cases hf.symm.trans hf'
    obtain ⟨⟨x, b⟩, -, h⟩ := Out.bind_eq_ok.mp h
    dsimp only at h
    split at h
    · cases h
    · obtain ⟨⟨u, b'⟩, h3, h4⟩ := Out.bind_eq_ok.mp h
      cases h4

/-! ## Unread values -/

/-- The value is not written, or never read. -/
def Lost (E : Env) (v : Val) (id : SemId) : Prop :=
  (∀ n bs, write E n v id ≠ .ok bs) ∨ ∀ n bs rest, read E n id bs ≠ .ok (v, rest)

theorem readPrim_readable {p : Byte} (hp : ¬ ReadablePrim p) (bs : Bytes) : readPrim p bs = .err .notImplemented := by
  unfold ReadablePrim at hp
  have hc : ∀ c : Byte, p = c → p.toNat = c.toNat := fun c h => congrArg _ h
  unfold readPrim
  rw [if_neg fun h => ?_, if_neg fun h => ?_, if_neg fun h => ?_, if_neg fun h => ?_, if_neg fun h => ?_,
    if_neg fun h => ?_, if_neg fun h => ?_]
  · have := hc _ h; change _ = 0x48 at this; omega
  · have := hc _ h; change _ = 0x44 at this; omega
  · have := hc _ h; change _ = 0x42 at this; omega
  · have := hc _ h; change _ = 0x41 at this; omega
  · omega
  · have := hc _ h; change _ = 0x40 at this; omega
  · have := hc _ h; change _ = 0 at this; omega

theorem readAscii_str {w : Nat} {bs rest : Bytes} {v : Val} (h : readAscii w bs = .ok (v, rest)) :
    ∃ s, v = .str s ∧ s.length < 256 ^ w := by
  simp only [readAscii] at h
  obtain ⟨⟨n, b⟩, h1, h⟩ := Out.bind_eq_ok.mp h
  obtain ⟨⟨s, b'⟩, h2, h⟩ := Out.bind_eq_ok.mp h
  dsimp only at h h2
  split at h
  · cases h
    refine ⟨s, rfl, ?_⟩
    simp only [readLe] at h1
    obtain ⟨⟨c, b2⟩, h3, h4⟩ := Out.bind_eq_ok.mp h1
    cases h4
    simp only [readRaw] at h2 h3
    split at h2
    · cases h2
      split at h3
      next hw =>
        cases h3
        have := fromLe_lt (bs.take w)
        rw [List.length_take, Nat.min_eq_left hw] at this
        rw [List.length_take]
        omega
      next => cases h3
    · cases h2
  · cases h

theorem rstringSizing_panic {a b c : SemId} {sz : Sizing} (hb : E.find b = some (.list c sz))
    (h : sz.min.toNat = 2 ^ 64 - 1 ∨ sz.max.toNat = 2 ^ 64 - 1) (hd : E.debug = true) :
    E.rstringSizing [a, b] = .panic ∧ E.isRString [a, b] = .panic := by
  have hx : ∀ x : BitVec 64, x.toNat = 2 ^ 64 - 1 → (x == -1) = true := by
    intro x hx
    rw [beq_iff_eq]
    exact BitVec.eq_of_toNat_eq hx
  have h1 : E.rstringSizing [a, b] = .panic := by
    simp only [Env.rstringSizing, List.getElem?_cons_succ, List.getElem?_cons_zero, Out.expect_some, Out.bind_ok, hb, hd]
    rcases h with h | h <;> rw [hx _ h] <;> simp
  refine ⟨h1, ?_⟩
  simp [Env.isRString, h1]

theorem unread_lost (hs : E.Sane) {v : Val} {id : SemId} (hu : Unread E v id) : Lost E v id := by
  have hread : ∀ {t : Ty SemId} {n : Nat} {bs rest : Bytes}, E.find id = some t → read E n id bs = .ok (v, rest) →
      ∃ m, readTy (read E m) E id t bs = .ok (v, rest) := by
    intro t n bs rest hf h
    cases n with
    | zero => cases h
    | succ n => simp only [read, hf] at h; exact ⟨n, h⟩
  cases hu with
  | char hf => refine .inr fun n bs rest h => ?_; obtain ⟨m, h⟩ := hread hf h; cases h
  | array hf =>
    refine .inl fun n bs h => ?_
    cases n with
    | zero => cases h
    | succ n => simp only [write, hs.typeOf hf] at h; cases h
  | number hf hp =>
    refine .inr fun n bs rest h => ?_
    obtain ⟨m, h⟩ := hread hf h
    simp only [readTy, readPrim_readable hp] at h
    cases h
  | @longBytes _ i sz _ hf hm =>
    refine .inr fun n bs rest h => ?_
    obtain ⟨m, h⟩ := hread hf h
    simp only [readTy, readList] at h
    split at h
    · cases h
    · split at h
      · obtain ⟨_, h, -⟩ := readAscii_str h; cases h
      · rw [if_neg (by omega), if_neg (by omega)] at h
        obtain ⟨⟨_, _⟩, -, h⟩ := Out.bind_eq_ok.mp h
        cases h
  | @longText _ i sz _ hf hi hm =>
    refine .inr fun n bs rest h => ?_
    obtain ⟨m, h⟩ := hread hf h
    simp only [readTy, readList] at h
    split at h
    · cases h
    · rename_i u hfu
      have hu := hs.unicode _ _ hi hfu
      subst hu
      rw [if_neg (by decide), if_neg (by omega), if_neg (by omega)] at h
      obtain ⟨⟨_, _⟩, -, h⟩ := Out.bind_eq_ok.mp h
      cases h
  | @longRString _ ids A C sz s hf hr hm hd =>
    refine .inr fun n bs rest h => ?_
    obtain ⟨m, h⟩ := hread hf h
    simp only [readTy, readTupleTy] at h
    by_cases hdb : E.debug = true
    · obtain ⟨a, b, c, rfl, -, -, hb, -⟩ := hr
      rw [(rstringSizing_panic hb (.inr hm) hdb).2] at h
      cases h
    · obtain ⟨h1, c, h2⟩ := isRString_true hr (.inl (by simpa using hdb))
      have hz : sz.max + 1 = 0 := by
        apply BitVec.eq_of_toNat_eq
        rw [BitVec.toNat_add, hm]
        rfl
      simp only [h1, h2, ofUnknown, Out.mapErr, Out.bind_ok, if_true, hz] at h
      obtain ⟨s', he, hl⟩ := readAscii_str h
      cases he
      have := hd.resolve_left hdb
      have hl : s.length < 256 := hl
      omega
  | longPair hf hb hx hd =>
    refine .inr fun n bs rest h => ?_
    obtain ⟨m, h⟩ := hread hf h
    simp only [readTy, readTupleTy, (rstringSizing_panic hb hx hd).2] at h
    cases h

theorem sub_lost {strict : Bool} (hs : E.Sane) {v w : Val} {id i : SemId} (hsub : Sub E v id w i) (hu : Lost E w i) :
    ∀ n, HasTyN E strict n v id → Lost E v id := by
  induction hsub with
  | refl => exact fun _ _ => hu
  | @step v w u a b c hp _ ih =>
    intro n hn
    cases n with
    | zero => exact hn.elim
    | succ n =>
      obtain ⟨t, hf, hi⟩ := hn
      rcases ih hu n (part_typed hs hf hi hp) with h | h
      · refine .inl fun m bs hw => ?_
        cases m with
        | zero => cases hw
        | succ m =>
          simp only [write, hs.typeOf hf] at hw
          obtain ⟨c, hc⟩ := part_written hs hf (typed_fields_distinct hs hf hi) hp hw
          exact h _ _ hc
      · refine .inr fun m bs rest hr => ?_
        cases m with
        | zero => cases hr
        | succ m =>
          simp only [read, hf] at hr
          obtain ⟨c, r, hc⟩ := part_read hs hf hp hr
          exact h _ _ _ hc

end Verif
