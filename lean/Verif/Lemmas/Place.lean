import Verif.Spec.Place
import Verif.Lemmas.RoundTripExact
import Verif.Lemmas.Read
import Verif.Lemmas.Fuel

/-! # The data of a part is a part of the data -/

namespace Verif

variable {E : Env} {wr : Val → SemId → Out EErr Bytes} {rd : SemId → Bytes → Out DErr (RdPair Val)}

/-! ## Reading -/

/-- The value is read somewhere between the beginning and the rest of the data. -/
def ReadIn (rd : SemId → Bytes → Out DErr (RdPair Val)) (bs rest : Bytes) (w : Val) (i : SemId) : Prop :=
  ∃ c r, c <:+ bs ∧ rest <:+ r ∧ rd i c = .ok (w, r)

theorem ReadIn.before {bs bs' rest : Bytes} {w : Val} {i : SemId} (h : ReadIn rd bs rest w i) (hb : bs <:+ bs') :
    ReadIn rd bs' rest w i := by
  obtain ⟨c, r, h1, h2, h3⟩ := h
  exact ⟨c, r, h1.trans hb, h2, h3⟩

theorem LocalRd.suffix {α : Type} {f : Bytes → Out DErr (RdPair α)} (h : LocalRd f) {bs rest : Bytes} {v : α}
    (hv : f bs = .ok (v, rest)) : rest <:+ bs := by
  obtain ⟨c, h1, -⟩ := h bs v rest hv
  exact ⟨c, h1.symm⟩

theorem places_all2 {α β : Type} {S T : α → β → Prop} (hst : ∀ x y, S x y → T x y) : ∀ {l : List α} {m : List β}, All2 S l m → All2 T l m
  | [], [], _ => trivial
  | [], _ :: _, h => h.elim
  | _ :: _, [], h => h.elim
  | _ :: _, _ :: _, h => ⟨hst _ _ h.1, places_all2 hst h.2⟩

variable (hl : ∀ i, LocalRd (rd i))
include hl

theorem readItems_places {id : SemId} {n : Nat} {bs rest : Bytes} {l : List Val}
    (h : readItems rd id n bs = .ok (l, rest)) : ∀ v ∈ l, ReadIn rd bs rest v id := by
  induction n generalizing bs l with
  | zero => cases h; simp
  | succ n ih =>
    obtain ⟨⟨v, b1⟩, h1, h2⟩ := Out.bind_eq_ok.mp h
    obtain ⟨⟨vs, b2⟩, h3, h4⟩ := Out.bind_eq_ok.mp h2
    cases h4
    intro w hw
    rcases List.mem_cons.mp hw with rfl | hw
    · exact ⟨_, _, List.suffix_refl _, (readItems_local hl id n).suffix h3, h1⟩
    · exact (ih h3 w hw).before ((hl _).suffix h1)

theorem readPairs_places {kid id : SemId} {n : Nat} {bs rest : Bytes} {l : List (Val × Val)}
    (h : readPairs rd kid id n bs = .ok (l, rest)) : ∀ p ∈ l, ReadIn rd bs rest p.1 kid ∧ ReadIn rd bs rest p.2 id := by
  induction n generalizing bs l with
  | zero => cases h; simp
  | succ n ih =>
    obtain ⟨⟨k, b1⟩, h1, h2⟩ := Out.bind_eq_ok.mp h
    obtain ⟨⟨v, b2⟩, h3, h4⟩ := Out.bind_eq_ok.mp h2
    obtain ⟨⟨vs, b3⟩, h5, h6⟩ := Out.bind_eq_ok.mp h4
    cases h6
    have s1 := (hl _).suffix h1
    have s2 := (hl _).suffix h3
    have s3 := (readPairs_local hl kid id n).suffix h5
    intro w hw
    rcases List.mem_cons.mp hw with rfl | hw
    · exact ⟨⟨_, _, List.suffix_refl _, s3.trans s2, h1⟩, _, _, s1, s3, h3⟩
    · exact ⟨(ih h5 w hw).1.before (s2.trans s1), (ih h5 w hw).2.before (s2.trans s1)⟩

theorem readTuple_places {ids : List SemId} {bs rest : Bytes} {l : List Val} (h : readTuple rd ids bs = .ok (l, rest)) :
    ∀ (k : Nat) v i, l[k]? = some v → ids[k]? = some i → ReadIn rd bs rest v i := by
  induction ids generalizing bs l with
  | nil => simp
  | cons i ids ih =>
    obtain ⟨⟨v, b1⟩, h1, h2⟩ := Out.bind_eq_ok.mp h
    obtain ⟨⟨vs, b2⟩, h3, h4⟩ := Out.bind_eq_ok.mp h2
    cases h4
    intro k u j hk hi
    cases k with
    | zero =>
      simp only [List.getElem?_cons_zero, Option.some.injEq] at hk hi
      subst hk hi
      exact ⟨_, _, List.suffix_refl _, (readTuple_local hl ids).suffix h3, h1⟩
    | succ k => exact (ih h3 k u j (by simpa using hk) (by simpa using hi)).before ((hl _).suffix h1)

theorem readFields_places {req : List (Name × SemId)} {acc fs : List (Name × Val)} {bs rest : Bytes}
    (hn : (acc.map Prod.fst ++ req.map Prod.fst).Nodup) (h : readFields rd req acc bs = .ok (fs, rest)) :
    ∃ l, fs = acc ++ l ∧ All2 (fun f r => f.1 = r.1 ∧ ReadIn rd bs rest f.2 r.2) l req := by
  induction req generalizing acc bs with
  | nil => cases h; exact ⟨[], by simp, trivial⟩
  | cons r req ih =>
    obtain ⟨n, i⟩ := r
    obtain ⟨⟨v, b1⟩, h1, h2⟩ := Out.bind_eq_ok.mp h
    have hni : n ∉ acc.map Prod.fst := by
      intro hm
      rw [List.nodup_append] at hn
      exact hn.2.2 n hm n (by simp) rfl
    dsimp only at h2
    have s1 := (hl _).suffix h1
    have s2 := (readFields_local hl req _).suffix h2
    rw [imInsert_append hni] at h2
    obtain ⟨l, rfl, h3⟩ := ih (acc := acc ++ [(n, v)]) (by simpa using hn) h2
    exact ⟨(n, v) :: l, by simp, ⟨⟨rfl, _, _, List.suffix_refl _, s2, h1⟩, places_all2 (fun _ _ h => ⟨h.1, h.2.before s1⟩) h3⟩⟩

theorem readSeq_places {id : SemId} {w : Nat} {bs rest : Bytes} {l : List Val}
    (h : readSeq rd E id w bs = .ok (l, rest)) : ∀ v ∈ l, ReadIn rd bs rest v id := by
  simp only [readSeq] at h
  obtain ⟨⟨_, _⟩, h0, h1⟩ := Out.bind_eq_ok.mp h
  obtain ⟨_, -, h1⟩ := Out.bind_eq_ok.mp h1
  exact fun v hv => (readItems_places hl h1 v hv).before ((readLe_local _).suffix h0)

theorem readMapSeq_places {kid id : SemId} {w : Nat} {bs rest : Bytes} {l : List (Val × Val)}
    (h : readMapSeq rd E kid id w bs = .ok (l, rest)) : ∀ p ∈ l, ReadIn rd bs rest p.1 kid ∧ ReadIn rd bs rest p.2 id := by
  simp only [readMapSeq] at h
  obtain ⟨⟨_, _⟩, h0, h1⟩ := Out.bind_eq_ok.mp h
  obtain ⟨_, -, h1⟩ := Out.bind_eq_ok.mp h1
  have s := (readLe_local _).suffix h0
  exact fun v hv => ⟨(readPairs_places hl h1 v hv).1.before s, (readPairs_places hl h1 v hv).2.before s⟩

theorem part_place (hs : E.Sane) {id spec : SemId} {t : Ty SemId} (hf : E.find id = some t) {v w : Val} {i : SemId}
    (hp : Part E v id w i) {bs rest : Bytes} (h : readTy rd E spec t bs = .ok (v, rest)) : ReadIn rd bs rest w i := by
  cases hp with
  | listItem hf' hm =>
    cases hf.symm.trans hf'
    simp only [readTy, readList] at h
    split at h
    · cases h
    · split at h
      · simp only [readAscii] at h
        obtain ⟨⟨_, _⟩, -, h⟩ := Out.bind_eq_ok.mp h
        obtain ⟨⟨_, _⟩, -, h⟩ := Out.bind_eq_ok.mp h
        dsimp only at h
        split at h <;> cases h
      · split at h
        · simp only [readBlob] at h
          obtain ⟨⟨_, _⟩, -, h⟩ := Out.bind_eq_ok.mp h
          obtain ⟨⟨_, _⟩, -, h⟩ := Out.bind_eq_ok.mp h
          cases h
        · split at h
          · simp only [readString] at h
            obtain ⟨⟨_, _⟩, -, h⟩ := Out.bind_eq_ok.mp h
            obtain ⟨⟨_, _⟩, -, h⟩ := Out.bind_eq_ok.mp h
            dsimp only at h
            split at h <;> cases h
          · obtain ⟨⟨l, b⟩, h1, h2⟩ := Out.bind_eq_ok.mp h
            cases h2
            exact readSeq_places hl h1 _ hm
  | setItem hf' hm =>
    cases hf.symm.trans hf'
    obtain ⟨⟨l, b⟩, h1, h2⟩ := Out.bind_eq_ok.mp h
    cases h2
    exact readSeq_places hl h1 _ hm
  | mapKey hf' hm =>
    cases hf.symm.trans hf'
    obtain ⟨⟨l, b⟩, h1, h2⟩ := Out.bind_eq_ok.mp h
    cases h2
    exact (readMapSeq_places hl h1 _ hm).1
  | mapValue hf' hm =>
    cases hf.symm.trans hf'
    obtain ⟨⟨l, b⟩, h1, h2⟩ := Out.bind_eq_ok.mp h
    cases h2
    exact (readMapSeq_places hl h1 _ hm).2
  | tupleField hf' h1 h2 =>
    cases hf.symm.trans hf'
    simp only [readTy, readTupleTy] at h
    obtain ⟨b, -, h⟩ := Out.bind_eq_ok.mp h
    split at h
    · obtain ⟨o, -, h⟩ := Out.bind_eq_ok.mp h
      split at h
      · simp only [readAscii] at h
        obtain ⟨⟨_, _⟩, -, h⟩ := Out.bind_eq_ok.mp h
        obtain ⟨⟨_, _⟩, -, h⟩ := Out.bind_eq_ok.mp h
        dsimp only at h
        split at h <;> cases h
      · cases h
    · obtain ⟨⟨l, b⟩, h3, h4⟩ := Out.bind_eq_ok.mp h
      cases h4
      exact readTuple_places hl h3 _ _ _ h1 h2
  | @structField _ _ req fs n _ hf' h1 h2 =>
    cases hf.symm.trans hf'
    have hd : (req.map Prod.fst).Nodup := hs.fields _ _ hf
    obtain ⟨⟨l, b⟩, h3, h4⟩ := Out.bind_eq_ok.mp h
    cases h4
    obtain ⟨l, h5, ha⟩ := readFields_places hl (by simpa using hd) h3
    rw [List.nil_append] at h5
    subst h5
    obtain ⟨k, hk⟩ := List.getElem?_of_mem h1
    have hk' : k < req.length := by
      rw [← all2_length ha]; exact (List.getElem?_eq_some_iff.mp hk).1
    have hg := all2_get ha hk (List.getElem?_eq_getElem hk')
    have h6 := (fieldTy_iff hd n req[k].2).mpr (by rw [show n = req[k].1 from hg.1]; exact List.getElem_mem hk')
    rw [(fieldTy_iff hd _ _).mpr h2] at h6
    cases h6
    exact hg.2
  | @byName _ _ vs n tg _ hf' h1 =>
    cases hf.symm.trans hf'
    have hwf : VariantsWF _ := hs.wf _ _ hf
    obtain ⟨⟨x, b⟩, h0, h⟩ := Out.bind_eq_ok.mp h
    dsimp only at h
    split at h
    · cases h
    · rename_i q hq
      obtain ⟨⟨u, b'⟩, h3, h4⟩ := Out.bind_eq_ok.mp h
      cases h4
      obtain ⟨hq1, -⟩ := (unionByTag_iff hwf q _).mp hq
      have h5 := (unionTyByName_iff hwf _ _).mpr ⟨_, h1⟩
      rw [(unionTyByName_iff hwf q.1.name q.2).mpr ⟨q.1.tag, hq1⟩] at h5
      cases h5
      exact ⟨_, _, (readLe_local 1).suffix h0, List.suffix_refl _, h3⟩
  | byTag hf' h1 =>
    cases hf.symm.trans hf'
    obtain ⟨⟨x, b⟩, -, h⟩ := Out.bind_eq_ok.mp h
    dsimp only at h
    split at h
    · cases h
    · obtain ⟨⟨u, b'⟩, h3, h4⟩ := Out.bind_eq_ok.mp h
      cases h4

theorem piece_place (hs : E.Sane) {id spec : SemId} {t : Ty SemId} (hf : E.find id = some t) {v w : Val} {i : SemId}
    (hp : PartOrItem E v id w i) {bs rest : Bytes} (h : readTy rd E spec t bs = .ok (v, rest)) : ReadIn rd bs rest w i := by
  cases hp with
  | part hp => exact part_place hl hs hf hp h
  | arrayItem hf' hm =>
    cases hf.symm.trans hf'
    simp only [readTy] at h
    split at h
    · obtain ⟨⟨_, _⟩, -, h⟩ := Out.bind_eq_ok.mp h
      cases h
    · obtain ⟨⟨l, b⟩, h1, h2⟩ := Out.bind_eq_ok.mp h
      cases h2
      exact readItems_places hl h1 _ hm

omit hl

theorem inside_place (hs : E.Sane) {v w : Val} {a i : SemId} (hw : Inside E v a w i) : ∀ {n : Nat} {bs rest : Bytes},
    read E n a bs = .ok (v, rest) → ReadIn (read E n) bs rest w i := by
  induction hw with
  | refl v a => exact fun h => ⟨_, _, List.suffix_refl _, List.suffix_refl _, h⟩
  | step hp _ ih =>
    intro n bs rest h
    cases n with
    | zero => cases h
    | succ n =>
      simp only [read] at h
      split at h
      · cases h
      · rename_i t ht
        obtain ⟨c, r, h1, h2, h3⟩ := piece_place (read_local E n) hs ht hp h
        obtain ⟨d, q, h4, h5, h6⟩ := ih h3
        exact ⟨d, q, h4.trans h1, h2.trans h5, read_mono (Nat.le_succ n) h6⟩

/-! ## Writing -/

/-- The value is written somewhere in the data. -/
def WriteIn (wr : Val → SemId → Out EErr Bytes) (bs : Bytes) (w : Val) (i : SemId) : Prop :=
  ∃ p c q, bs = p ++ (c ++ q) ∧ wr w i = .ok c

theorem WriteIn.in_ {bs : Bytes} {w : Val} {i : SemId} (h : WriteIn wr bs w i) (x y : Bytes) : WriteIn wr (x ++ (bs ++ y)) w i := by
  obtain ⟨p, c, q, rfl, h⟩ := h
  exact ⟨x ++ p, c, q ++ y, by simp, h⟩

theorem WriteIn.after {bs : Bytes} {w : Val} {i : SemId} (h : WriteIn wr bs w i) (x : Bytes) : WriteIn wr (x ++ bs) w i := by
  simpa using h.in_ x []

theorem writeItems_places {id : SemId} {l : List Val} {bs : Bytes} (h : writeItems wr id l = .ok bs) :
    ∀ v ∈ l, WriteIn wr bs v id := by
  induction l generalizing bs with
  | nil => simp
  | cons v l ih =>
    obtain ⟨a, h1, h2⟩ := Out.bind_eq_ok.mp h
    obtain ⟨b, h3, h4⟩ := Out.bind_eq_ok.mp h2
    cases h4
    intro w hw
    rcases List.mem_cons.mp hw with rfl | hw
    · exact ⟨[], a, b, rfl, h1⟩
    · exact (ih h3 w hw).after a

theorem writePairs_places {kid id : SemId} {l : List (Val × Val)} {bs : Bytes} (h : writePairs wr kid id l = .ok bs) :
    ∀ p ∈ l, WriteIn wr bs p.1 kid ∧ WriteIn wr bs p.2 id := by
  induction l generalizing bs with
  | nil => simp
  | cons v l ih =>
    obtain ⟨a, h1, h2⟩ := Out.bind_eq_ok.mp h
    obtain ⟨b, h3, h4⟩ := Out.bind_eq_ok.mp h2
    obtain ⟨c, h5, h6⟩ := Out.bind_eq_ok.mp h4
    cases h6
    intro w hw
    rcases List.mem_cons.mp hw with rfl | hw
    · exact ⟨⟨[], a, b ++ c, by simp, h1⟩, a, b, c, by simp, h3⟩
    · exact ⟨(ih h5 w hw).1.after _, (ih h5 w hw).2.after _⟩

theorem writeZip_places {l : List Val} {ids : List SemId} {bs : Bytes} (h : writeZip wr l ids = .ok bs) :
    ∀ (k : Nat) v i, l[k]? = some v → ids[k]? = some i → WriteIn wr bs v i := by
  induction l generalizing ids bs with
  | nil => simp
  | cons v l ih =>
    cases ids with
    | nil => simp
    | cons i ids =>
      obtain ⟨a, h1, h2⟩ := Out.bind_eq_ok.mp h
      obtain ⟨b, h3, h4⟩ := Out.bind_eq_ok.mp h2
      cases h4
      intro k u j hk hi
      cases k with
      | zero => simp only [List.getElem?_cons_zero, Option.some.injEq] at hk hi; subst hk hi; exact ⟨[], a, b, rfl, h1⟩
      | succ k => exact (ih h3 k u j (by simpa using hk) (by simpa using hi)).after a

theorem writeFields_places {fs : List (Name × Val)} {req : List (Name × SemId)} {bs : Bytes}
    (h : writeFields wr fs req = .ok bs) : ∀ r ∈ req, ∃ v, imGet fs r.1 = some v ∧ WriteIn wr bs v r.2 := by
  induction req generalizing bs with
  | nil => simp
  | cons r req ih =>
    simp only [writeFields] at h
    split at h
    · cases h
    · rename_i v hv
      obtain ⟨a, h1, h2⟩ := Out.bind_eq_ok.mp h
      obtain ⟨b, h3, h4⟩ := Out.bind_eq_ok.mp h2
      cases h4
      intro w hw
      rcases List.mem_cons.mp hw with rfl | hw
      · exact ⟨v, hv, [], a, b, rfl, h1⟩
      · obtain ⟨u, h5, h6⟩ := ih h3 w hw
        exact ⟨u, h5, h6.after a⟩

theorem part_written_place (hs : E.Sane) {id : SemId} {t : Ty SemId} (hf : E.find id = some t) {v w : Val} {i : SemId}
    (hi : ∀ fs, v = .struct fs → (fs.map Prod.fst).Nodup) (hp : Part E v id w i) {bs : Bytes}
    (h : writeTy wr E v t = .ok bs) : WriteIn wr bs w i := by
  cases hp with
  | listItem hf' hm =>
    cases hf.symm.trans hf'
    obtain ⟨a, h1, h2⟩ := Out.bind_eq_ok.mp h
    cases h2
    exact (writeItems_places h1 _ hm).after _
  | setItem hf' hm =>
    cases hf.symm.trans hf'
    obtain ⟨a, h1, h2⟩ := Out.bind_eq_ok.mp h
    cases h2
    exact (writeItems_places h1 _ hm).after _
  | mapKey hf' hm =>
    cases hf.symm.trans hf'
    obtain ⟨a, h1, h2⟩ := Out.bind_eq_ok.mp h
    cases h2
    exact (writePairs_places h1 _ hm).1.after _
  | mapValue hf' hm =>
    cases hf.symm.trans hf'
    obtain ⟨a, h1, h2⟩ := Out.bind_eq_ok.mp h
    cases h2
    exact (writePairs_places h1 _ hm).2.after _
  | tupleField hf' h1 h2 =>
    cases hf.symm.trans hf'
    obtain ⟨a, -, h4⟩ := Out.bind_eq_ok.mp h
    exact writeZip_places h4 _ _ _ h1 h2
  | @structField _ _ req fs n _ hf' h1 h2 =>
    cases hf.symm.trans hf'
    obtain ⟨a, -, h4⟩ := Out.bind_eq_ok.mp h
    obtain ⟨v, h5, h6⟩ := writeFields_places h4 _ h2
    rw [imGet_mem (hi _ rfl) h1] at h5
    cases h5
    exact h6
  | byName hf' h1 =>
    cases hf.symm.trans hf'
    have hwf : VariantsWF _ := hs.wf _ _ hf
    simp only [writeTy, writeUnion, (unionByName_iff hwf (_, _) _).mpr ⟨h1, rfl⟩, Out.expect_some, Out.bind_ok] at h
    obtain ⟨a, h3, h4⟩ := Out.bind_eq_ok.mp h
    cases h4
    exact ⟨[_], a, [], by rw [List.append_nil]; rfl, h3⟩
  | byTag hf' h1 =>
    cases hf.symm.trans hf'
    have hwf : VariantsWF _ := hs.wf _ _ hf
    simp only [writeTy, writeUnion, (unionTyByTag_iff hwf _ _).mpr ⟨_, h1⟩, Out.expect_some, Out.bind_ok] at h
    obtain ⟨a, h3, h4⟩ := Out.bind_eq_ok.mp h
    cases h4
    exact ⟨[_], a, [], by rw [List.append_nil]; rfl, h3⟩

theorem inside_written {strict : Bool} (hs : E.Sane) {v w : Val} {a i : SemId} (hw : Inside E v a w i) : ∀ {k n : Nat} {bs : Bytes},
    HasTyN E strict k v a → write E n v a = .ok bs → WriteIn (write E n) bs w i ∧ ∃ m, HasTyN E strict m w i := by
  induction hw with
  | refl v a => exact fun ht h => ⟨⟨[], _, [], by simp, h⟩, _, ht⟩
  | step hp _ ih =>
    intro k n bs ht h
    cases k with
    | zero => exact ht.elim
    | succ k =>
      cases n with
      | zero => cases h
      | succ n =>
        obtain ⟨t, hf, hi⟩ := ht
        simp only [write, hs.typeOf hf] at h
        cases hp with
        | part hp =>
          obtain ⟨p, c, q, rfl, h1⟩ := part_written_place hs hf (typed_fields_distinct hs hf hi) hp h
          obtain ⟨⟨p', d, q', rfl, h2⟩, h3⟩ := ih (part_typed hs hf hi hp) h1
          exact ⟨⟨p ++ p', d, q' ++ q, by simp, write_mono (Nat.le_succ n) h2⟩, h3⟩
        | arrayItem hf' hm =>
          cases hf.symm.trans hf'
          cases h

end Verif
