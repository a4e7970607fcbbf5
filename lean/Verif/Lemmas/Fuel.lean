import Verif.Model.Codec
import Verif.Spec.Value

/-!
# More fuel and agreeing systems

The value functions are monotone in the fuel and depend on the type system only through the ids
reachable from the type.
-/

namespace Verif

/-- `b` is `a`, or `a` did not terminate. -/
def Out.LE {ε α : Type} (a b : Out ε α) : Prop := a = .diverge ∨ a = b

namespace Out
variable {ε α β : Type}

@[simp] theorem expect_some (a : α) : (expect (some a) : Out ε α) = .ok a := rfl
@[simp] theorem expect_none : (expect none : Out ε α) = .panic := rfl

theorem LE.refl (a : Out ε α) : LE a a := Or.inr rfl

theorem LE.diverge (a : Out ε α) : LE .diverge a := Or.inl rfl

theorem LE.of_eq {a b : Out ε α} (h : a = b) : LE a b := Or.inr h

theorem LE.antisymm {a b : Out ε α} (h : LE a b) (h' : LE b a) : a = b := by
  rcases h with h | h
  · rcases h' with h' | h'
    · rw [h, h']
    · exact h'.symm
  · exact h

theorem LE.ok {a b : Out ε α} (h : LE a b) {x : α} (hx : a = .ok x) : b = .ok x := by
  rcases h with h | h
  · simp [hx] at h
  · rw [← h, hx]

theorem LE.ne {a b : Out ε α} (h : LE a b) (hx : a ≠ .diverge) : b = a := by
  rcases h with h | h
  · exact absurd h hx
  · exact h.symm

theorem LE.bind {a b : Out ε α} {f g : α → Out ε β} (h : LE a b) (hf : ∀ x, LE (f x) (g x)) :
    LE (a >>= f) (b >>= g) := by
  rcases h with h | h
  · rw [h]; exact Or.inl rfl
  · subst h
    cases a with
    | ok x => exact hf x
    | err e => exact LE.refl _
    | panic => exact LE.refl _
    | diverge => exact LE.refl _

theorem LE.mapErr {ε' : Type} {a b : Out ε α} (f : ε → ε') (h : LE a b) :
    LE (a.mapErr f) (b.mapErr f) := by
  rcases h with h | h
  · rw [h]; exact Or.inl rfl
  · rw [h]; exact LE.refl _

end Out

open Out

/-! ## Typify -/

section
variable {rec rec' : Val → SemId → Out TErr Val}

theorem outMap_le {f g : Val → Out TErr Val} (h : ∀ v, LE (f v) (g v)) (l : List Val) :
    LE (outMap f l) (outMap g l) := by
  induction l with
  | nil => exact LE.refl _
  | cons v l ih =>
    exact LE.bind (h v) fun _ => LE.bind ih fun _ => LE.refl _

theorem typifyZip_le {ids : List SemId} (h : ∀ r ∈ ids, ∀ v, LE (rec v r) (rec' v r))
    (l : List Val) : LE (typifyZip rec l ids) (typifyZip rec' l ids) := by
  induction ids generalizing l with
  | nil => cases l <;> exact LE.refl _
  | cons i ids ih =>
    cases l with
    | nil => exact LE.refl _
    | cons v l =>
      exact LE.bind (h i (by simp) v) fun _ =>
        LE.bind (ih (fun r hr => h r (by simp [hr])) l) fun _ => LE.refl _

theorem fieldTy_mem {req : List (Name × SemId)} {n : Name} {id : SemId}
    (h : Ty.fieldTy req n = some id) : id ∈ req.map Prod.snd := by
  unfold Ty.fieldTy at h
  simp only [Option.map_eq_some_iff] at h
  obtain ⟨p, hp, rfl⟩ := h
  exact List.mem_map_of_mem (List.mem_of_find?_eq_some hp)

theorem unionTyByTag_mem {vs : List (Variant × SemId)} {t : Byte} {id : SemId}
    (h : Ty.unionTyByTag vs t = some id) : id ∈ vs.map Prod.snd := by
  unfold Ty.unionTyByTag at h
  simp only [Option.map_eq_some_iff] at h
  obtain ⟨p, hp, rfl⟩ := h
  exact List.mem_map_of_mem (List.mem_of_find?_eq_some hp)

theorem unionTyByName_mem {vs : List (Variant × SemId)} {n : Name} {id : SemId}
    (h : Ty.unionTyByName vs n = some id) : id ∈ vs.map Prod.snd := by
  unfold Ty.unionTyByName at h
  simp only [Option.map_eq_some_iff] at h
  obtain ⟨p, hp, rfl⟩ := h
  exact List.mem_map_of_mem (List.mem_of_find?_eq_some hp)

theorem typifyFields_le {req : List (Name × SemId)}
    (h : ∀ r ∈ req.map Prod.snd, ∀ v, LE (rec v r) (rec' v r)) (fs acc : List (Name × Val)) :
    LE (typifyFields rec req fs acc) (typifyFields rec' req fs acc) := by
  induction fs generalizing acc with
  | nil => exact LE.refl _
  | cons f fs ih =>
    obtain ⟨n, v⟩ := f
    unfold typifyFields
    cases hf : Ty.fieldTy req n with
    | none => exact LE.refl _
    | some id => exact LE.bind (h id (fieldTy_mem hf) v) fun _ => ih _

theorem typifyMapFields_le {req : List (Name × SemId)}
    (h : ∀ r ∈ req.map Prod.snd, ∀ v, LE (rec v r) (rec' v r)) (fs : List (Val × Val))
    (acc : List (Name × Val)) :
    LE (typifyMapFields rec req fs acc) (typifyMapFields rec' req fs acc) := by
  induction fs generalizing acc with
  | nil => exact LE.refl _
  | cons f fs ih =>
    obtain ⟨k, v⟩ := f
    cases k with
    | str s =>
      unfold typifyMapFields
      cases Name.ofBytes? s with
      | none => exact LE.refl _
      | some n =>
        dsimp only
        cases hf : Ty.fieldTy req n with
        | none => exact LE.refl _
        | some id => exact LE.bind (h id (fieldTy_mem hf) v) fun _ => ih _
    | _ => unfold typifyMapFields; exact LE.refl _

theorem typifySetItems_le {id : SemId} (h : ∀ v, LE (rec v id) (rec' v id)) (l acc : List Val) :
    LE (typifySetItems rec id l acc) (typifySetItems rec' id l acc) := by
  induction l generalizing acc with
  | nil => exact LE.refl _
  | cons v l ih =>
    refine LE.bind (h v) fun w => ?_
    split
    · exact LE.refl _
    · exact ih _

theorem typifyMapItems_le {kid id : SemId} (hk : ∀ v, LE (rec v kid) (rec' v kid))
    (h : ∀ v, LE (rec v id) (rec' v id)) (l acc : List (Val × Val)) :
    LE (typifyMapItems rec kid id l acc) (typifyMapItems rec' kid id l acc) := by
  induction l generalizing acc with
  | nil => exact LE.refl _
  | cons p l ih =>
    refine LE.bind (hk p.1) fun _ => LE.bind (h p.2) fun w => ?_
    split
    · exact LE.refl _
    · exact ih _

theorem typifySome_le {vs : List (Variant × SemId)}
    (h : ∀ r ∈ vs.map Prod.snd, ∀ v, LE (rec v r) (rec' v r)) (v : Val) :
    LE (typifySome rec vs v) (typifySome rec' vs v) := by
  unfold typifySome
  cases ht : Ty.unionTyByTag vs 1 with
  | none => exact LE.refl _
  | some id =>
    simp only [expect_some, bind_ok]
    exact LE.bind (h id (unionTyByTag_mem ht) v) fun _ => LE.refl _

theorem typifyUnion_le {vs : List (Variant × SemId)}
    (h : ∀ r ∈ vs.map Prod.snd, ∀ v, LE (rec v r) (rec' v r)) (v : Val) :
    LE (typifyUnion rec vs v) (typifyUnion rec' vs v) := by
  unfold typifyUnion
  split
  · rename_i tag content
    split
    · rename_i id hid
      refine LE.bind (h id ?_ content) fun _ => LE.refl _
      cases tag with
      | name n => exact unionTyByName_mem hid
      | ord t => exact unionTyByTag_mem hid
    · exact LE.refl _
  · exact LE.refl _
  · rename_i a b
    split
    · cases ht : Ty.unionTyByTag vs 1 with
      | none => exact LE.refl _
      | some id =>
        simp only [expect_some, bind_ok]
        split
        · exact LE.refl _
        · split
          · exact LE.bind (h id (unionTyByTag_mem ht) b) fun _ => LE.refl _
          · exact LE.refl _
    · exact LE.refl _
  · split
    · exact typifySome_le h _
    · exact LE.refl _

theorem typifyTuple_le {ids : List SemId} (h : ∀ r ∈ ids, ∀ v, LE (rec v r) (rec' v r)) (v : Val) :
    LE (typifyTuple rec ids v) (typifyTuple rec' ids v) := by
  have hn : ∀ v, LE (typifyTuple.newtype rec ids v) (typifyTuple.newtype rec' ids v) := by
    intro v
    unfold typifyTuple.newtype
    split
    · exact LE.bind (h _ (by simp) v) fun _ => LE.refl _
    · exact LE.refl _
  unfold typifyTuple
  split
  · split
    · exact LE.refl _
    · exact hn _
  · split
    · exact LE.refl _
    · exact LE.bind (typifyZip_le h _) fun _ => LE.refl _
  · exact LE.bind (typifyZip_le h _) fun _ => LE.refl _
  · exact hn _

theorem typifyTy_le {E E' : Env} (hH : E.H = E'.H) {t : Ty SemId}
    (h : ∀ r ∈ t.refs, ∀ v, LE (rec v r) (rec' v r)) (v : Val) :
    LE (typifyTy rec E v t) (typifyTy rec' E' v t) := by
  cases t with
  | primitive p => exact LE.refl _
  | unicodeChar => exact LE.refl _
  | enum vs => exact LE.refl _
  | union vs => exact typifyUnion_le h v
  | tuple ids => exact typifyTuple_le h v
  | struct req =>
    simp only [typifyTy]
    cases v with
    | struct fs =>
      simp only [typifyStruct]
      split
      · exact LE.refl _
      · exact LE.bind (typifyFields_le h _ _) fun _ => LE.refl _
    | map fs =>
      simp only [typifyStruct]
      exact LE.bind (typifyMapFields_le h _ _) fun _ => LE.refl _
    | _ => exact LE.refl _
  | array id len => simp only [typifyTy]; cases v <;> simp only [typifyArray, hH] <;> exact LE.refl _
  | list id sz =>
    simp only [typifyTy]
    cases v with
    | list l =>
      simp only [typifyList]
      split
      · exact LE.refl _
      · exact LE.bind (outMap_le (h id (by simp [Ty.refs])) _) fun _ => LE.refl _
    | _ => simp only [typifyList, hH]; exact LE.refl _
  | set id sz =>
    simp only [typifyTy]
    cases v with
    | set l =>
      simp only [typifySet]
      split
      · exact LE.refl _
      · exact LE.bind (typifySetItems_le (h id (by simp [Ty.refs])) _ _) fun _ => LE.refl _
    | _ => exact LE.refl _
  | map kid id sz =>
    simp only [typifyTy]
    cases v with
    | map l =>
      simp only [typifyMap]
      split
      · exact LE.refl _
      · exact LE.bind (typifyMapItems_le (h kid (by simp [Ty.refs])) (h id (by simp [Ty.refs])) _ _)
          fun _ => LE.refl _
    | _ => exact LE.refl _

end

theorem Env.Agree.typeOf {E E' : Env} {S : SemId → Prop} (h : E.Agree E' S) {id : SemId}
    (hid : S id) : E.typeOf id = E'.typeOf id := by
  unfold Env.typeOf
  rw [h.H, h.find id hid]

theorem Env.Agree.refs {E E' : Env} {S : SemId → Prop} (h : E.Agree E' S) {id : SemId} {t : Ty SemId}
    (hid : S id) (ht : E.typeOf id = some t) : ∀ r ∈ t.refs, S r := by
  unfold Env.typeOf at ht
  split at ht
  · cases ht; simp [Ty.refs]
  · exact h.closed id t hid ht

theorem typify_le {E E' : Env} {S : SemId → Prop} (h : E.Agree E' S) {n m : Nat} (hnm : n ≤ m)
    {id : SemId} (hid : S id) (v : Val) : LE (typify E n v id) (typify E' m v id) := by
  induction n generalizing m v id with
  | zero => exact Or.inl rfl
  | succ n ih =>
    cases m with
    | zero => omega
    | succ m =>
      unfold typify
      rw [← h.typeOf hid]
      cases ht : E.typeOf id with
      | none => exact LE.refl _
      | some t =>
        exact typifyTy_le h.H (fun r hr v => ih (by omega) (h.refs hid ht r hr) v) v

/-! ## Writing -/

theorem Env.Agree.isRString {E E' : Env} {S : SemId → Prop} (h : E.Agree E' S) {ids : List SemId}
    (hi : ∀ r ∈ ids, S r) :
    E.rstringSizing ids = E'.rstringSizing ids ∧ E.isRString ids = E'.isRString ids := by
  match ids with
  | [] => simp [Env.rstringSizing, Env.isRString, Out.expect]
  | [a] => simp [Env.rstringSizing, Env.isRString, Out.expect]
  | a :: b :: l =>
    have hb := h.find b (hi b (by simp))
    have ha := h.find a (hi a (by simp))
    have h1 : E.rstringSizing (a :: b :: l) = E'.rstringSizing (a :: b :: l) := by
      simp only [Env.rstringSizing, Out.expect, h.debug, List.getElem?_cons_succ,
        List.getElem?_cons_zero, Out.bind_ok]
      rw [hb]
    refine ⟨h1, ?_⟩
    unfold Env.isRString
    rw [h1]
    split
    · rfl
    · simp only [List.getElem?_cons_zero, Out.expect, Out.bind_ok]
      cases hb' : E.find b with
      | none =>
        rw [hb'] at hb
        simp [Env.rstringSizing, Out.expect, ← hb]
      | some t =>
        cases t with
        | list c sz =>
          have hc := h.find c (h.closed b _ (hi b (by simp)) hb' c (by simp [Ty.refs]))
          simp only [Env.rstringSizing, Out.expect, ← hb, hb', List.getElem?_cons_succ,
            List.getElem?_cons_zero, Out.bind_ok]
          split
          · rfl
          · simp only [Out.pure_eq, Out.bind_ok, ha, hc]
        | _ =>
          simp [Env.rstringSizing, Out.expect, ← hb, hb']

section
variable {rec rec' : Val → SemId → Out EErr Bytes}

theorem writeZip_le {ids : List SemId} (h : ∀ r ∈ ids, ∀ v, LE (rec v r) (rec' v r))
    (l : List Val) : LE (writeZip rec l ids) (writeZip rec' l ids) := by
  induction ids generalizing l with
  | nil => cases l <;> exact LE.refl _
  | cons i ids ih =>
    cases l with
    | nil => exact LE.refl _
    | cons v l =>
      exact LE.bind (h i (by simp) v) fun _ =>
        LE.bind (ih (fun r hr => h r (by simp [hr])) l) fun _ => LE.refl _

theorem writeFields_le {req : List (Name × SemId)}
    (h : ∀ r ∈ req.map Prod.snd, ∀ v, LE (rec v r) (rec' v r)) (fs : List (Name × Val)) :
    LE (writeFields rec fs req) (writeFields rec' fs req) := by
  induction req with
  | nil => exact LE.refl _
  | cons r req ih =>
    obtain ⟨n, id⟩ := r
    unfold writeFields
    cases imGet fs n with
    | none => exact LE.refl _
    | some v =>
      exact LE.bind (h id (by simp) v) fun _ =>
        LE.bind (ih fun r hr => h r (by simp only [List.map_cons, List.mem_cons]; exact Or.inr hr))
          fun _ => LE.refl _

theorem writeItems_le {id : SemId} (h : ∀ v, LE (rec v id) (rec' v id)) (l : List Val) :
    LE (writeItems rec id l) (writeItems rec' id l) := by
  induction l with
  | nil => exact LE.refl _
  | cons v l ih => exact LE.bind (h v) fun _ => LE.bind ih fun _ => LE.refl _

theorem writePairs_le {kid id : SemId} (hk : ∀ v, LE (rec v kid) (rec' v kid))
    (h : ∀ v, LE (rec v id) (rec' v id)) (l : List (Val × Val)) :
    LE (writePairs rec kid id l) (writePairs rec' kid id l) := by
  induction l with
  | nil => exact LE.refl _
  | cons p l ih =>
    exact LE.bind (hk p.1) fun _ => LE.bind (h p.2) fun _ => LE.bind ih fun _ => LE.refl _

theorem writeTy_le {E E' : Env} {S : SemId → Prop} (ha : E.Agree E' S) {t : Ty SemId}
    (hS : ∀ r ∈ t.refs, S r) (h : ∀ r ∈ t.refs, ∀ v, LE (rec v r) (rec' v r)) (v : Val) :
    LE (writeTy rec E v t) (writeTy rec' E' v t) := by
  cases t with
  | primitive p =>
    simp only [writeTy]
    cases v with
    | num n => cases n <;> simp only [writePrim, ha.primSize] <;> exact LE.refl _
    | _ => simp only [writePrim, ha.debug]; exact LE.refl _
  | unicodeChar => simp only [writeTy, ha.debug]; exact LE.refl _
  | enum vs =>
    simp only [writeTy]
    cases v with
    | enum t => cases t <;> simp only [writeEnum, ha.debug] <;> exact LE.refl _
    | _ => exact LE.refl _
  | union vs =>
    simp only [writeTy]
    cases v with
    | union t v =>
      cases t with
      | name n =>
        simp only [writeUnion]
        cases hp : Ty.unionByName vs n with
        | none => exact LE.refl _
        | some p =>
          simp only [expect_some, bind_ok]
          exact LE.bind (h p.2 (List.mem_map_of_mem (List.mem_of_find?_eq_some hp)) v)
            fun _ => LE.refl _
      | ord t =>
        simp only [writeUnion]
        cases hp : Ty.unionTyByTag vs t with
        | none => exact LE.refl _
        | some id =>
          simp only [expect_some, bind_ok]
          exact LE.bind (h id (unionTyByTag_mem hp) v) fun _ => LE.refl _
    | _ => exact LE.refl _
  | tuple ids =>
    simp only [writeTy]
    cases v with
    | tuple l =>
      simp only [writeTuple, ha.debug]
      exact LE.bind (LE.refl _) fun _ => writeZip_le h l
    | str s =>
      have hr := ha.isRString (ids := ids) hS
      simp only [writeTuple, ha.debug, hr.1, hr.2]
      exact LE.refl _
    | _ => exact LE.refl _
  | struct req =>
    simp only [writeTy]
    cases v with
    | struct fs =>
      simp only [writeStruct, ha.debug]
      exact LE.bind (LE.refl _) fun _ => writeFields_le h fs
    | _ => exact LE.refl _
  | array id len =>
    simp only [writeTy]; cases v <;> simp only [writeArray, ha.debug] <;> exact LE.refl _
  | list id sz =>
    simp only [writeTy]
    cases v with
    | list l =>
      exact LE.bind (writeItems_le (h id (by simp [Ty.refs])) l) fun _ => LE.refl _
    | _ => exact LE.refl _
  | set id sz =>
    simp only [writeTy]
    cases v with
    | set l =>
      exact LE.bind (writeItems_le (h id (by simp [Ty.refs])) l) fun _ => LE.refl _
    | _ => exact LE.refl _
  | map kid id sz =>
    simp only [writeTy]
    cases v with
    | map l =>
      exact LE.bind (writePairs_le (h kid (by simp [Ty.refs])) (h id (by simp [Ty.refs])) l)
        fun _ => LE.refl _
    | _ => exact LE.refl _

end

theorem write_le {E E' : Env} {S : SemId → Prop} (h : E.Agree E' S) {n m : Nat} (hnm : n ≤ m)
    {id : SemId} (hid : S id) (v : Val) : LE (write E n v id) (write E' m v id) := by
  induction n generalizing m v id with
  | zero => exact Or.inl rfl
  | succ n ih =>
    cases m with
    | zero => omega
    | succ m =>
      unfold write
      rw [← h.typeOf hid]
      cases ht : E.typeOf id with
      | none => exact LE.refl _
      | some t =>
        exact writeTy_le h (h.refs hid ht) (fun r hr v => ih (by omega) (h.refs hid ht r hr) v) v

/-! ## Reading -/

section
variable {rec rec' : SemId → Bytes → Out DErr (RdPair Val)}

theorem readItems_le {id : SemId} (h : ∀ bs, LE (rec id bs) (rec' id bs)) (n : Nat) (bs : Bytes) :
    LE (readItems rec id n bs) (readItems rec' id n bs) := by
  induction n generalizing bs with
  | zero => exact LE.refl _
  | succ n ih => exact LE.bind (h bs) fun _ => LE.bind (ih _) fun _ => LE.refl _

theorem readPairs_le {kid id : SemId} (hk : ∀ bs, LE (rec kid bs) (rec' kid bs))
    (h : ∀ bs, LE (rec id bs) (rec' id bs)) (n : Nat) (bs : Bytes) :
    LE (readPairs rec kid id n bs) (readPairs rec' kid id n bs) := by
  induction n generalizing bs with
  | zero => exact LE.refl _
  | succ n ih =>
    exact LE.bind (hk bs) fun _ => LE.bind (h _) fun _ => LE.bind (ih _) fun _ => LE.refl _

theorem readTuple_le {ids : List SemId} (h : ∀ r ∈ ids, ∀ bs, LE (rec r bs) (rec' r bs))
    (bs : Bytes) : LE (readTuple rec ids bs) (readTuple rec' ids bs) := by
  induction ids generalizing bs with
  | nil => exact LE.refl _
  | cons i ids ih =>
    exact LE.bind (h i (by simp) bs) fun _ =>
      LE.bind (ih (fun r hr => h r (by simp [hr])) _) fun _ => LE.refl _

theorem readFields_le {req : List (Name × SemId)}
    (h : ∀ r ∈ req.map Prod.snd, ∀ bs, LE (rec r bs) (rec' r bs)) (acc : List (Name × Val))
    (bs : Bytes) : LE (readFields rec req acc bs) (readFields rec' req acc bs) := by
  induction req generalizing acc bs with
  | nil => exact LE.refl _
  | cons r req ih =>
    exact LE.bind (h r.2 (by simp) bs) fun _ =>
      ih (fun r hr => h r (by simp only [List.map_cons, List.mem_cons]; exact Or.inr hr)) _ _

theorem readSeq_le {E E' : Env} (hv : E.valSize = E'.valSize) {id : SemId}
    (h : ∀ bs, LE (rec id bs) (rec' id bs)) (w : Nat) (bs : Bytes) :
    LE (readSeq rec E id w bs) (readSeq rec' E' id w bs) := by
  unfold readSeq
  rw [hv]
  exact LE.bind (LE.refl _) fun _ => LE.bind (LE.refl _) fun _ => readItems_le h _ _

theorem readMapSeq_le {E E' : Env} (hv : E.valSize = E'.valSize) {kid id : SemId}
    (hk : ∀ bs, LE (rec kid bs) (rec' kid bs))
    (h : ∀ bs, LE (rec id bs) (rec' id bs)) (w : Nat) (bs : Bytes) :
    LE (readMapSeq rec E kid id w bs) (readMapSeq rec' E' kid id w bs) := by
  unfold readMapSeq
  rw [hv]
  exact LE.bind (LE.refl _) fun _ => LE.bind (LE.refl _) fun _ => readPairs_le hk h _ _

theorem readTy_le {E E' : Env} {S : SemId → Prop} (ha : E.Agree E' S) {t : Ty SemId}
    (hS : ∀ r ∈ t.refs, S r) (h : ∀ r ∈ t.refs, ∀ bs, LE (rec r bs) (rec' r bs)) (spec : SemId)
    (bs : Bytes) : LE (readTy rec E spec t bs) (readTy rec' E' spec t bs) := by
  cases t with
  | primitive p => exact LE.refl _
  | unicodeChar => exact LE.refl _
  | enum vs => exact LE.refl _
  | union vs =>
    refine LE.bind (LE.refl _) fun p => ?_
    dsimp only
    cases hp : Ty.unionByTag vs (BitVec.ofNat 8 p.1) with
    | none => exact LE.refl _
    | some q =>
      exact LE.bind (h q.2 (List.mem_map_of_mem (List.mem_of_find?_eq_some hp)) _) fun _ => LE.refl _
  | tuple ids =>
    have hr := ha.isRString (ids := ids) hS
    simp only [readTy, readTupleTy, hr.1, hr.2]
    refine LE.bind (LE.refl _) fun b => ?_
    cases b with
    | true => exact LE.refl _
    | false => exact LE.bind (readTuple_le h bs) fun _ => LE.refl _
  | struct req => exact LE.bind (readFields_le h _ _) fun _ => LE.refl _
  | array id len =>
    simp only [readTy, ha.H]
    split
    · exact LE.refl _
    · exact LE.bind (readItems_le (h id (by simp [Ty.refs])) _ _) fun _ => LE.refl _
  | list id sz =>
    simp only [readTy, readList, ha.H, ha.find id (hS id (by simp [Ty.refs]))]
    split
    · exact LE.refl _
    · split
      · exact LE.refl _
      · split
        · exact LE.refl _
        · split
          · exact LE.refl _
          · exact LE.bind (readSeq_le ha.valSize (h id (by simp [Ty.refs])) _ _) fun _ => LE.refl _
  | set id sz =>
    exact LE.bind (readSeq_le ha.valSize (h id (by simp [Ty.refs])) _ _) fun _ => LE.refl _
  | map kid id sz =>
    exact LE.bind (readMapSeq_le ha.valSize (h kid (by simp [Ty.refs])) (h id (by simp [Ty.refs]))
      _ _) fun _ => LE.refl _

end

theorem read_le {E E' : Env} {S : SemId → Prop} (h : E.Agree E' S) {n m : Nat} (hnm : n ≤ m)
    {id : SemId} (hid : S id) (bs : Bytes) : LE (read E n id bs) (read E' m id bs) := by
  induction n generalizing m bs id with
  | zero => exact Or.inl rfl
  | succ n ih =>
    cases m with
    | zero => omega
    | succ m =>
      unfold read
      rw [← h.find id hid]
      cases ht : E.find id with
      | none => exact LE.refl _
      | some t =>
        exact readTy_le h (h.closed id t hid ht)
          (fun r hr bs => ih (by omega) (h.closed id t hid ht r hr) bs) id bs

/-! ## Consequences -/

theorem Env.Agree.refl (E : Env) : E.Agree E fun _ => True :=
  ⟨rfl, rfl, rfl, rfl, fun _ _ => rfl, fun _ _ _ _ _ _ => trivial⟩

theorem Env.Agree.symm {E E' : Env} {S : SemId → Prop} (h : E.Agree E' S) : E'.Agree E S :=
  ⟨h.H.symm, h.debug.symm, h.primSize.symm, h.valSize.symm, fun id hid => (h.find id hid).symm,
    fun id t hid ht => h.closed id t hid (by rw [h.find id hid, ht])⟩

theorem typify_mono {E : Env} {n m : Nat} (h : n ≤ m) {v w : Val} {id : SemId}
    (hv : typify E n v id = .ok w) : typify E m v id = .ok w :=
  (typify_le (Env.Agree.refl E) h trivial v).ok hv

theorem write_mono {E : Env} {n m : Nat} (h : n ≤ m) {v : Val} {id : SemId} {bs : Bytes}
    (hv : write E n v id = .ok bs) : write E m v id = .ok bs :=
  (write_le (Env.Agree.refl E) h trivial v).ok hv

theorem read_mono {E : Env} {n m : Nat} (h : n ≤ m) {id : SemId} {bs : Bytes} {r : RdPair Val}
    (hv : read E n id bs = .ok r) : read E m id bs = .ok r :=
  (read_le (Env.Agree.refl E) h trivial bs).ok hv

end Verif
