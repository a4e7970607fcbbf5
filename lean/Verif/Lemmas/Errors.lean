import Verif.Spec.Errors
import Verif.Lemmas.Fuel
import Verif.Lemmas.Read
import Verif.Lemmas.Basic

/-!
# Errors of reading, writing and checking
-/

namespace Verif

/-- Every error the function may return satisfies `P`. -/
def Errs {ε α : Type} (P : ε → Prop) (o : Out ε α) : Prop := ∀ e, o = .err e → P e

namespace Errs
variable {ε α β : Type} {P Q : ε → Prop}

theorem ok (a : α) : Errs P (.ok a : Out ε α) := fun _ h => by cases h
theorem panic : Errs P (.panic : Out ε α) := fun _ h => by cases h
theorem diverge : Errs P (.diverge : Out ε α) := fun _ h => by cases h
theorem err {e : ε} (h : P e) : Errs P (.err e : Out ε α) := fun _ h' => by cases h'; exact h

theorem bind {o : Out ε α} {f : α → Out ε β} (h : Errs P o) (hf : ∀ a, o = .ok a → Errs P (f a)) :
    Errs P (o >>= f) := by
  cases o with
  | ok a => exact hf a rfl
  | err e => exact .err (h e rfl)
  | panic => exact .panic
  | diverge => exact .diverge

theorem map {o : Out ε α} {f : α → β} (h : Errs P o) : Errs P (o >>= fun a => pure (f a)) :=
  h.bind fun _ _ => .ok _

theorem expect (o : Option α) : Errs P (Out.expect o) := by
  cases o with
  | none => exact .panic
  | some a => exact .ok a

theorem debugAssert (d b : Bool) : Errs P (Out.debugAssert d b) := by
  unfold Out.debugAssert
  split
  · exact .panic
  · exact .ok _

theorem mono {o : Out ε α} (h : Errs P o) (hpq : ∀ e, P e → Q e) : Errs Q o :=
  fun e he => hpq e (h e he)

theorem mapErr {ε' : Type} {R : ε' → Prop} {f : ε → ε'} {o : Out ε α}
    (h : Errs (fun e => R (f e)) o) : Errs R (o.mapErr f) := by
  cases o with
  | ok a => exact .ok a
  | err e => exact .err (h e rfl)
  | panic => exact .panic
  | diverge => exact .diverge

end Errs

theorem Reach.from {sys : TypeSystem} {a b c : SemId} (h : Reach sys (· = a) b)
    (h' : Reach sys (· = b) c) : Reach sys (· = a) c := by
  induction h' with
  | root hr => exact hr ▸ h
  | step _ ht hm ih => exact .step ih ht hm

theorem Reach.here {sys : TypeSystem} (a : SemId) : Reach sys (· = a) a := .root rfl

theorem Reach.ref {sys : TypeSystem} {a r c : SemId} {t : Ty SemId} (ht : sys.get a = some t)
    (hr : r ∈ t.refs) (h : Reach sys (· = r) c) : Reach sys (· = a) c :=
  (Reach.step (.here a) ht hr).from h

theorem Occurs.trans {u v w : Val} (h : Occurs u v) (h' : Occurs v w) : Occurs u w := by
  induction h with
  | refl _ => exact h'
  | tuple hm _ ih => exact .tuple hm (ih h')
  | list hm _ ih => exact .list hm (ih h')
  | set hm _ ih => exact .set hm (ih h')
  | field hm _ ih => exact .field hm (ih h')
  | key hm _ ih => exact .key hm (ih h')
  | value hm _ ih => exact .value hm (ih h')
  | content _ ih => exact .content (ih h')

/-! ## Reading -/

section
variable {α β : Type}

/-- Every error of the reader satisfies `P` at the bytes it was given. -/
def RdErrs (P : DErr → Bytes → Prop) (f : Bytes → Out DErr (RdPair α)) : Prop :=
  ∀ bs e, f bs = .err e → P e bs

theorem RdErrs.bind {P : DErr → Bytes → Prop} (hP : ∀ c bs e, P e bs → P e (c ++ bs))
    {f : Bytes → Out DErr (RdPair α)} {g : RdPair α → Out DErr (RdPair β)} (hl : LocalRd f)
    (hf : RdErrs P f) (hg : ∀ a, RdErrs P fun bs => g (a, bs)) : RdErrs P fun bs => f bs >>= g := by
  intro bs e h
  dsimp only at h
  cases hfb : f bs with
  | ok r =>
    obtain ⟨a, rest⟩ := r
    obtain ⟨c, rfl, -, -⟩ := hl bs a rest hfb
    rw [hfb] at h
    exact hP _ _ _ (hg a rest e h)
  | err e' =>
    rw [hfb] at h
    cases h
    exact hf bs _ hfb
  | panic => rw [hfb] at h; cases h
  | diverge => rw [hfb] at h; cases h

theorem RdErrs.ok {P : DErr → Bytes → Prop} (a : α) : RdErrs P fun bs => .ok (a, bs) :=
  fun _ _ h => by cases h

variable {P : DErr → Bytes → Prop} (hP : ∀ c bs e, P e bs → P e (c ++ bs))
  {rec : SemId → Bytes → Out DErr (RdPair Val)} (hl : ∀ id, LocalRd (rec id))
include hP hl

theorem readItems_errs {id : SemId} (h : RdErrs P (rec id)) (n : Nat) :
    RdErrs P (readItems rec id n) := by
  induction n with
  | zero => exact RdErrs.ok _
  | succ n ih =>
    refine RdErrs.bind hP (hl id) h fun v => ?_
    exact RdErrs.bind hP (readItems_local hl id n) ih fun _ => RdErrs.ok _

theorem readPairs_errs {kid id : SemId} (hk : RdErrs P (rec kid)) (h : RdErrs P (rec id)) (n : Nat) :
    RdErrs P (readPairs rec kid id n) := by
  induction n with
  | zero => exact RdErrs.ok _
  | succ n ih =>
    refine RdErrs.bind hP (hl kid) hk fun k => ?_
    refine RdErrs.bind hP (hl id) h fun v => ?_
    exact RdErrs.bind hP (readPairs_local hl kid id n) ih fun _ => RdErrs.ok _

theorem readTuple_errs {ids : List SemId} (h : ∀ r ∈ ids, RdErrs P (rec r)) :
    RdErrs P (readTuple rec ids) := by
  induction ids with
  | nil => exact RdErrs.ok _
  | cons i ids ih =>
    refine RdErrs.bind hP (hl i) (h i (by simp)) fun v => ?_
    exact RdErrs.bind hP (readTuple_local hl ids) (ih fun r hr => h r (by simp [hr]))
      fun _ => RdErrs.ok _

theorem readFields_errs {req : List (Name × SemId)} (h : ∀ r ∈ req.map Prod.snd, RdErrs P (rec r))
    (acc : List (Name × Val)) : RdErrs P (readFields rec req acc) := by
  induction req generalizing acc with
  | nil => exact RdErrs.ok _
  | cons r req ih =>
    refine RdErrs.bind hP (hl r.2) (h r.2 (by simp)) fun v => ?_
    exact ih (fun r hr => h r (List.mem_cons_of_mem _ hr)) _

omit hP hl in
theorem readLe_err {n : Nat} {bs : Bytes} {e : DErr} (h : readLe n bs = .err e) : e = .io := by
  unfold readLe readRaw at h
  split at h <;> cases h
  rfl

omit hP hl in
theorem withCapacity_err {a b : Nat} {e : DErr} : withCapacity a b ≠ .err e := by
  unfold withCapacity
  split <;> simp

/-- A length prefix and then the items. The first premise is about a prefix that is cut. -/
theorem readSeq_errs {E : Env} {id : SemId} {w : Nat} {bs : Bytes} {e : DErr}
    (hw : readLe w bs = .err .io → P .io bs) (h : RdErrs P (rec id))
    (he : readSeq rec E id w bs = .err e) : P e bs := by
  unfold readSeq at he
  cases hr : readLe w bs with
  | ok r =>
    obtain ⟨len, rest⟩ := r
    obtain ⟨c, rfl, -, -⟩ := readLe_local w bs len rest hr
    rw [hr] at he
    simp only [Out.bind_ok] at he
    cases hc : withCapacity E.valSize len with
    | ok _ =>
      rw [hc] at he
      exact hP _ _ _ (readItems_errs hP hl h len rest e he)
    | err e' => exact absurd hc withCapacity_err
    | panic => rw [hc] at he; cases he
    | diverge => rw [hc] at he; cases he
  | err e' =>
    rw [hr] at he
    cases he
    cases readLe_err hr
    exact hw hr
  | panic => rw [hr] at he; cases he
  | diverge => rw [hr] at he; cases he

theorem readMapSeq_errs {E : Env} {kid id : SemId} {w : Nat} {bs : Bytes} {e : DErr}
    (hw : readLe w bs = .err .io → P .io bs) (hk : RdErrs P (rec kid)) (h : RdErrs P (rec id))
    (he : readMapSeq rec E kid id w bs = .err e) : P e bs := by
  unfold readMapSeq at he
  cases hr : readLe w bs with
  | ok r =>
    obtain ⟨len, rest⟩ := r
    obtain ⟨c, rfl, -, -⟩ := readLe_local w bs len rest hr
    rw [hr] at he
    simp only [Out.bind_ok] at he
    cases hc : withCapacity (2 * E.valSize) len with
    | ok _ =>
      rw [hc] at he
      exact hP _ _ _ (readPairs_errs hP hl hk h len rest e he)
    | err e' => exact absurd hc withCapacity_err
    | panic => rw [hc] at he; cases he
    | diverge => rw [hc] at he; cases he
  | err e' =>
    rw [hr] at he
    cases he
    cases readLe_err hr
    exact hw hr
  | panic => rw [hr] at he; cases he
  | diverge => rw [hr] at he; cases he

end

theorem readLe_take {n x : Nat} {bs rest : Bytes} (h : readLe n bs = .ok (x, rest)) :
    bs = bs.take n ++ rest ∧ x = fromLe (bs.take n) ∧ n ≤ bs.length := by
  unfold readLe readRaw at h
  split at h <;> cases h
  exact ⟨(List.take_append_drop n bs).symm, rfl, by assumption⟩

/-- Errors of reading text. -/
theorem readText_err {ok : Bytes → Bool} {e e' : DErr} {w : Nat} {bs : Bytes} {f : Bytes → Val}
    (h : (readLe w bs >>= fun r => readRaw r.1 r.2 >>= fun q =>
      if ok q.1 = true then pure (f q.1, q.2) else .err e) = (.err e' : Out DErr (RdPair Val))) :
    e' = .io ∨ (e' = e ∧ BadText ok bs) := by
  cases hr : readLe w bs with
  | ok r =>
    obtain ⟨len, rest⟩ := r
    obtain ⟨h1, h2, -⟩ := readLe_take hr
    rw [hr] at h
    simp only [Out.bind_ok, readRaw] at h
    split at h
    · rename_i hle
      simp only [Out.bind_ok] at h
      split at h
      · cases h
      · cases h
        rename_i hok
        refine Or.inr ⟨rfl, bs.take w, rest.take len, rest.drop len, ?_, ?_, by simpa using hok⟩
        · rw [List.take_append_drop]; exact h1
        · rw [← h2, List.length_take]; omega
    · cases h; exact Or.inl rfl
  | err e'' =>
    rw [hr] at h
    cases h
    exact Or.inl (readLe_err hr)
  | panic => rw [hr] at h; cases h
  | diverge => rw [hr] at h; cases h

theorem readPrim_err {p : Byte} {bs : Bytes} {e : DErr} (h : readPrim p bs = .err e) :
    e = .io ∨ (e = .notImplemented ∧ ¬ReadablePrim p) := by
  have hu : ∀ n, readUint n bs = .err e → e = .io := by
    intro n h
    unfold readUint at h
    cases hr : readLe n bs with
    | ok r => rw [hr] at h; cases h
    | err e' => rw [hr] at h; cases h; exact readLe_err hr
    | panic => rw [hr] at h; cases h
    | diverge => rw [hr] at h; cases h
  have hi : ∀ n, readInt n bs = .err e → e = .io := by
    intro n h
    unfold readInt at h
    cases hr : readLe n bs with
    | ok r => rw [hr] at h; cases h
    | err e' => rw [hr] at h; cases h; exact readLe_err hr
    | panic => rw [hr] at h; cases h
    | diverge => rw [hr] at h; cases h
  unfold readPrim at h
  repeat' split at h
  all_goals first
    | cases h; done
    | exact Or.inl (hu _ h)
    | exact Or.inl (hi _ h)
    | skip
  cases h
  refine Or.inr ⟨rfl, ?_⟩
  rename_i h0 hb h8 h1 h2 h4 h5
  have hn : ∀ q : Byte, p ≠ q → p.toNat ≠ q.toNat := fun q h h' => h (BitVec.eq_of_toNat_eq h')
  have := hn _ h0
  have := hn _ hb
  have := hn _ h1
  have := hn _ h2
  have := hn _ h4
  have := hn _ h5
  simp [Ty.UNIT_CODE, Ty.BYTE_CODE] at *
  unfold ReadablePrim
  omega

/-- Errors of recognising restricted strings. -/
theorem isRString_err {E : Env} {ids : List SemId} {i : SemId} (h : E.isRString ids = .err i) :
    E.find i = none ∧ (i ∈ ids ∨ ∃ b sz, b ∈ ids ∧ E.find b = some (.list i sz)) := by
  unfold Env.isRString at h
  split at h
  · cases h
  · rename_i hlen
    match ids, hlen with
    | [], hlen => simp at hlen
    | [_], hlen => simp at hlen
    | _ :: _ :: _ :: _, hlen => simp at hlen
    | [a, b], _ =>
      simp only [List.getElem?_cons_zero, Out.expect_some, Out.bind_ok, Env.rstringSizing,
        List.getElem?_cons_succ] at h
      cases hb : E.find b with
      | none =>
        rw [hb] at h
        cases h
        exact ⟨hb, by simp⟩
      | some t =>
        rw [hb] at h
        cases t with
        | list rest sz =>
          dsimp only at h
          split at h
          · cases h
          · simp only [Out.pure_eq, Out.bind_ok] at h
            cases ha : E.find a with
            | none =>
              rw [ha] at h
              cases h
              exact ⟨ha, by simp⟩
            | some u =>
              rw [ha] at h
              dsimp only at h
              split at h
              · cases h
              · cases hr : E.find rest with
                | none =>
                  rw [hr] at h
                  cases h
                  exact ⟨hr, Or.inr ⟨b, sz, by simp, hb⟩⟩
                | some x => rw [hr] at h; cases h
        | _ => cases h

theorem isRString_tail {E : Env} {ids : List SemId} (h : E.isRString ids = .ok true) :
    ∃ a b i sz, ids = [a, b] ∧ E.find b = some (.list i sz) := by
  unfold Env.isRString at h
  split at h
  · cases h
  · rename_i hlen
    match ids, hlen with
    | [], hlen => simp at hlen
    | [_], hlen => simp at hlen
    | _ :: _ :: _ :: _, hlen => simp at hlen
    | [a, b], _ =>
      simp only [List.getElem?_cons_zero, Out.expect_some, Out.bind_ok, Env.rstringSizing,
        List.getElem?_cons_succ] at h
      cases hb : E.find b with
      | none => rw [hb] at h; cases h
      | some t =>
        rw [hb] at h
        cases t with
        | list rest sz => exact ⟨a, b, rest, sz, rfl, hb⟩
        | _ => cases h

theorem readUnionTag_none {vs : List (Variant × SemId)} {t : Byte} (h : Ty.unionByTag vs t = none) :
    ∀ x ∈ vs.map Prod.fst, x.tag ≠ t := by
  intro x hx
  obtain ⟨p, hp, rfl⟩ := List.mem_map.mp hx
  have := List.find?_eq_none.mp h p hp
  simpa using this

theorem readEnumTag_none {vs : List Variant} {t : Byte} (h : Ty.enumNameByTag vs t = none) :
    ∀ x ∈ vs, x.tag ≠ t := by
  intro x hx
  unfold Ty.enumNameByTag at h
  rw [Option.map_eq_none_iff] at h
  have := List.find?_eq_none.mp h x hx
  simpa using this

/-- Reading a tag. -/
theorem readLe_one {t : Nat} {bs rest : Bytes} (h : readLe 1 bs = .ok (t, rest)) :
    bs = BitVec.ofNat 8 t :: rest := by
  obtain ⟨h1, rfl, hl⟩ := readLe_take h
  cases bs with
  | nil => simp at hl
  | cons b bs =>
    simp only [List.take_succ_cons, List.take_zero, List.cons_append, List.nil_append,
      List.cons.injEq, true_and] at h1
    subst h1
    simp [fromLe]

theorem read_errs (E : Env) (n : Nat) (id : SemId) (bs : Bytes) (e : DErr)
    (h : read E n id bs = .err e) : NamesList E id e ∨ ReadBlames E id e bs := by
  induction n generalizing id bs e with
  | zero => cases h
  | succ n ih =>
    have here : ∀ {e}, ReadFault E id bs e → NamesList E id e ∨ ReadBlames E id e bs :=
      fun hf => Or.inr ⟨id, [], bs, .here id, rfl, hf⟩
    cases ht : E.find id with
    | none =>
      simp only [read, ht] at h
      cases h
      exact here ⟨rfl, ht⟩
    | some t =>
      have hP : ∀ c bs e, (NamesList E id e ∨ ReadBlames E id e bs) →
          NamesList E id e ∨ ReadBlames E id e (c ++ bs) := by
        rintro c bs e (h | ⟨j, d, bs', h1, rfl, h2⟩)
        · exact Or.inl h
        · exact Or.inr ⟨j, c ++ d, bs', h1, by simp, h2⟩
      have hrec : ∀ r ∈ t.refs, RdErrs (fun e bs => NamesList E id e ∨ ReadBlames E id e bs)
          (read E n r) := by
        intro r hr bs e h
        rcases ih r bs e h with ⟨i, j, sz, h1, h2, h3, h4⟩ | ⟨j, c, bs', h1, h2, h3⟩
        · exact Or.inl ⟨i, j, sz, h1, .ref ht hr h2, h3, h4⟩
        · exact Or.inr ⟨j, c, bs', .ref ht hr h1, h2, h3⟩
      have hl := read_local E n
      have hread : ∀ m, read E (m + 1) id bs = readTy (read E m) E id t bs := by
        intro m
        simp only [read, ht]
      rw [hread] at h
      cases t with
      | primitive p =>
        rcases readPrim_err h with rfl | ⟨rfl, hp⟩
        · exact here fun m => by rw [hread]; exact h
        · exact here ⟨p, ht, hp⟩
      | unicodeChar => cases h
      | enum vs =>
        simp only [readTy] at h hread
        cases hr : readLe 1 bs with
        | ok r =>
          obtain ⟨t, rest⟩ := r
          rw [hr] at h
          simp only [Out.bind_ok] at h
          cases hx : Ty.enumNameByTag vs (BitVec.ofNat 8 t) with
          | none =>
            rw [hx] at h
            cases h
            exact here ⟨_, _, vs, readLe_one hr, readEnumTag_none hx, Or.inl ht⟩
          | some x => rw [hx] at h; cases h
        | err e' =>
          rw [hr] at h
          cases h
          cases readLe_err hr
          exact here fun m => by rw [hread, hr]; rfl
        | panic => rw [hr] at h; cases h
        | diverge => rw [hr] at h; cases h
      | union vs =>
        simp only [readTy] at h hread
        cases hr : readLe 1 bs with
        | ok r =>
          obtain ⟨t, rest⟩ := r
          rw [hr] at h
          simp only [Out.bind_ok] at h
          cases hx : Ty.unionByTag vs (BitVec.ofNat 8 t) with
          | none =>
            rw [hx] at h
            cases h
            exact here ⟨_, _, _, readLe_one hr, readUnionTag_none hx, Or.inr ⟨vs, ht, rfl⟩⟩
          | some p =>
            rw [hx] at h
            dsimp only at h
            have hp : p.2 ∈ (Ty.union vs).refs :=
              List.mem_map_of_mem (List.mem_of_find?_eq_some hx)
            have := (RdErrs.bind hP (hl p.2) (hrec p.2 hp)
              (g := fun x => pure (Val.union (.name p.1.name) x.1, x.2)) fun a => RdErrs.ok (Val.union (.name p.1.name) a)) rest e h
            rw [readLe_one hr]
            exact hP [_] _ _ this
        | err e' =>
          rw [hr] at h
          cases h
          cases readLe_err hr
          exact here fun m => by rw [hread, hr]; rfl
        | panic => rw [hr] at h; cases h
        | diverge => rw [hr] at h; cases h
      | tuple ids =>
        simp only [readTy, readTupleTy, ofUnknown] at h hread
        cases hr : E.isRString ids with
        | ok b =>
          rw [hr] at h hread
          simp only [Out.mapErr, Out.bind_ok] at h hread
          cases b with
          | true =>
            obtain ⟨a, b, i, sz, rfl, hb⟩ := isRString_tail hr
            cases hs : E.rstringSizing [a, b] with
            | ok o =>
              rw [hs] at h hread
              simp only [if_true, Out.bind_ok] at h hread
              cases o with
              | none => cases h
              | some q =>
                dsimp only at h hread
                rcases readText_err (f := .str) h with rfl | ⟨rfl, hbad⟩
                · exact here fun m => by rw [hread]; exact h
                · exact here ⟨hbad, Or.inr ⟨a, b, i, sz, ht, hb⟩⟩
            | err i' =>
              simp only [Env.rstringSizing, List.getElem?_cons_succ, List.getElem?_cons_zero,
                Out.expect_some, Out.bind_ok, hb] at hs
              split at hs <;> cases hs
            | panic => rw [hs] at h; cases h
            | diverge => rw [hs] at h; cases h
          | false =>
            simp only [Bool.false_eq_true, if_false] at h
            exact (RdErrs.bind hP (readTuple_local hl ids) (readTuple_errs hP hl hrec)
              (g := fun x => pure (Val.tuple x.1, x.2)) fun a => RdErrs.ok (Val.tuple a)) bs e h
        | err i =>
          rw [hr] at h
          cases h
          obtain ⟨h1, h2⟩ := isRString_err hr
          refine Or.inr ⟨i, [], bs, ?_, rfl, rfl, h1⟩
          rcases h2 with h2 | ⟨b, sz, h2, h3⟩
          · exact .ref ht h2 (.here i)
          · exact .ref ht h2 (.ref h3 (by simp [Ty.refs]) (.here i))
        | panic => rw [hr] at h; cases h
        | diverge => rw [hr] at h; cases h
      | struct req =>
        exact (RdErrs.bind hP (readFields_local hl req []) (readFields_errs hP hl hrec [])
          (g := fun x => pure (Val.struct x.1, x.2)) fun a => RdErrs.ok (Val.struct a)) bs e h
      | array i len =>
        simp only [readTy] at h hread
        by_cases hb : i.isByte E.H = true
        · simp only [if_pos hb] at h hread
          cases hr : readRaw len.toNat bs with
          | ok r => rw [hr] at h; cases h
          | err e' =>
            rw [hr] at h
            cases h
            have : e = .io := by
              unfold readRaw at hr
              split at hr <;> cases hr
              rfl
            subst this
            exact here fun m => by rw [hread, hr]; rfl
          | panic => rw [hr] at h; cases h
          | diverge => rw [hr] at h; cases h
        · simp only [if_neg hb] at h
          exact (RdErrs.bind hP (readItems_local hl i _)
            (readItems_errs hP hl (hrec i (by simp [Ty.refs])) _)
            (g := fun x => pure (Val.list x.1, x.2)) fun a => RdErrs.ok (Val.list a)) bs e h
      | list i sz =>
        simp only [readTy, readList] at h hread
        cases hi : E.find i with
        | none =>
          rw [hi] at h
          cases h
          exact Or.inl ⟨id, i, sz, rfl, .here id, ht, hi⟩
        | some u =>
          rw [hi] at h hread
          dsimp only at h hread
          by_cases hc : u.isCharEnum = true
          · simp only [if_pos hc] at h hread
            rcases readText_err (f := .str) h with rfl | ⟨rfl, hbad⟩
            · exact here fun m => by rw [hread]; exact h
            · cases u with
              | enum vs => exact here ⟨hbad, Or.inl ⟨i, sz, vs, ht, hi⟩⟩
              | _ => cases hc
          · simp only [if_neg hc] at h hread
            by_cases hb : i.isByte E.H = true ∧ sz.max.toNat ≤ 0xffffffff
            · simp only [if_pos hb] at h hread
              rcases readText_err (ok := fun _ => true) (e := .io) (f := .bytes)
                (by simpa [readBlob] using h) with rfl | ⟨rfl, hbad⟩
              · exact here fun m => by rw [hread]; exact h
              · exact here fun m => by rw [hread]; exact h
            · simp only [if_neg hb] at h hread
              by_cases hu : i.isUnicodeChar E.H = true ∧ sz.max.toNat ≤ 0xffffffff
              · simp only [if_pos hu] at h hread
                have hi' : SemId.unicodeChar E.H = i := by simpa [SemId.isUnicodeChar] using hu.1
                rcases readText_err (f := .str) h with rfl | ⟨rfl, hbad⟩
                · exact here fun m => by rw [hread]; exact h
                · exact here ⟨hbad, sz, by rw [hi']; exact ht⟩
              · simp only [if_neg hu] at h hread
                cases hs : readSeq (read E n) E i sz.byteSize bs with
                | ok r => rw [hs] at h; cases h
                | err e' =>
                  rw [hs] at h
                  cases h
                  exact readSeq_errs (P := fun e bs => NamesList E id e ∨ ReadBlames E id e bs) hP hl
                    (fun hw => here fun m => by rw [hread, readSeq, hw]; rfl)
                    (hrec i (by simp [Ty.refs])) hs
                | panic => rw [hs] at h; cases h
                | diverge => rw [hs] at h; cases h
      | set i sz =>
        simp only [readTy] at h hread
        cases hs : readSeq (read E n) E i sz.byteSize bs with
        | ok r => rw [hs] at h; cases h
        | err e' =>
          rw [hs] at h
          cases h
          exact readSeq_errs (P := fun e bs => NamesList E id e ∨ ReadBlames E id e bs) hP hl
            (fun hw => here fun m => by rw [hread, readSeq, hw]; rfl)
            (hrec i (by simp [Ty.refs])) hs
        | panic => rw [hs] at h; cases h
        | diverge => rw [hs] at h; cases h
      | map k i sz =>
        simp only [readTy] at h hread
        cases hs : readMapSeq (read E n) E k i sz.byteSize bs with
        | ok r => rw [hs] at h; cases h
        | err e' =>
          rw [hs] at h
          cases h
          exact readMapSeq_errs (P := fun e bs => NamesList E id e ∨ ReadBlames E id e bs) hP hl
            (fun hw => here fun m => by rw [hread, readMapSeq, hw]; rfl)
            (hrec k (by simp [Ty.refs])) (hrec i (by simp [Ty.refs])) hs
        | panic => rw [hs] at h; cases h
        | diverge => rw [hs] at h; cases h

end Verif
