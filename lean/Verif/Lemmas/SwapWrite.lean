import Verif.Lemmas.Swap

/-! # Replacing a part of a value which is written -/

namespace Verif

open Out (LE)

/-- If the data is written, it has a piece as described by `G`; what is written otherwise has one of those of `G'` in its place. -/
def WPatch (G : Bytes → Prop) (G' : Nat → Bytes → Prop) (f : Out EErr Bytes) (f' : Nat → Out EErr Bytes) : Prop :=
  ∀ bs, f = .ok bs → ∃ pre d post, bs = pre ++ (d ++ post) ∧ G d ∧ ∀ m d', G' m d' → f' m = .ok (pre ++ (d' ++ post))

variable {G : Bytes → Prop} {G' : Nat → Bytes → Prop} {E : Env}

theorem WPatch.never {f : Out EErr Bytes} {f' : Nat → Out EErr Bytes} (h : ∀ bs, f ≠ .ok bs) : WPatch G G' f f' :=
  fun bs hb => absurd hb (h bs)

theorem WPatch.first {f g : Out EErr Bytes} {f' g' : Nat → Out EErr Bytes} (h : WPatch G G' f f') (hg : ∀ m, LE g (g' m)) :
    WPatch G G' (f >>= fun a => g >>= fun b => pure (a ++ b)) (fun m => f' m >>= fun a => g' m >>= fun b => pure (a ++ b)) := by
  intro bs hb
  obtain ⟨a, h1, h2⟩ := Out.bind_eq_ok.mp hb
  obtain ⟨b, h3, h4⟩ := Out.bind_eq_ok.mp h2
  cases h4
  obtain ⟨pre, d, post, rfl, h5, h6⟩ := h a h1
  refine ⟨pre, d, post ++ b, by simp, h5, fun m d' hd => ?_⟩
  dsimp only
  rw [h6 m d' hd, (hg m).ok h3]
  simp

theorem WPatch.second {f g : Out EErr Bytes} {f' g' : Nat → Out EErr Bytes} (h : WPatch G G' g g') (hf : ∀ m, LE f (f' m)) :
    WPatch G G' (f >>= fun a => g >>= fun b => pure (a ++ b)) (fun m => f' m >>= fun a => g' m >>= fun b => pure (a ++ b)) := by
  intro bs hb
  obtain ⟨a, h1, h2⟩ := Out.bind_eq_ok.mp hb
  obtain ⟨b, h3, h4⟩ := Out.bind_eq_ok.mp h2
  cases h4
  obtain ⟨pre, d, post, rfl, h5, h6⟩ := h b h3
  refine ⟨a ++ pre, d, post, by simp, h5, fun m d' hd => ?_⟩
  dsimp only
  rw [h6 m d' hd, (hf m).ok h1]
  simp

theorem WPatch.after {f : Out EErr Bytes} {f' : Nat → Out EErr Bytes} (h : WPatch G G' f f') (x : Bytes) :
    WPatch G G' (f >>= fun b => pure (x ++ b)) (fun m => f' m >>= fun b => pure (x ++ b)) := by
  intro bs hb
  obtain ⟨b, h3, h4⟩ := Out.bind_eq_ok.mp hb
  cases h4
  obtain ⟨pre, d, post, rfl, h5, h6⟩ := h b h3
  refine ⟨x ++ pre, d, post, by simp, h5, fun m d' hd => ?_⟩
  dsimp only
  rw [h6 m d' hd]
  simp

theorem WPatch.guard {γ : Type} {f : Out EErr Bytes} {f' : Nat → Out EErr Bytes} (h : WPatch G G' f f') (o : Out EErr γ) :
    WPatch G G' (o >>= fun _ => f) (fun m => o >>= fun _ => f' m) := by
  cases o with
  | ok _ => exact h
  | _ => exact .never fun _ h => by cases h

variable {wr : Val → SemId → Out EErr Bytes} {wr' : Nat → Val → SemId → Out EErr Bytes} (hm : ∀ m v i, LE (wr v i) (wr' m v i))
include hm

theorem wpatch_items {b : SemId} {w w' : Val} (h : WPatch G G' (wr w b) (fun m => wr' m w' b)) (r : List Val) : ∀ l : List Val,
    WPatch G G' (writeItems wr b (l ++ w :: r)) (fun m => writeItems (wr' m) b (l ++ w' :: r))
  | [] => h.first fun m => writeItems_le (fun v => hm m v b) r
  | x :: l => (wpatch_items h r l).second (f' := fun m => wr' m x b) fun m => hm m x b

theorem wpatch_zip {b : SemId} {w w' : Val} (h : WPatch G G' (wr w b) (fun m => wr' m w' b)) (r : List Val) :
    ∀ (ids : List SemId) (l : List Val), ids[l.length]? = some b →
    WPatch G G' (writeZip wr (l ++ w :: r) ids) (fun m => writeZip (wr' m) (l ++ w' :: r) ids)
  | [], l, hi => by simp at hi
  | i :: ids, [], hi => by
    cases hi
    exact h.first fun m => writeZip_le (fun i _ v => hm m v i) r
  | i :: ids, x :: l, hi =>
    (wpatch_zip h r ids l (by simpa using hi)).second (f' := fun m => wr' m x i) fun m => hm m x i

theorem wpatch_pairs {p p' : Val × Val} {b c : SemId}
    (h : WPatch G G' (wr p.1 b >>= fun x => wr p.2 c >>= fun y => pure (x ++ y))
      (fun m => wr' m p'.1 b >>= fun x => wr' m p'.2 c >>= fun y => pure (x ++ y))) (r : List (Val × Val)) : ∀ l : List (Val × Val),
    WPatch G G' (writePairs wr b c (l ++ p :: r)) (fun m => writePairs (wr' m) b c (l ++ p' :: r)) := by
  have key : ∀ (wr : Val → SemId → Out EErr Bytes) (q : Val × Val) (l : List (Val × Val)), writePairs wr b c (q :: l) =
      (wr q.1 b >>= fun x => wr q.2 c >>= fun y => pure (x ++ y)) >>= fun x => writePairs wr b c l >>= fun y => pure (x ++ y) := by
    intro wr q l
    simp only [writePairs]
    cases wr q.1 b with
    | ok x => cases wr q.2 c <;> rfl
    | _ => rfl
  intro l
  induction l with
  | nil =>
    simp only [List.nil_append, key]
    exact h.first fun m => writePairs_le (fun v => hm m v b) (fun v => hm m v c) r
  | cons q l ih =>
    simp only [List.cons_append, key]
    exact ih.second fun m => LE.bind (hm m _ _) fun _ => LE.bind (hm m _ _) fun _ => LE.refl _

omit hm in
theorem imGet_other {V : Type} {n k : Name} (hk : k ≠ n) (x y : V) (l r : List (Name × V)) :
    imGet (l ++ (n, x) :: r) k = imGet (l ++ (n, y) :: r) k := by
  have he : (n == k) = false := by rw [beq_eq_false_iff_ne]; exact hk.symm
  simp [imGet, List.find?_append, he]

theorem wpatch_others {n : Name} (w w' : Val) (l r : List (Name × Val)) (m : Nat) : ∀ {req : List (Name × SemId)}, n ∉ req.map Prod.fst →
    LE (writeFields wr (l ++ (n, w) :: r) req) (writeFields (wr' m) (l ++ (n, w') :: r) req)
  | [], _ => LE.refl _
  | (k, i) :: req, hn => by
    simp only [List.map_cons, List.mem_cons, not_or] at hn
    simp only [writeFields]
    rw [imGet_other (V := Val) (fun h => hn.1 h.symm) w w' l r]
    cases imGet (l ++ (n, w') :: r) k with
    | none => exact LE.refl _
    | some v => exact LE.bind (hm m v i) fun _ => LE.bind (wpatch_others w w' l r m hn.2) fun _ => LE.refl _

theorem wpatch_fields {n : Name} {b : SemId} {w w' : Val} (h : WPatch G G' (wr w b) (fun m => wr' m w' b)) (l r : List (Name × Val))
    (hl : ((l ++ (n, w) :: r).map Prod.fst).Nodup) : ∀ (req : List (Name × SemId)), (req.map Prod.fst).Nodup → (n, b) ∈ req →
    WPatch G G' (writeFields wr (l ++ (n, w) :: r) req) (fun m => writeFields (wr' m) (l ++ (n, w') :: r) req)
  | [], _, hb => by cases hb
  | (k, i) :: req, hd, hb => by
    have hl' : ((l ++ (n, w') :: r).map Prod.fst).Nodup := by simpa using hl
    simp only [List.map_cons, List.nodup_cons] at hd
    by_cases hk : k = n
    · subst hk
      have hi : i = b := by
        rcases List.mem_cons.mp hb with h | h
        · cases h; rfl
        · exact absurd (List.mem_map_of_mem (f := Prod.fst) h) hd.1
      subst hi
      simp only [writeFields, imGet_mem hl (show (k, w) ∈ l ++ (k, w) :: r by simp),
        imGet_mem hl' (show (k, w') ∈ l ++ (k, w') :: r by simp)]
      exact h.first fun m => wpatch_others hm w w' l r m hd.1
    · have hb' : (n, b) ∈ req := by
        rcases List.mem_cons.mp hb with h | h
        · cases h; exact absurd rfl hk
        · exact h
      have ih := wpatch_fields h l r hl req hd.2 hb'
      simp only [writeFields]
      rw [imGet_other (V := Val) hk w w' l r]
      cases imGet (l ++ (n, w') :: r) k with
      | none => exact .never fun _ h => by cases h
      | some v => exact ih.second (f' := fun m => wr' m v i) fun m => hm m v i

omit hm

theorem wpatch_layer (hs : E.Sane) {a i : SemId} {t : Ty SemId} {v v' w : Val} (hf : E.find a = some t)
    (h : ∀ n, WPatch (fun d => write E n w i = .ok d) G' (writeTy (write E n) E v t) (fun m => writeTy (write E (n + m)) E v' t)) :
    ∀ n, WPatch (fun d => write E n w i = .ok d) G' (write E n v a) (fun m => write E (n + m) v' a)
  | 0 => .never fun _ h => by cases h
  | n + 1 => by
    intro bs hr
    simp only [write, hs.typeOf hf] at hr
    obtain ⟨pre, d, post, h1, h2, h3⟩ := h n bs hr
    refine ⟨pre, d, post, h1, write_mono (Nat.le_succ n) h2, fun m d' hd => ?_⟩
    dsimp only
    rw [Nat.succ_add]
    simp only [write, hs.typeOf hf]
    exact h3 m d' hd

theorem swap_written (hs : E.Sane) {strict : Bool} {a i : SemId} {v v' w w' : Val} (h : Swap E a v v' i w w') : ∀ k, HasTyN E strict k v a → ∀ n,
    WPatch (fun d => write E n w i = .ok d) (fun m d => write E m w' i = .ok d) (write E n v a) (fun m => write E (n + m) v' a) := by
  have hm : ∀ n m v j, LE (write E n v j) (write E (n + m) v j) :=
    fun n m v j => write_le (Env.Agree.refl E) (Nat.le_add_right n m) trivial v
  have typed : ∀ {k v w a b}, HasTyN E strict k v a → Part E v a w b → ∃ j, HasTyN E strict j w b := by
    intro k v w a b h hp
    cases k with
    | zero => exact h.elim
    | succ k =>
      obtain ⟨t, hf, hi⟩ := h
      exact ⟨k, part_typed hs hf hi hp⟩
  induction h with
  | here a v v' =>
    intro k _ n bs h
    exact ⟨[], bs, [], by simp, h, fun m d' hd => by simpa using write_mono (Nat.le_add_left m n) hd⟩
  | @listItem a b i sz w w' u u' l r hf _ ih =>
    intro k hk
    obtain ⟨j, hj⟩ := typed hk (.listItem hf (List.mem_append_right _ List.mem_cons_self))
    refine wpatch_layer hs hf fun n => ?_
    have := (wpatch_items (hm n) (ih j hj n) r l).after (le sz.byteSize (l ++ w :: r).length)
    simp only [writeTy, writeList]
    simpa using this
  | @arrayItem a b i len w w' u u' l r hf _ ih =>
    exact fun k _ => wpatch_layer hs hf fun n => .never fun _ h => by cases h
  | @setItem a b i sz w w' u u' l r hf _ ih =>
    intro k hk
    obtain ⟨j, hj⟩ := typed hk (.setItem hf (List.mem_append_right _ List.mem_cons_self))
    refine wpatch_layer hs hf fun n => ?_
    have := (wpatch_items (hm n) (ih j hj n) r l).after (le sz.byteSize (l ++ w :: r).length)
    simp only [writeTy, writeSet]
    simpa using this
  | @mapKey a b c i sz w w' u u' l r x hf _ ih =>
    intro k hk
    obtain ⟨j, hj⟩ := typed hk (.mapKey (p := (w, x)) hf (List.mem_append_right _ List.mem_cons_self))
    refine wpatch_layer hs hf fun n => ?_
    have := (wpatch_pairs (p := (w, x)) (p' := (w', x)) (c := c) (hm n) ((ih j hj n).first (g' := fun m => write E (n + m) x c) fun m => hm n m x c) r l).after
      (le sz.byteSize (l ++ (w, x) :: r).length)
    simp only [writeTy, writeMap]
    simpa using this
  | @mapValue a b c i sz w w' u u' l r x hf _ ih =>
    intro k hk
    obtain ⟨j, hj⟩ := typed hk (.mapValue (p := (x, w)) hf (List.mem_append_right _ List.mem_cons_self))
    refine wpatch_layer hs hf fun n => ?_
    have := (wpatch_pairs (p := (x, w)) (p' := (x, w')) (b := b) (hm n) ((ih j hj n).second (f' := fun m => write E (n + m) x b) fun m => hm n m x b) r l).after
      (le sz.byteSize (l ++ (x, w) :: r).length)
    simp only [writeTy, writeMap]
    simpa using this
  | @tupleField a b i ids w w' u u' l r hf hi _ ih =>
    intro k hk
    obtain ⟨j, hj⟩ := typed hk (.tupleField (v := w) (k := l.length) hf (by simp) hi)
    refine wpatch_layer hs hf fun n => ?_
    have := (wpatch_zip (hm n) (ih j hj n) r ids l hi).guard (Out.debugAssert E.debug ((l ++ w :: r).length == ids.length))
    simp only [writeTy, writeTuple]
    simpa using this
  | @structField a b i req nm w w' u u' l r hf hb _ ih =>
    intro k hk
    obtain ⟨j, hj⟩ := typed hk (.structField hf (List.mem_append_right _ List.mem_cons_self) hb)
    cases k with
    | zero => exact hk.elim
    | succ k =>
      obtain ⟨t, hf', hi⟩ := hk
      cases hf.symm.trans hf'
      have hd := typed_fields_distinct hs hf hi _ rfl
      refine wpatch_layer hs hf fun n => ?_
      have := (wpatch_fields (hm n) (ih j hj n) l r hd req (hs.fields _ _ hf) hb).guard
        (Out.debugAssert E.debug ((l ++ (nm, w) :: r).length == req.length))
      simp only [writeTy, writeStruct]
      simpa using this
  | @variant a b i vs nm t w w' u u' hf hb _ ih =>
    intro k hk
    obtain ⟨j, hj⟩ := typed hk (.byName hf hb)
    have hwf : VariantsWF _ := hs.wf _ _ hf
    refine wpatch_layer hs hf fun n => ?_
    simp only [writeTy, writeUnion, (unionByName_iff hwf (_, _) _).mpr ⟨hb, rfl⟩, Out.expect_some, Out.bind_ok]
    exact (ih j hj n).after [t]

end Verif
