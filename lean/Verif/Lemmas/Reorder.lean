import Verif.Spec.Reorder
import Verif.Lemmas.TypifyExact
import Verif.Props.Equal

/-! # Lemmas on the order of set items and map entries -/

namespace Verif

variable {E : Env}

/-! ## Lists -/

theorem all2_replace {α β : Type} {R : α → β → Prop} {a b : List α} {x y : α} {m : List β}
    (h : All2 R (a ++ x :: b) m) (hxy : ∀ c, R x c → R y c) : All2 R (a ++ y :: b) m := by
  induction a generalizing m with
  | nil =>
    cases m with
    | nil => exact h
    | cons c m => exact ⟨hxy c h.1, h.2⟩
  | cons z a ih =>
    cases m with
    | nil => exact h
    | cons c m => exact ⟨h.1, ih h.2⟩

theorem mem_replace {α : Type} {P : α → Prop} {a b : List α} {x y : α} (h : ∀ z ∈ a ++ x :: b, P z) (hy : P x → P y) :
    ∀ z ∈ a ++ y :: b, P z := by
  intro z hz
  rcases List.mem_append.mp hz with h1 | h1
  · exact h z (by simp [h1])
  · rcases List.mem_cons.mp h1 with rfl | h1
    · exact hy (h x (by simp))
    · exact h z (by simp [h1])

theorem swap_perm {α : Type} (a : List α) (x y : α) (b : List α) : (a ++ x :: y :: b).Perm (a ++ y :: x :: b) :=
  List.Perm.append_left a (List.Perm.swap y x b)

theorem mem_swap {α : Type} {P : α → Prop} {a b : List α} {x y : α} (h : ∀ z ∈ a ++ x :: y :: b, P z) :
    ∀ z ∈ a ++ y :: x :: b, P z := fun z hz => h z ((swap_perm a x y b).mem_iff.mpr hz)

/-! ## Well-typed values -/

theorem distinct_swap {P : Val → Prop} (hP : ∀ v w, P v → P w → v.eqv w = w.eqv v) {l m : List Val} (hp : l.Perm m)
    (h : ∀ v ∈ l, P v) (hd : l.Pairwise fun a b => a.eqv b = false) : m.Pairwise fun a b => a.eqv b = false := by
  induction hp with
  | nil => exact hd
  | cons x hp ih =>
    rw [List.pairwise_cons] at hd ⊢
    exact ⟨fun b hb => hd.1 b (hp.mem_iff.mpr hb), ih (fun v hv => h v (by simp [hv])) hd.2⟩
  | swap x y l =>
    simp only [List.pairwise_cons, List.mem_cons] at hd ⊢
    refine ⟨fun b hb => ?_, fun b hb => hd.1 b (.inr hb), hd.2.2⟩
    rcases hb with rfl | hb
    · rw [hP _ _ (h _ (by simp)) (h _ (by simp))]; exact hd.1 _ (.inl rfl)
    · exact hd.2.1 b hb
  | trans p q ih1 ih2 => exact ih2 (fun v hv => h v (p.mem_iff.mpr hv)) (ih1 h hd)

theorem eqv_symm {v w : Val} (hv : v.Keyed) (hw : w.Keyed) : v.eqv w = w.eqv v := C95_equivalence.2.1 v w hv hw

/-- Loosely or strictly typed values stay so; strictly typed ones if nothing is exchanged in items and keys. -/
theorem swap_typed (hs : E.Sane) {deep strict : Bool} {v w : Val} (h : v.Swap deep w) (hd : strict = true → deep = false)
    {n : Nat} {id : SemId} (hv : HasTyN E strict n v id) : HasTyN E strict n w id := by
  induction h generalizing n id with
  | set a x y b =>
    cases n with
    | zero => exact hv.elim
    | succ n =>
      obtain ⟨t, hf, hv⟩ := hv
      refine ⟨t, hf, ?_⟩
      cases hv with
      | set h1 h2 h3 h4 =>
        have hp := swap_perm a x y b
        refine .set (by rw [← hp.length_eq]; exact h1) (by rw [← hp.length_eq]; exact h2) (mem_swap h3) fun hst => ?_
        exact distinct_swap (P := Val.Keyed) (fun _ _ => eqv_symm) hp (fun v hv => typed_keyed hs n v _ (h3 v hv)) (h4 hst)
  | map a x y b =>
    cases n with
    | zero => exact hv.elim
    | succ n =>
      obtain ⟨t, hf, hv⟩ := hv
      refine ⟨t, hf, ?_⟩
      cases hv with
      | map h1 h2 h3 h4 =>
        have hp := swap_perm a x y b
        refine .map (by rw [← hp.length_eq]; exact h1) (by rw [← hp.length_eq]; exact h2) (mem_swap h3) fun hst => ?_
        refine distinct_swap (P := Val.Keyed) (fun _ _ => eqv_symm) (hp.map Prod.fst) (fun v hv => ?_) (h4 hst)
        obtain ⟨p, hp, rfl⟩ := List.mem_map.mp hv
        exact typed_keyed hs n _ _ (h3 p hp).1
  | inUnion t h ih =>
    cases n with
    | zero => exact hv.elim
    | succ n =>
      obtain ⟨t, hf, hv⟩ := hv
      refine ⟨t, hf, ?_⟩
      cases hv with
      | union h1 h2 => exact .union h1 (ih h2)
  | inStruct a m b h ih =>
    cases n with
    | zero => exact hv.elim
    | succ n =>
      obtain ⟨t, hf, hv⟩ := hv
      refine ⟨t, hf, ?_⟩
      cases hv with
      | struct h1 => exact .struct (all2_replace h1 fun c hc => ⟨hc.1, ih hc.2⟩)
  | inList a b h ih =>
    cases n with
    | zero => exact hv.elim
    | succ n =>
      obtain ⟨t, hf, hv⟩ := hv
      refine ⟨t, hf, ?_⟩
      cases hv with
      | array h1 h2 h3 => exact .array h1 (by simpa using h2) (mem_replace h3 ih)
      | list h1 h2 h3 h4 h5 h6 => exact .list h1 h2 h3 (by simpa using h4) (by simpa using h5) (mem_replace h6 ih)
  | inTuple a b h ih =>
    cases n with
    | zero => exact hv.elim
    | succ n =>
      obtain ⟨t, hf, hv⟩ := hv
      refine ⟨t, hf, ?_⟩
      cases hv with
      | tuple h1 h2 => exact .tuple h1 (all2_replace h2 fun c hc => ih hc)
  | inValue a k b h ih =>
    cases n with
    | zero => exact hv.elim
    | succ n =>
      obtain ⟨t, hf, hv⟩ := hv
      refine ⟨t, hf, ?_⟩
      cases hv with
      | map h1 h2 h3 h4 =>
        exact .map (by simpa using h1) (by simpa using h2) (mem_replace h3 fun h => ⟨h.1, ih h.2⟩) (by simpa using h4)
  | inItem a b hdeep h ih =>
    cases n with
    | zero => exact hv.elim
    | succ n =>
      obtain ⟨t, hf, hv⟩ := hv
      refine ⟨t, hf, ?_⟩
      cases hv with
      | set h1 h2 h3 h4 =>
        refine .set (by simpa using h1) (by simpa using h2) (mem_replace h3 ih) fun hst => ?_
        rw [hd hst] at hdeep
        cases hdeep
  | inKey a k b hdeep h ih =>
    cases n with
    | zero => exact hv.elim
    | succ n =>
      obtain ⟨t, hf, hv⟩ := hv
      refine ⟨t, hf, ?_⟩
      cases hv with
      | map h1 h2 h3 h4 =>
        refine .map (by simpa using h1) (by simpa using h2) (mem_replace h3 fun h => ⟨ih h.1, h.2⟩) fun hst => ?_
        rw [hd hst] at hdeep
        cases hdeep

/-! ## Writing -/

section
variable {rec : Val → SemId → Out EErr Bytes}

theorem writeItems_append {id : SemId} {a b : List Val} {bs : Bytes} (h : writeItems rec id (a ++ b) = .ok bs) :
    ∃ c d, writeItems rec id a = .ok c ∧ writeItems rec id b = .ok d ∧ bs = c ++ d := by
  induction a generalizing bs with
  | nil => exact ⟨[], bs, rfl, h, rfl⟩
  | cons v a ih =>
    obtain ⟨x, h1, h2⟩ := Out.bind_eq_ok.mp h
    obtain ⟨y, h3, h4⟩ := Out.bind_eq_ok.mp h2
    cases h4
    obtain ⟨c, d, e1, e2, rfl⟩ := ih h3
    exact ⟨x ++ c, d, by simp [writeItems, h1, e1, pure], e2, by simp⟩

theorem writeItems_join {id : SemId} {a b : List Val} {c d : Bytes} (h : writeItems rec id a = .ok c)
    (h' : writeItems rec id b = .ok d) : writeItems rec id (a ++ b) = .ok (c ++ d) := by
  induction a generalizing c with
  | nil => cases h; exact h'
  | cons v a ih =>
    obtain ⟨x, h1, h2⟩ := Out.bind_eq_ok.mp h
    obtain ⟨y, h3, h4⟩ := Out.bind_eq_ok.mp h2
    cases h4
    simp [writeItems, h1, ih h3, pure]

theorem writePairs_append {k id : SemId} {a b : List (Val × Val)} {bs : Bytes} (h : writePairs rec k id (a ++ b) = .ok bs) :
    ∃ c d, writePairs rec k id a = .ok c ∧ writePairs rec k id b = .ok d ∧ bs = c ++ d := by
  induction a generalizing bs with
  | nil => exact ⟨[], bs, rfl, h, rfl⟩
  | cons v a ih =>
    obtain ⟨x, h1, h2⟩ := Out.bind_eq_ok.mp h
    obtain ⟨y, h3, h4⟩ := Out.bind_eq_ok.mp h2
    obtain ⟨z, h5, h6⟩ := Out.bind_eq_ok.mp h4
    cases h6
    obtain ⟨c, d, e1, e2, rfl⟩ := ih h5
    exact ⟨x ++ y ++ c, d, by simp [writePairs, h1, h3, e1, pure], e2, by simp⟩

theorem writePairs_join {k id : SemId} {a b : List (Val × Val)} {c d : Bytes} (h : writePairs rec k id a = .ok c)
    (h' : writePairs rec k id b = .ok d) : writePairs rec k id (a ++ b) = .ok (c ++ d) := by
  induction a generalizing c with
  | nil => cases h; exact h'
  | cons v a ih =>
    obtain ⟨x, h1, h2⟩ := Out.bind_eq_ok.mp h
    obtain ⟨y, h3, h4⟩ := Out.bind_eq_ok.mp h2
    obtain ⟨z, h5, h6⟩ := Out.bind_eq_ok.mp h4
    cases h6
    simp [writePairs, h1, h3, ih h5, pure]

theorem writeItems_replace {id : SemId} {a b : List Val} {v w : Val} {bs : Bytes}
    (h : writeItems rec id (a ++ v :: b) = .ok bs) (hr : ∀ i c, rec v i = .ok c → ∃ d, rec w i = .ok d ∧ c.Perm d) :
    ∃ cs, writeItems rec id (a ++ w :: b) = .ok cs ∧ bs.Perm cs := by
  obtain ⟨c, d, h1, h2, rfl⟩ := writeItems_append h
  obtain ⟨x, h3, h4⟩ := Out.bind_eq_ok.mp h2
  obtain ⟨y, h5, h6⟩ := Out.bind_eq_ok.mp h4
  cases h6
  obtain ⟨z, h7, h8⟩ := hr _ _ h3
  refine ⟨c ++ (z ++ y), writeItems_join h1 (by simp [writeItems, h7, h5, pure]), ?_⟩
  exact List.Perm.append_left _ (List.Perm.append_right _ h8)

theorem writeZip_replace {ids : List SemId} {a b : List Val} {v w : Val} {bs : Bytes}
    (h : writeZip rec (a ++ v :: b) ids = .ok bs) (hr : ∀ i c, rec v i = .ok c → ∃ d, rec w i = .ok d ∧ c.Perm d) :
    ∃ cs, writeZip rec (a ++ w :: b) ids = .ok cs ∧ bs.Perm cs := by
  induction a generalizing ids bs with
  | nil =>
    cases ids with
    | nil => exact ⟨bs, h, .refl _⟩
    | cons i ids =>
      obtain ⟨x, h3, h4⟩ := Out.bind_eq_ok.mp h
      obtain ⟨y, h5, h6⟩ := Out.bind_eq_ok.mp h4
      cases h6
      obtain ⟨z, h7, h8⟩ := hr _ _ h3
      exact ⟨z ++ y, by simp [writeZip, h7, h5, pure], List.Perm.append_right _ h8⟩
  | cons u a ih =>
    cases ids with
    | nil => exact ⟨bs, h, .refl _⟩
    | cons i ids =>
      obtain ⟨x, h3, h4⟩ := Out.bind_eq_ok.mp h
      obtain ⟨y, h5, h6⟩ := Out.bind_eq_ok.mp h4
      cases h6
      obtain ⟨z, h7, h8⟩ := ih h5
      exact ⟨x ++ z, by simp [writeZip, h7, h3, pure], List.Perm.append_left _ h8⟩

theorem imGet_replace {V : Type} {P : V → V → Prop} (hP : ∀ x, P x x) {a b : List (Name × V)} {n m : Name} {v w : V}
    (hv : P v w) {x : V} (h : imGet (a ++ (n, v) :: b) m = some x) :
    ∃ y, imGet (a ++ (n, w) :: b) m = some y ∧ P x y := by
  induction a with
  | nil =>
    by_cases hn : n = m
    · subst hn
      simp [imGet] at h ⊢
      subst h
      exact hv
    · have : (n == m) = false := by simpa using hn
      simp only [imGet, List.nil_append, List.find?_cons, this] at h ⊢
      exact ⟨x, h, hP x⟩
  | cons p a ih =>
    by_cases hn : p.1 = m
    · have : (p.1 == m) = true := by simpa using hn
      simp only [imGet, List.cons_append, List.find?_cons, this] at h ⊢
      exact ⟨x, h, hP x⟩
    · have : (p.1 == m) = false := by simpa using hn
      simp only [imGet, List.cons_append, List.find?_cons, this] at h ih ⊢
      exact ih h

theorem writeFields_replace {req : List (Name × SemId)} {a b : List (Name × Val)} {n : Name} {v w : Val} {bs : Bytes}
    (h : writeFields rec (a ++ (n, v) :: b) req = .ok bs)
    (hr : ∀ i c, rec v i = .ok c → ∃ d, rec w i = .ok d ∧ c.Perm d) :
    ∃ cs, writeFields rec (a ++ (n, w) :: b) req = .ok cs ∧ bs.Perm cs := by
  induction req generalizing bs with
  | nil => cases h; exact ⟨[], rfl, .refl _⟩
  | cons r req ih =>
    obtain ⟨m, i⟩ := r
    simp only [writeFields] at h ⊢
    split at h
    · cases h
    · next x hx =>
      obtain ⟨c, h3, h4⟩ := Out.bind_eq_ok.mp h
      obtain ⟨d, h5, h6⟩ := Out.bind_eq_ok.mp h4
      cases h6
      obtain ⟨z, h7, h8⟩ := ih h5
      obtain ⟨y, hy, hxy⟩ := imGet_replace (P := fun x y => ∀ i c, rec x i = .ok c → ∃ d, rec y i = .ok d ∧ c.Perm d)
        (fun x i c h => ⟨c, h, .refl _⟩) hr hx
      obtain ⟨e, he, hp⟩ := hxy _ _ h3
      exact ⟨e ++ z, by simp [hy, he, h7, pure], hp.append h8⟩

end

/-- What is written for the value with items and entries exchanged: as many bytes, the same ones. -/
theorem swap_write {deep : Bool} {v w : Val} (h : v.Swap deep w) {n : Nat} {id : SemId} {bs : Bytes}
    (hb : write E n v id = .ok bs) : ∃ cs, write E n w id = .ok cs ∧ bs.Perm cs := by
  induction h generalizing n id bs with
  | set a x y b =>
    cases n with
    | zero => cases hb
    | succ n =>
      simp only [write] at hb ⊢
      split at hb
      · cases hb
      · next t ht =>
        cases t <;> try (cases hb; done)
        simp only [writeTy, writeSet] at hb ⊢
        obtain ⟨cs, h1, h2⟩ := Out.bind_eq_ok.mp hb
        cases h2
        obtain ⟨c, d, h3, h4, rfl⟩ := writeItems_append h1
        obtain ⟨e, h5, h6⟩ := Out.bind_eq_ok.mp h4
        obtain ⟨f, h7, h8⟩ := Out.bind_eq_ok.mp h6
        cases h8
        obtain ⟨g, h9, h10⟩ := Out.bind_eq_ok.mp h7
        obtain ⟨k, h11, h12⟩ := Out.bind_eq_ok.mp h10
        cases h12
        rw [writeItems_join h3 (show writeItems (write E n) _ (y :: x :: b) = .ok (g ++ (e ++ k)) by
          simp [writeItems, h5, h9, h11, pure])]
        refine ⟨_, rfl, ?_⟩
        rw [(swap_perm a x y b).length_eq]
        refine List.Perm.append_left _ (List.Perm.append_left _ ?_)
        rw [← List.append_assoc, ← List.append_assoc]
        exact List.Perm.append_right _ List.perm_append_comm
  | map a x y b =>
    cases n with
    | zero => cases hb
    | succ n =>
      simp only [write] at hb ⊢
      split at hb
      · cases hb
      · next t ht =>
        cases t <;> try (cases hb; done)
        simp only [writeTy, writeMap] at hb ⊢
        obtain ⟨cs, h1, h2⟩ := Out.bind_eq_ok.mp hb
        cases h2
        obtain ⟨c, d, h3, h4, rfl⟩ := writePairs_append h1
        obtain ⟨e, h5, h6⟩ := Out.bind_eq_ok.mp h4
        obtain ⟨e', h5', h6'⟩ := Out.bind_eq_ok.mp h6
        obtain ⟨f, h7, h8⟩ := Out.bind_eq_ok.mp h6'
        cases h8
        obtain ⟨g, h9, h10⟩ := Out.bind_eq_ok.mp h7
        obtain ⟨g', h9', h10'⟩ := Out.bind_eq_ok.mp h10
        obtain ⟨k, h11, h12⟩ := Out.bind_eq_ok.mp h10'
        cases h12
        rw [writePairs_join h3 (show writePairs (write E n) _ _ (y :: x :: b) = .ok ((g ++ g') ++ ((e ++ e') ++ k)) by
          simp [writePairs, h5, h5', h9, h9', h11, pure])]
        refine ⟨_, rfl, ?_⟩
        rw [(swap_perm a x y b).length_eq]
        refine List.Perm.append_left _ (List.Perm.append_left _ ?_)
        rw [← List.append_assoc (e ++ e'), ← List.append_assoc (g ++ g')]
        exact List.Perm.append_right _ List.perm_append_comm
  | inUnion tag h ih =>
    cases n with
    | zero => cases hb
    | succ n =>
      simp only [write] at hb ⊢
      split at hb
      · cases hb
      · next t ht =>
        cases t <;> try (cases hb; done)
        cases tag <;>
        · simp only [writeTy, writeUnion] at hb ⊢
          obtain ⟨i, h1, h2⟩ := Out.bind_eq_ok.mp hb
          obtain ⟨c, h3, h4⟩ := Out.bind_eq_ok.mp h2
          cases h4
          obtain ⟨d, h5, h6⟩ := ih h3
          rw [h1]
          exact ⟨_, by simp [h5, pure], h6.cons _⟩
  | inStruct a m b h ih =>
    cases n with
    | zero => cases hb
    | succ n =>
      simp only [write] at hb ⊢
      split at hb
      · cases hb
      · next t ht =>
        cases t <;> try (cases hb; done)
        simp only [writeTy, writeStruct] at hb ⊢
        obtain ⟨u, h1, h2⟩ := Out.bind_eq_ok.mp hb
        obtain ⟨cs, h3, h4⟩ := writeFields_replace h2 fun i c hc => ih hc
        refine ⟨cs, ?_, h4⟩
        simp only [List.length_append, List.length_cons] at h1 ⊢
        simp [h1, h3]
  | inList a b h ih =>
    cases n with
    | zero => cases hb
    | succ n =>
      simp only [write] at hb ⊢
      split at hb
      · cases hb
      · next t ht =>
        cases t <;> try (cases hb; done)
        simp only [writeTy, writeList] at hb ⊢
        obtain ⟨u, h1, h2⟩ := Out.bind_eq_ok.mp hb
        cases h2
        obtain ⟨cs, h3, h4⟩ := writeItems_replace h1 fun i c hc => ih hc
        refine ⟨_, by rw [h3]; rfl, ?_⟩
        simp only [List.length_append, List.length_cons]
        exact List.Perm.append_left _ h4
  | inTuple a b h ih =>
    cases n with
    | zero => cases hb
    | succ n =>
      simp only [write] at hb ⊢
      split at hb
      · cases hb
      · next t ht =>
        cases t <;> try (cases hb; done)
        simp only [writeTy, writeTuple] at hb ⊢
        obtain ⟨u, h1, h2⟩ := Out.bind_eq_ok.mp hb
        obtain ⟨cs, h3, h4⟩ := writeZip_replace h2 fun i c hc => ih hc
        refine ⟨cs, ?_, h4⟩
        simp only [List.length_append, List.length_cons] at h1 ⊢
        simp [h1, h3]
  | inValue a k b h ih =>
    cases n with
    | zero => cases hb
    | succ n =>
      simp only [write] at hb ⊢
      split at hb
      · cases hb
      · next t ht =>
        cases t <;> try (cases hb; done)
        simp only [writeTy, writeMap] at hb ⊢
        obtain ⟨u, h1, h2⟩ := Out.bind_eq_ok.mp hb
        cases h2
        obtain ⟨c, d, h3, h4, rfl⟩ := writePairs_append h1
        obtain ⟨e, h5, h6⟩ := Out.bind_eq_ok.mp h4
        obtain ⟨e', h5', h6'⟩ := Out.bind_eq_ok.mp h6
        obtain ⟨f, h7, h8⟩ := Out.bind_eq_ok.mp h6'
        cases h8
        obtain ⟨g, h9, h10⟩ := ih h5'
        refine ⟨_, by rw [writePairs_join h3 (show writePairs (write E n) _ _ ((k, _) :: b) = .ok (e ++ g ++ f) by
          simp [writePairs, h5, h9, h7, pure])]; rfl, ?_⟩
        simp only [List.length_append, List.length_cons]
        exact List.Perm.append_left _ (List.Perm.append_left _ (List.Perm.append_right _ (List.Perm.append_left _ h10)))
  | inItem a b hdeep h ih =>
    cases n with
    | zero => cases hb
    | succ n =>
      simp only [write] at hb ⊢
      split at hb
      · cases hb
      · next t ht =>
        cases t <;> try (cases hb; done)
        simp only [writeTy, writeSet] at hb ⊢
        obtain ⟨u, h1, h2⟩ := Out.bind_eq_ok.mp hb
        cases h2
        obtain ⟨cs, h3, h4⟩ := writeItems_replace h1 fun i c hc => ih hc
        refine ⟨_, by rw [h3]; rfl, ?_⟩
        simp only [List.length_append, List.length_cons]
        exact List.Perm.append_left _ h4
  | inKey a k b hdeep h ih =>
    cases n with
    | zero => cases hb
    | succ n =>
      simp only [write] at hb ⊢
      split at hb
      · cases hb
      · next t ht =>
        cases t <;> try (cases hb; done)
        simp only [writeTy, writeMap] at hb ⊢
        obtain ⟨u, h1, h2⟩ := Out.bind_eq_ok.mp hb
        cases h2
        obtain ⟨c, d, h3, h4, rfl⟩ := writePairs_append h1
        obtain ⟨e, h5, h6⟩ := Out.bind_eq_ok.mp h4
        obtain ⟨e', h5', h6'⟩ := Out.bind_eq_ok.mp h6
        obtain ⟨f, h7, h8⟩ := Out.bind_eq_ok.mp h6'
        cases h8
        obtain ⟨g, h9, h10⟩ := ih h5
        refine ⟨_, by rw [writePairs_join h3 (show writePairs (write E n) _ _ ((_, k) :: b) = .ok (g ++ e' ++ f) by
          simp [writePairs, h5', h9, h7, pure])]; rfl, ?_⟩
        simp only [List.length_append, List.length_cons]
        exact List.Perm.append_left _ (List.Perm.append_left _ (List.Perm.append_right _ (List.Perm.append_right _ h10)))

/-! ## Checking -/

theorem keyed_swap {deep : Bool} {v w : Val} (h : v.Swap deep w) (hv : v.Keyed) : w.Keyed := by
  induction h with
  | set a x y b => cases hv with | set h => exact .set (mem_swap h)
  | map a x y b => cases hv with | map h h' => exact .map (mem_swap h) (mem_swap h')
  | inUnion t h ih => cases hv with | union h => exact .union (ih h)
  | inStruct a n b h ih =>
    cases hv with
    | struct h h' => exact .struct (by simpa using h) (mem_replace (P := fun f : Name × Val => Val.Keyed f.2) h' ih)
  | inList a b h ih => cases hv with | list h => exact .list (mem_replace h ih)
  | inTuple a b h ih => cases hv with | tuple h => exact .tuple (mem_replace h ih)
  | inValue a k b h ih =>
    cases hv with
    | map h h' =>
      exact .map (mem_replace (P := fun p : Val × Val => Val.Keyed p.1) h id) (mem_replace (P := fun p : Val × Val => Val.Keyed p.2) h' ih)
  | inItem a b _ h ih => cases hv with | set h => exact .set (mem_replace h ih)
  | inKey a k b _ h ih =>
    cases hv with
    | map h h' =>
      exact .map (mem_replace (P := fun p : Val × Val => Val.Keyed p.1) h ih) (mem_replace (P := fun p : Val × Val => Val.Keyed p.2) h' id)

section
variable {rec : Val → SemId → Out TErr Val}

theorem newtype_tuple {ids : List SemId} {v w : Val} (h : typifyTuple.newtype rec ids v = .ok w) : ∃ u, w = .tuple [u] := by
  unfold typifyTuple.newtype at h
  split at h
  · obtain ⟨x, h1, h2⟩ := Out.bind_eq_ok.mp h
    cases h2
    exact ⟨x, rfl⟩
  · cases h

theorem some_union {vs : List (Variant × SemId)} {v w : Val} (h : typifySome rec vs v = .ok w) : ∃ u, w = .some u := by
  obtain ⟨x, h1, h2⟩ := Out.bind_eq_ok.mp h
  obtain ⟨y, h3, h4⟩ := Out.bind_eq_ok.mp h2
  cases h4
  exact ⟨y, rfl⟩

theorem kept_set {l : List Val} {t : Ty SemId} (h : typifyTy rec E (.set l) t = .ok (.set l)) : ∃ i sz, t = .set i sz := by
  cases t with
  | set i sz => exact ⟨i, sz, rfl⟩
  | union vs =>
    simp only [typifyTy, typifyUnion] at h
    split at h
    · obtain ⟨u, hu⟩ := some_union h; cases hu
    · cases h
  | tuple ids => obtain ⟨u, hu⟩ := newtype_tuple (rec := rec) (ids := ids) h; cases hu
  | _ => cases h

theorem kept_map {l : List (Val × Val)} {t : Ty SemId} (h : typifyTy rec E (.map l) t = .ok (.map l)) :
    ∃ k i sz, t = .map k i sz := by
  cases t with
  | primitive p =>
    simp only [typifyTy, typifyPrim] at h
    split at h <;> cases h
  | map k i sz => exact ⟨k, i, sz, rfl⟩
  | union vs =>
    simp only [typifyTy, typifyUnion] at h
    split at h
    · obtain ⟨u, hu⟩ := some_union h; cases hu
    · cases h
  | tuple ids => obtain ⟨u, hu⟩ := newtype_tuple (rec := rec) (ids := ids) h; cases hu
  | struct req =>
    obtain ⟨u, h1, h2⟩ := Out.bind_eq_ok.mp h
    cases h2
  | _ => cases h

theorem kept_struct {fs : List (Name × Val)} {t : Ty SemId} (h : typifyTy rec E (.struct fs) t = .ok (.struct fs)) :
    ∃ req, t = .struct req := by
  cases t with
  | primitive p =>
    simp only [typifyTy, typifyPrim] at h
    split at h <;> cases h
  | struct req => exact ⟨req, rfl⟩
  | union vs =>
    simp only [typifyTy, typifyUnion] at h
    split at h
    · obtain ⟨u, hu⟩ := some_union h; cases hu
    · cases h
  | tuple ids => obtain ⟨u, hu⟩ := newtype_tuple (rec := rec) (ids := ids) h; cases hu
  | _ => cases h

theorem kept_list {l : List Val} {t : Ty SemId} (h : typifyTy rec E (.list l) t = .ok (.list l)) :
    (∃ i sz, t = .list i sz) ∨ ∃ i len, t = .array i len := by
  cases t with
  | primitive p =>
    simp only [typifyTy, typifyPrim] at h
    split at h <;> cases h
  | list i sz => exact .inl ⟨i, sz, rfl⟩
  | array i len => exact .inr ⟨i, len, rfl⟩
  | union vs =>
    simp only [typifyTy, typifyUnion] at h
    split at h
    · obtain ⟨u, hu⟩ := some_union h; cases hu
    · cases h
  | tuple ids =>
    obtain ⟨u, h1, h2⟩ := Out.bind_eq_ok.mp h
    cases h2
  | _ => cases h

theorem kept_tuple {l : List Val} {t : Ty SemId} (h : typifyTy rec E (.tuple l) t = .ok (.tuple l)) : ∃ ids, t = .tuple ids := by
  cases t with
  | primitive p =>
    simp only [typifyTy, typifyPrim] at h
    split at h <;> cases h
  | tuple ids => exact ⟨ids, rfl⟩
  | union vs =>
    have : ∃ tg u, Val.tuple l = .union tg u := by
      simp only [typifyTy, typifyUnion] at h
      split at h
      · next he => cases he
      · next he => cases he
      · split at h
        · obtain ⟨u, h1, h2⟩ := Out.bind_eq_ok.mp h
          split at h2
          · cases h2
          · split at h2
            · obtain ⟨y, h3, h4⟩ := Out.bind_eq_ok.mp h2
              cases h4
            · cases h2
        · cases h
      · split at h
        · obtain ⟨u, hu⟩ := some_union h; cases hu
        · cases h
    obtain ⟨_, _, h⟩ := this
    cases h
  | _ => cases h

theorem kept_union {tg : Tag} {v : Val} {t : Ty SemId} (h : typifyTy rec E (.union tg v) t = .ok (.union tg v)) :
    ∃ vs, t = .union vs := by
  cases t with
  | union vs => exact ⟨vs, rfl⟩
  | tuple ids => obtain ⟨u, hu⟩ := newtype_tuple (rec := rec) (ids := ids) h; cases hu
  | _ => cases h

theorem zip_replace {ids : List SemId} {a b : List Val} {v w : Val}
    (h : typifyZip rec (a ++ v :: b) ids = .ok (a ++ v :: b)) (hr : ∀ i, rec v i = .ok v → rec w i = .ok w) :
    typifyZip rec (a ++ w :: b) ids = .ok (a ++ w :: b) := by
  induction a generalizing ids with
  | nil =>
    cases ids with
    | nil => cases h
    | cons i ids =>
      obtain ⟨x, h1, h2⟩ := Out.bind_eq_ok.mp h
      obtain ⟨y, h3, h4⟩ := Out.bind_eq_ok.mp h2
      cases h4
      simp [typifyZip, hr _ h1, h3, pure]
  | cons u a ih =>
    cases ids with
    | nil => cases h
    | cons i ids =>
      obtain ⟨x, h1, h2⟩ := Out.bind_eq_ok.mp h
      obtain ⟨y, h3, h4⟩ := Out.bind_eq_ok.mp h2
      cases h4
      simp [typifyZip, h1, ih h3, pure]

end

/-- What the check leaves as it is, it leaves as it is with items and entries exchanged. -/
theorem swap_kept {v w : Val} (h : v.Swap false w) {n : Nat} {id : SemId} (hk : v.Keyed)
    (hv : typify E n v id = .ok v) : typify E n w id = .ok w := by
  induction h generalizing n id with
  | set a x y b =>
    cases n with
    | zero => cases hv
    | succ n =>
      simp only [typify] at hv ⊢
      split at hv
      · cases hv
      · next t ht =>
        obtain ⟨i, sz, rfl⟩ := kept_set hv
        simp only [typifyTy, typifySet] at hv ⊢
        rw [(swap_perm a x y b).length_eq] at hv
        split at hv
        · cases hv
        · next hc =>
          rw [if_neg hc]
          obtain ⟨ws, h1, h2⟩ := Out.bind_eq_ok.mp hv
          cases h2
          obtain ⟨us, h3, h4⟩ := typifySetItems_each h1
          rw [List.nil_append] at h3
          subst h3
          have hd := (typifySetItems_ok (by simp) .nil h1).2.2
          have hki : ∀ v ∈ a ++ x :: y :: b, Val.Keyed v := by cases hk with | set h => exact h
          rw [typifySetItems_id (mem_swap (all2_diag h4)) (by
            rw [List.nil_append]
            exact distinct_swap (P := Val.Keyed) (fun _ _ => eqv_symm) (swap_perm a x y b) hki hd)]
          rfl
  | map a x y b =>
    cases n with
    | zero => cases hv
    | succ n =>
      simp only [typify] at hv ⊢
      split at hv
      · cases hv
      · next t ht =>
        obtain ⟨k, i, sz, rfl⟩ := kept_map hv
        simp only [typifyTy, typifyMap] at hv ⊢
        rw [(swap_perm a x y b).length_eq] at hv
        split at hv
        · cases hv
        · next hc =>
          rw [if_neg hc]
          obtain ⟨ws, h1, h2⟩ := Out.bind_eq_ok.mp hv
          cases h2
          obtain ⟨us, h3, h4⟩ := typifyMapItems_each h1
          rw [List.nil_append] at h3
          subst h3
          have hd := (typifyMapItems_ok (by simp) .nil h1).2.2
          have hki : ∀ v ∈ (a ++ x :: y :: b).map Prod.fst, Val.Keyed v := by
            cases hk with
            | map h h' =>
              intro v hv
              obtain ⟨p, hp, rfl⟩ := List.mem_map.mp hv
              exact h p hp
          rw [typifyMapItems_id (mem_swap (all2_diag h4)) (by
            rw [List.nil_append]
            exact distinct_swap (P := Val.Keyed) (fun _ _ => eqv_symm) ((swap_perm a x y b).map Prod.fst) hki hd)]
          rfl
  | @inUnion x y tg h ih =>
    cases n with
    | zero => cases hv
    | succ n =>
      have hk : Val.Keyed x := by cases hk with | union h => exact h
      simp only [typify] at hv ⊢
      split at hv
      · cases hv
      · next t ht =>
        obtain ⟨vs, rfl⟩ := kept_union hv
        simp only [typifyTy, typifyUnion] at hv ⊢
        split at hv
        · next hu =>
          obtain ⟨ws, h1, h2⟩ := Out.bind_eq_ok.mp hv
          cases h2
          rw [ih hk h1]
          rfl
        · cases hv
  | @inStruct x y a m b h ih =>
    cases n with
    | zero => cases hv
    | succ n =>
      cases hk with
      | struct hn hk =>
        simp only [typify] at hv ⊢
        split at hv
        · cases hv
        · next t ht =>
          obtain ⟨req, rfl⟩ := kept_struct hv
          simp only [typifyTy, typifyStruct] at hv ⊢
          simp only [List.length_append, List.length_cons] at hv ⊢
          split at hv
          · cases hv
          · next hc =>
            rw [if_neg hc]
            obtain ⟨ws, h1, h2⟩ := Out.bind_eq_ok.mp hv
            cases h2
            obtain ⟨us, h3, h4⟩ := typifyFields_each (by simpa using hn) h1
            rw [List.nil_append] at h3
            subst h3
            have hall : ∀ f ∈ a ++ (m, y) :: b, ∃ i, Ty.fieldTy req f.1 = some i ∧ typify E n f.2 i = .ok f.2 :=
              mem_replace (x := (m, x)) (fun f hf => (all2_diag h4 f hf).2)
                fun ⟨i, h5, h6⟩ => ⟨i, h5, ih (hk (m, x) (by simp)) h6⟩
            rw [typifyFields_id (acc := []) (by simpa using hn) hall]
            rfl
  | inList a b h ih =>
    cases n with
    | zero => cases hv
    | succ n =>
      cases hk with
      | list hk =>
        simp only [typify] at hv ⊢
        split at hv
        · cases hv
        · next t ht =>
          rcases kept_list hv with ⟨i, sz, rfl⟩ | ⟨i, len, rfl⟩
          · simp only [typifyTy, typifyList, List.length_append, List.length_cons] at hv ⊢
            split at hv
            · cases hv
            · next hc =>
              rw [if_neg hc]
              obtain ⟨ws, h1, h2⟩ := Out.bind_eq_ok.mp hv
              cases h2
              rw [outMap_id (mem_replace (all2_diag (outMap_each h1)) fun h => ih (hk _ (by simp)) h)]
              rfl
          · simp only [typifyTy, typifyArray, List.length_append, List.length_cons] at hv ⊢
            split at hv
            · cases hv
            · next hc => rw [if_neg hc]
  | inTuple a b h ih =>
    cases n with
    | zero => cases hv
    | succ n =>
      cases hk with
      | tuple hk =>
        simp only [typify] at hv ⊢
        split at hv
        · cases hv
        · next t ht =>
          obtain ⟨ids, rfl⟩ := kept_tuple hv
          simp only [typifyTy, typifyTuple, List.length_append, List.length_cons] at hv ⊢
          split at hv
          · cases hv
          · next hc =>
            rw [if_neg hc]
            obtain ⟨ws, h1, h2⟩ := Out.bind_eq_ok.mp hv
            cases h2
            rw [zip_replace h1 fun i h => ih (hk _ (by simp)) h]
            rfl
  | @inValue x y a k b h ih =>
    cases n with
    | zero => cases hv
    | succ n =>
      cases hk with
      | map hk hk' =>
        simp only [typify] at hv ⊢
        split at hv
        · cases hv
        · next t ht =>
          obtain ⟨k', i, sz, rfl⟩ := kept_map hv
          simp only [typifyTy, typifyMap, List.length_append, List.length_cons] at hv ⊢
          split at hv
          · cases hv
          · next hc =>
            rw [if_neg hc]
            obtain ⟨ws, h1, h2⟩ := Out.bind_eq_ok.mp hv
            cases h2
            obtain ⟨us, h3, h4⟩ := typifyMapItems_each h1
            rw [List.nil_append] at h3
            subst h3
            have hd := (typifyMapItems_ok (by simp) .nil h1).2.2
            have hall : ∀ p ∈ a ++ (k, y) :: b, typify E n p.1 k' = .ok p.1 ∧ typify E n p.2 i = .ok p.2 :=
              mem_replace (x := (k, x)) (all2_diag h4) fun h => ⟨h.1, ih (hk' (k, x) (by simp)) h.2⟩
            rw [typifyMapItems_id (acc := []) hall (by simpa using hd)]
            rfl
  | inItem a b hdeep => cases hdeep
  | inKey a k b hdeep => cases hdeep

end Verif
