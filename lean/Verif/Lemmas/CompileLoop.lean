import Verif.Lemmas.Compile

/-! Helper lemmas about the loops of `SymbolicLib::compile`. -/

namespace Verif

/-- Loop invariant: every name is either compiled, and then its compiled form and id are known, or
still to be done, and then its definition is untouched. -/
structure CompileInv (H : Hash) (T : OMap Name (Ty TranspileRef)) (st : CompileState) : Prop where
  sorted : st.newTypes.Sorted
  done : ∀ n u, st.newTypes.get n = some u → st.oldTypes.get n = none ∧
    st.index.get n = some (u.semIdNamed H LibRef.commit n) ∧
    ∃ t, T.get n = some t ∧ t.CompiledTo st.index.get u
  todo : ∀ n, st.newTypes.get n = none → st.oldTypes.get n = T.get n ∧ st.index.get n = none
  ranked : ∃ (rank : Name → Nat) (K : Nat),
    (∀ n u, st.newTypes.get n = some u → rank n < K) ∧
    ∀ n u t, st.newTypes.get n = some u → T.get n = some t → ∀ m, t.Mentions m → rank m < rank n

theorem CompileInv.init (H : Hash) (T : OMap Name (Ty TranspileRef)) :
    CompileInv H T ⟨T, [], []⟩ where
  sorted := List.Pairwise.nil
  done := by intro n u h; cases h
  todo := by intro n _; exact ⟨rfl, rfl⟩
  ranked := ⟨fun _ => 0, 0, (by intro n u h; cases h), (by intro n u t h; cases h)⟩

variable {H : Hash} {T : OMap Name (Ty TranspileRef)}

/-- Outcomes of one step. -/
theorem compileStep_cases (hd : ∀ n t, T.get n = some t → t.Deep) {st : CompileState}
    (hi : CompileInv H T st) (n : Name) :
    (compileStep H n st = .ok (st, false) ∧ (st.oldTypes.get n = none ∨
      ∃ t, st.oldTypes.get n = some t ∧ ∃ m, t.Mentions m ∧ st.index.get m = none)) ∨
    (∃ st', compileStep H n st = .ok (st', true) ∧ CompileInv H T st' ∧
      st.oldTypes.get n ≠ none ∧ st'.oldTypes = st.oldTypes.erase n) ∨
    (∃ t p q, T.get n = some t ∧ ¬ t.DepthLe 3 ∧
      compileStep H n st = .err (.nestedInline n p q)) := by
  unfold compileStep
  cases ho : st.oldTypes.get n with
  | none => exact Or.inl ⟨rfl, Or.inl rfl⟩
  | some t =>
    have hnone : st.newTypes.get n = none := by
      cases hn : st.newTypes.get n with
      | none => rfl
      | some u => rw [(hi.done n u hn).1] at ho; cases ho
    have hT : T.get n = some t := by rw [← (hi.todo n hnone).1, ho]
    have hdt := hd n t hT
    dsimp only
    rcases Ty.toLib_cases hdt ⟨n, st.index, []⟩ with ⟨u, h⟩ | ⟨h, m, hm, hm'⟩ | ⟨p, q, h, hq⟩
    · right; left
      have hc := ((Ty.toLib_ok hdt _ _ _).mp h).1
      rw [h]
      have hmono : ∀ m id, st.index.get m = some id →
          (st.index.insert n (u.semIdNamed H LibRef.commit n)).get m = some id := by
        intro m id hm
        rw [OMap.get_insert]
        split
        · rename_i e
          subst e
          rw [(hi.todo _ hnone).2] at hm; cases hm
        · exact hm
      refine ⟨_, rfl, ?_, by simp, rfl⟩
      refine ⟨OMap.sorted_insert hi.sorted _ _, ?_, ?_, ?_⟩
      · intro m v hv
        simp only [OMap.get_insert] at hv ⊢
        rw [OMap.get_erase]
        split at hv
        · rename_i e
          subst e
          cases hv
          refine ⟨by simp, by simp, t, hT, hc.mono ?_⟩
          intro a id ha
          exact hmono a id ha
        · rename_i e
          obtain ⟨h1, h2, t', h3, h4⟩ := hi.done m v hv
          refine ⟨?_, ?_, t', h3, h4.mono hmono⟩
          · split
            · rfl
            · exact h1
          · rw [if_neg e]; exact h2
      · intro m hm
        simp only [OMap.get_insert] at hm ⊢
        rw [OMap.get_erase]
        split at hm
        · cases hm
        · rename_i e
          rw [if_neg e, if_neg (by intro h; exact e h)]
          exact hi.todo m hm
      · obtain ⟨rank, K, h1, h2⟩ := hi.ranked
        refine ⟨fun x => if x = n then K else rank x, K + 1, ?_, ?_⟩
        · intro m v hv
          simp only [OMap.get_insert] at hv
          dsimp only
          split at hv
          · rename_i e; subst e; simp
          · rename_i e
            have := h1 m v hv
            rw [if_neg (by intro h; exact e h.symm)]
            omega
        · intro m v t' hv ht' a ha
          simp only [OMap.get_insert] at hv
          have hdone : ∀ a, (st.index.get a).isSome → a ≠ n ∧ rank a < K := by
            intro a hs
            cases hna : st.newTypes.get a with
            | none => rw [(hi.todo a hna).2] at hs; cases hs
            | some w =>
              refine ⟨?_, h1 a w hna⟩
              intro e; subst e; rw [hnone] at hna; cases hna
          dsimp only
          split at hv
          · rename_i e
            subst e
            rw [hT] at ht'
            cases ht'
            obtain ⟨h3, h4⟩ := hdone a (hc.props.2 a ha)
            rw [if_neg h3, if_pos rfl]
            exact h4
          · rename_i e
            obtain ⟨-, -, t'', h3, h4⟩ := hi.done m v hv
            rw [h3] at ht'
            cases ht'
            obtain ⟨h5, h6⟩ := hdone a (h4.props.2 a ha)
            rw [if_neg h5, if_neg (by intro h; exact e h.symm)]
            exact h2 m v t' hv h3 a ha
    · left
      rw [h]
      exact ⟨rfl, Or.inr ⟨t, rfl, m, hm, hm'⟩⟩
    · right; right
      rw [h]
      exact ⟨t, p, q, hT, hq, rfl⟩

theorem OMap.erase_length {K V : Type} [DecidableEq K] {m : OMap K V} {k : K} (h : m.get k ≠ none) :
    (OMap.erase m k).length < m.length := by
  induction m with
  | nil => exact absurd rfl h
  | cons p m ih =>
    simp only [OMap.erase]
    by_cases e : p.1 = k
    · simp only [e, ne_eq, not_true_eq_false, decide_false, Bool.false_eq_true, not_false_eq_true,
        List.filter_cons_of_neg, List.length_cons]
      have := List.length_filter_le (fun p : K × V => decide (p.1 ≠ k)) m
      simp only [ne_eq] at this
      omega
    · have h' : OMap.get m k ≠ none := by
        intro hh
        apply h
        simp [OMap.get, e, hh]
      have := ih h'
      simp only [OMap.erase] at this
      simp [e]
      simpa using this

/-- Outcomes of one pass. -/
theorem compilePass_cases (hd : ∀ n t, T.get n = some t → t.Deep) (names : List Name)
    {st : CompileState} (hi : CompileInv H T st) :
    (compilePass H names st = .ok (st, false) ∧ ∀ n ∈ names, st.oldTypes.get n = none ∨
      ∃ t, st.oldTypes.get n = some t ∧ ∃ m, t.Mentions m ∧ st.index.get m = none) ∨
    (∃ st', compilePass H names st = .ok (st', true) ∧ CompileInv H T st' ∧
      st'.oldTypes.length < st.oldTypes.length) ∨
    (∃ n t p q, T.get n = some t ∧ ¬ t.DepthLe 3 ∧
      compilePass H names st = .err (.nestedInline n p q)) := by
  induction names generalizing st with
  | nil => exact Or.inl ⟨rfl, by simp⟩
  | cons n names ih =>
    simp only [compilePass]
    rcases compileStep_cases hd hi n with ⟨h, hn⟩ | ⟨st1, h, hi1, hn, ho⟩ | ⟨t, p, q, hT, hq, h⟩
    · rw [h]
      simp only [Out.bind_ok, Bool.false_or]
      rcases ih hi with ⟨h2, hall⟩ | ⟨st', h2, h3⟩ | ⟨m, t, p, q, hT, hq, h2⟩
      · left
        rw [h2]
        refine ⟨rfl, ?_⟩
        intro m hm
        rcases List.mem_cons.mp hm with rfl | hm
        · exact hn
        · exact hall m hm
      · right; left; rw [h2]; exact ⟨st', rfl, h3⟩
      · right; right; rw [h2]; exact ⟨m, t, p, q, hT, hq, rfl⟩
    · rw [h]
      simp only [Out.bind_ok, Bool.true_or]
      have hlt : st1.oldTypes.length < st.oldTypes.length := by
        rw [ho]; exact OMap.erase_length hn
      rcases ih hi1 with ⟨h2, -⟩ | ⟨st', h2, h3, h4⟩ | ⟨m, t, p, q, hT, hq, h2⟩
      · right; left; rw [h2]; exact ⟨st1, rfl, hi1, hlt⟩
      · right; left; rw [h2]; exact ⟨st', rfl, h3, by omega⟩
      · right; right; rw [h2]; exact ⟨m, t, p, q, hT, hq, rfl⟩
    · right; right
      rw [h]
      exact ⟨n, t, p, q, hT, hq, rfl⟩

theorem Out.debugAssert_ok {ε : Type} (debug : Bool) :
    (Out.debugAssert debug true : Out ε Unit) = .ok () := by
  simp [Out.debugAssert]

/-- Outcomes of the loop: success; an error about too deep nesting; or a state in which some types
are left and each of them mentions a name that is not compiled: a panic with debug assertions, no
termination without. -/
theorem compileLoop_cases (hd : ∀ n t, T.get n = some t → t.Deep) (debug : Bool) (fuel : Nat)
    {st : CompileState} (hi : CompileInv H T st) :
    (∃ st', compileLoop H debug T.keys fuel st = .ok st' ∧ CompileInv H T st' ∧
      st'.oldTypes = []) ∨
    (∃ n t p q, T.get n = some t ∧ ¬ t.DepthLe 3 ∧
      compileLoop H debug T.keys fuel st = .err (.nestedInline n p q)) ∨
    (∃ st', CompileInv H T st' ∧ st'.oldTypes ≠ [] ∧
      (∀ n t, st'.oldTypes.get n = some t → ∃ m, t.Mentions m ∧ st'.index.get m = none) ∧
      ((debug = true ∧ compileLoop H debug T.keys fuel st = .panic) ∨
       (debug = false ∧ compileLoop H debug T.keys fuel st = .diverge))) ∨
    (fuel < st.oldTypes.length ∧ compileLoop H debug T.keys fuel st = .diverge) := by
  induction fuel generalizing st with
  | zero =>
    unfold compileLoop
    cases ho : st.oldTypes with
    | nil => exact Or.inl ⟨st, by simp, hi, ho⟩
    | cons a l => exact Or.inr (Or.inr (Or.inr ⟨by simp, by simp⟩))
  | succ fuel ih =>
    have hkeys : ∀ n t, st.oldTypes.get n = some t → n ∈ T.keys := by
      intro n t h
      have : T.get n = some t := by
        cases hn : st.newTypes.get n with
        | none => rw [← (hi.todo n hn).1, h]
        | some u => rw [(hi.done n u hn).1] at h; cases h
      exact OMap.get_isSome_iff.mp (by rw [this]; rfl)
    by_cases ho : st.oldTypes = []
    · unfold compileLoop
      exact Or.inl ⟨st, by simp [ho], hi, ho⟩
    · have hne : st.oldTypes.isEmpty = false := by
        cases h : st.oldTypes with
        | nil => exact absurd h ho
        | cons => rfl
      rcases compilePass_cases hd T.keys hi with ⟨h, hall⟩ | ⟨st1, h, hi1, hlt⟩ |
        ⟨n, t, p, q, hT, hq, h⟩
      · right; right
        have hstuck : ∀ n t, st.oldTypes.get n = some t →
            ∃ m, t.Mentions m ∧ st.index.get m = none := by
          intro n t hn
          rcases hall n (hkeys n t hn) with h' | ⟨t', h', hm⟩
          · rw [h'] at hn; cases hn
          · rw [h'] at hn; cases hn; exact hm
        cases debug with
        | true =>
          left
          refine ⟨st, hi, ho, hstuck, Or.inl ⟨rfl, ?_⟩⟩
          unfold compileLoop
          simp [hne, h, Out.debugAssert]
        | false =>
          left
          refine ⟨st, hi, ho, hstuck, Or.inr ⟨rfl, ?_⟩⟩
          have hall' : ∀ fuel, compileLoop H false T.keys fuel st = .diverge := by
            intro fuel
            induction fuel with
            | zero => unfold compileLoop; simp [hne]
            | succ fuel ih' => unfold compileLoop; simp [hne, h, Out.debugAssert, ih']
          exact hall' _
      · have he : compileLoop H debug T.keys (fuel + 1) st = compileLoop H debug T.keys fuel st1 := by
          rw [compileLoop]
          simp [hne, h, Out.debugAssert_ok]
        rw [he]
        rcases ih hi1 with h2 | h2 | h2 | ⟨h2, h3⟩
        · exact Or.inl h2
        · exact Or.inr (Or.inl h2)
        · exact Or.inr (Or.inr (Or.inl h2))
        · exact Or.inr (Or.inr (Or.inr ⟨by omega, h3⟩))
      · right; left
        refine ⟨n, t, p, q, hT, hq, ?_⟩
        rw [compileLoop]
        simp [hne, h]

end Verif

namespace Verif
variable {H : Hash}

theorem OMap.keys_eq_of_get {V W : Type} {m : OMap Name V} {m' : OMap Name W} (hm : m.Sorted)
    (hm' : m'.Sorted) (h : ∀ k, (m.get k).isSome ↔ (m'.get k).isSome) : m.keys = m'.keys := by
  have key : ∀ {V : Type} {m : OMap Name V}, m.Sorted →
      (OMap.Sorted (m.map fun p => (p.1, ())) ∧
       ∀ k, OMap.get (m.map fun p => (p.1, ())) k = (m.get k).map fun _ => ()) := by
    intro V m hm
    constructor
    · exact List.pairwise_map.mpr hm
    · intro k
      clear hm
      induction m with
      | nil => rfl
      | cons p m ih =>
        obtain ⟨a, v⟩ := p
        simp only [List.map_cons, OMap.get]
        split
        · rfl
        · exact ih
  have e : m.map (fun p => (p.1, ())) = m'.map (fun p => (p.1, ())) := by
    apply OMap.ext (key hm).1 (key hm').1
    intro k
    rw [(key hm).2, (key hm').2]
    have := h k
    cases h1 : m.get k <;> cases h2 : m'.get k <;> simp_all
  have := congrArg (List.map Prod.fst) e
  simpa [OMap.keys, List.map_map, Function.comp_def] using this

/-- What a finished loop gives. -/
theorem CompileInv.finished {T : OMap Name (Ty TranspileRef)} (hT : T.Sorted) {st : CompileState}
    (hi : CompileInv H T st) (ho : st.oldTypes = []) :
    st.newTypes.Sorted ∧ st.newTypes.keys = T.keys ∧
    (∀ n, st.index.get n = (st.newTypes.get n).map fun u => u.semIdNamed H LibRef.commit n) ∧
    (∀ n t, T.get n = some t → ∃ u, st.newTypes.get n = some u ∧ t.CompiledTo st.index.get u) ∧
    (∃ rank : Name → Nat, ∀ n t, T.get n = some t → ∀ m, t.Mentions m → rank m < rank n) := by
  have hall : ∀ n t, T.get n = some t → ∃ u, st.newTypes.get n = some u := by
    intro n t h
    cases hn : st.newTypes.get n with
    | none =>
      have := (hi.todo n hn).1
      rw [ho, h] at this
      cases this
    | some u => exact ⟨u, rfl⟩
  refine ⟨hi.sorted, ?_, ?_, ?_, ?_⟩
  · apply OMap.keys_eq_of_get hi.sorted hT
    intro k
    constructor
    · intro h
      obtain ⟨u, hu⟩ := Option.isSome_iff_exists.mp h
      obtain ⟨-, -, t, h, -⟩ := hi.done k u hu
      rw [h]; rfl
    · intro h
      obtain ⟨t, ht⟩ := Option.isSome_iff_exists.mp h
      obtain ⟨u, hu⟩ := hall k t ht
      rw [hu]; rfl
  · intro n
    cases hn : st.newTypes.get n with
    | none => rw [(hi.todo n hn).2]; rfl
    | some u => rw [(hi.done n u hn).2.1]; rfl
  · intro n t h
    obtain ⟨u, hu⟩ := hall n t h
    obtain ⟨-, -, t', h1, h2⟩ := hi.done n u hu
    rw [h] at h1
    cases h1
    exact ⟨u, hu, h2⟩
  · obtain ⟨rank, K, -, h2⟩ := hi.ranked
    refine ⟨rank, fun n t h m hm => ?_⟩
    obtain ⟨u, hu⟩ := hall n t h
    exact h2 n u t hu h m hm

/-- With all names defined and no cycles the loop cannot get stuck. -/
theorem CompileInv.not_stuck {T : OMap Name (Ty TranspileRef)} {st : CompileState}
    (hi : CompileInv H T st)
    (hdef : ∀ n t, T.get n = some t → ∀ m, t.Mentions m → ∃ t', T.get m = some t')
    {rank : Name → Nat} (hr : ∀ n t, T.get n = some t → ∀ m, t.Mentions m → rank m < rank n)
    (hne : st.oldTypes ≠ [])
    (hs : ∀ n t, st.oldTypes.get n = some t → ∃ m, t.Mentions m ∧ st.index.get m = none) :
    False := by
  have hno : ∀ k n, rank n = k → st.oldTypes.get n = none := by
    intro k
    induction k using Nat.strongRecOn with
    | ind k ih =>
      intro n hn
      cases ho : st.oldTypes.get n with
      | none => rfl
      | some t =>
        exfalso
        have hT : T.get n = some t := by
          cases hnew : st.newTypes.get n with
          | none => rw [← (hi.todo n hnew).1, ho]
          | some u => rw [(hi.done n u hnew).1] at ho; cases ho
        obtain ⟨m, hm, hidx⟩ := hs n t ho
        obtain ⟨t', ht'⟩ := hdef n t hT m hm
        have hnew : st.newTypes.get m = none := by
          cases h : st.newTypes.get m with
          | none => rfl
          | some u => rw [(hi.done m u h).2.1] at hidx; cases hidx
        have h1 := ih (rank m) (by have := hr n t hT m hm; omega) m rfl
        rw [(hi.todo m hnew).1, ht'] at h1
        cases h1
  cases ho : st.oldTypes with
  | nil => exact hne ho
  | cons p l =>
    have := hno (rank p.1) p.1 rfl
    rw [ho] at this
    obtain ⟨k, v⟩ := p
    simp [OMap.get] at this

end Verif
