import Verif.Spec.TyCodec
import Verif.Lemmas.Basic

/-!
# Readers of definitions look only at what they consume and always return
-/

namespace Verif
variable {α β : Type}

namespace PrefixOnly

theorem pure (a : α) : PrefixOnly fun bs => .ok (a, bs) := by
  intro bs v rest h
  cases h
  refine ⟨[], rfl, fun _ => rfl, fun p q h hq => ?_⟩
  exact absurd (List.append_eq_nil_iff.mp h.symm).2 hq

theorem fail {f : Bytes → Out CErr (α × Bytes)} (h : ∀ bs r, f bs ≠ .ok r) : PrefixOnly f :=
  fun _ _ _ hf => absurd hf (h _ _)

theorem bind {f : Bytes → Out CErr (α × Bytes)} {g : α × Bytes → Out CErr (β × Bytes)}
    (hf : PrefixOnly f) (hg : ∀ a, PrefixOnly fun bs => g (a, bs)) :
    PrefixOnly fun bs => f bs >>= g := by
  intro bs v rest h
  obtain ⟨⟨a, bs'⟩, h1, h2⟩ := Out.bind_eq_ok.mp h
  obtain ⟨c, rfl, hc, hp⟩ := hf bs a bs' h1
  obtain ⟨d, rfl, hd, hq⟩ := hg a bs' v rest h2
  refine ⟨c ++ d, by simp, fun ext => ?_, fun p q hpq hne => ?_⟩
  · dsimp only
    rw [List.append_assoc, hc]
    exact hd ext
  · rcases List.append_eq_append_iff.mp hpq with ⟨x, rfl, hx⟩ | ⟨x, hx, rfl⟩
    · dsimp only
      rw [hc]
      exact hq x q hx hne
    · by_cases hxe : x = []
      · subst hxe
        simp only [List.append_nil] at hx
        subst hx
        dsimp only
        have := hc []
        rw [List.append_nil] at this
        rw [this]
        refine hq [] d rfl ?_
        simpa using hne
      · dsimp only
        rw [hp p x hx hxe]
        rfl

/-- A step that does not read. -/
theorem guard {γ : Type} (x : Out CErr γ) {g : γ → Bytes → Out CErr (β × Bytes)}
    (hg : ∀ a, PrefixOnly (g a)) : PrefixOnly fun bs => x >>= fun a => g a bs := by
  cases x with
  | ok a => exact hg a
  | err e => exact fail fun _ _ => by simp
  | panic => exact fail fun _ _ => by simp
  | diverge => exact fail fun _ _ => by simp

end PrefixOnly

/-- Follow the binds of a reader, closing each step with a known lemma. -/
macro "follow_prefix" "[" ts:term,* "]" : tactic => do
  let ts := ts.getElems
  `(tactic| repeat' first
    $[| exact $ts]*
    | (refine PrefixOnly.bind ?_ fun _ => ?_ <;> try dsimp only)
    | exact PrefixOnly.pure _)

theorem decRaw_prefix (n : Nat) : PrefixOnly (decRaw n) := by
  intro bs v rest h
  unfold decRaw at h
  split at h
  · rename_i hl
    cases h
    refine ⟨bs.take n, by simp, fun ext => ?_, fun p q hpq hne => ?_⟩
    · have : (bs.take n).length = n := by simp; omega
      unfold decRaw
      rw [if_pos (by simp; omega)]
      congr 2
      · rw [List.take_append_of_le_length (by omega), List.take_of_length_le (by omega)]
      · rw [List.drop_append_of_le_length (by omega), List.drop_of_length_le (by omega)]
        rfl
    · have h2 := congrArg List.length hpq
      have h3 : 0 < q.length := List.length_pos_iff.mpr hne
      simp only [List.length_take, List.length_append] at h2
      unfold decRaw
      rw [if_neg (by omega)]
  · cases h

theorem decNat_prefix (n : Nat) : PrefixOnly (decNat n) := by
  unfold decNat
  follow_prefix [decRaw_prefix n]

theorem decByte_prefix : PrefixOnly decByte := by
  intro bs v rest h
  cases bs with
  | nil => cases h
  | cons b bs =>
    cases h
    refine ⟨[v], rfl, fun _ => rfl, fun p q hpq hne => ?_⟩
    cases p with
    | nil => rfl
    | cons x p =>
      simp only [List.cons_append, List.cons.injEq] at hpq
      exact absurd (List.append_eq_nil_iff.mp hpq.2.symm).2 hne

theorem decId_prefix : PrefixOnly decId := by
  intro bs v rest h
  unfold decId at h
  split at h
  · rename_i hl
    cases h
    refine ⟨bs.take 32, by simp, fun ext => ?_, fun p q hpq hne => ?_⟩
    · have : (bs.take 32).length = 32 := by simp; omega
      unfold decId
      rw [dif_pos (by simp; omega)]
      congr 2
      · apply Id32.ext
        dsimp only
        rw [List.take_append_of_le_length (by omega), List.take_of_length_le (by omega)]
      · rw [List.drop_append_of_le_length (by omega), List.drop_of_length_le (by omega)]
        rfl
    · have h2 := congrArg List.length hpq
      have h3 : 0 < q.length := List.length_pos_iff.mpr hne
      simp only [List.length_take, List.length_append] at h2
      unfold decId
      rw [dif_neg (by omega)]
  · cases h

theorem decName_prefix : PrefixOnly decName := by
  unfold decName
  refine (decNat_prefix 1).bind fun len => (decRaw_prefix len).bind fun s => ?_
  exact PrefixOnly.guard (g := fun n bs => .ok (n, bs)) _ fun n => PrefixOnly.pure n

theorem decSizing_prefix : PrefixOnly decSizing := by
  unfold decSizing
  follow_prefix [decNat_prefix 8]

theorem decVariant_prefix : PrefixOnly decVariant := by
  unfold decVariant
  follow_prefix [decName_prefix,
    decByte_prefix]

theorem decPair_prefix {f : Bytes → Out CErr (α × Bytes)} {g : Bytes → Out CErr (β × Bytes)}
    (hf : PrefixOnly f) (hg : PrefixOnly g) : PrefixOnly (decPair f g) := by
  unfold decPair
  follow_prefix [hf,
    hg]

theorem decN_prefix {f : Bytes → Out CErr (α × Bytes)} (hf : PrefixOnly f) (n : Nat) :
    PrefixOnly (decN f n) := by
  induction n with
  | zero => exact PrefixOnly.pure _
  | succ n ih => exact hf.bind fun _ => ih.bind fun _ => PrefixOnly.pure _

theorem decVec_prefix {f : Bytes → Out CErr (α × Bytes)} (hf : PrefixOnly f) (w lo : Nat) :
    PrefixOnly (decVec w lo f) := by
  refine (decNat_prefix w).bind fun n => (decN_prefix hf n).bind fun l => ?_
  exact PrefixOnly.guard (g := fun l bs => .ok (l, bs)) _ fun n => PrefixOnly.pure n

theorem decOrd_prefix {f : Bytes → Out CErr (α × Bytes)} (hf : PrefixOnly f)
    (cmp : α → α → Ordering) (n : Nat) (acc : List α) : PrefixOnly (decOrd cmp f n acc) := by
  induction n generalizing acc with
  | zero => exact PrefixOnly.pure _
  | succ n ih =>
    refine hf.bind fun x => ?_
    dsimp only
    by_cases h : lastGt cmp acc x = true
    · simp only [h, if_true]
      exact PrefixOnly.fail fun _ _ => by simp
    · simp only [h]
      match cmpInsert cmp acc x with
      | none => exact PrefixOnly.fail fun _ _ => by simp
      | some acc' => exact ih acc'

theorem decSet_prefix {f : Bytes → Out CErr (α × Bytes)} (hf : PrefixOnly f) (w lo : Nat)
    (cmp : α → α → Ordering) : PrefixOnly (decSet w lo cmp f) := by
  refine (decNat_prefix w).bind fun n => (decOrd_prefix hf cmp n []).bind fun l => ?_
  exact PrefixOnly.guard (g := fun l bs => .ok (l, bs)) _ fun n => PrefixOnly.pure n

theorem decUnion_prefix {f : Bytes → Out CErr (α × Bytes)} (hf : PrefixOnly f) :
    PrefixOnly (decUnion f) := by
  refine (decSet_prefix (decPair_prefix decByte_prefix (decPair_prefix decName_prefix hf)) 1 0
    entryCmp).bind fun m => ?_
  exact PrefixOnly.guard (g := fun l bs => .ok (l, bs)) _ fun n => PrefixOnly.pure n

theorem decTy_prefix {f : Bytes → Out CErr (α × Bytes)} (hf : PrefixOnly f) :
    PrefixOnly (decTy f) := by
  refine decByte_prefix.bind fun tag => ?_
  dsimp only
  split
  · follow_prefix [decByte_prefix]
  · exact PrefixOnly.pure _
  · follow_prefix [decSet_prefix decVariant_prefix _ _ _]
  · follow_prefix [decUnion_prefix hf]
  · follow_prefix [decVec_prefix hf _ _]
  · follow_prefix [decVec_prefix (decPair_prefix decName_prefix hf) _ _]
  · follow_prefix [hf, decNat_prefix 2]
  · follow_prefix [hf, decSizing_prefix]
  · follow_prefix [hf, decSizing_prefix]
  · follow_prefix [hf, decSizing_prefix]
  · exact PrefixOnly.fail fun _ _ => by simp

theorem decExtern_prefix : PrefixOnly decExtern := by
  unfold decExtern
  follow_prefix [decId_prefix]

theorem decRef2_prefix : PrefixOnly decRef2 := by
  refine decByte_prefix.bind fun tag => ?_
  dsimp only
  split
  · follow_prefix [decId_prefix]
  · follow_prefix [decExtern_prefix]
  · exact PrefixOnly.fail fun _ _ => by simp

theorem decRef1_prefix : PrefixOnly decRef1 := by
  refine decByte_prefix.bind fun tag => ?_
  dsimp only
  split
  · follow_prefix [decTy_prefix decRef2_prefix]
  · follow_prefix [decId_prefix]
  · follow_prefix [decExtern_prefix]
  · exact PrefixOnly.fail fun _ _ => by simp

theorem decRef0_prefix : PrefixOnly decRef0 := by
  refine decByte_prefix.bind fun tag => ?_
  dsimp only
  split
  · follow_prefix [decTy_prefix decRef1_prefix]
  · follow_prefix [decId_prefix]
  · follow_prefix [decExtern_prefix]
  · exact PrefixOnly.fail fun _ _ => by simp

theorem decLibRef_prefix : PrefixOnly decLibRef := by
  refine decByte_prefix.bind fun tag => ?_
  dsimp only
  split
  · follow_prefix [decTy_prefix decRef0_prefix]
  · follow_prefix [decId_prefix]
  · follow_prefix [decExtern_prefix]
  · exact PrefixOnly.fail fun _ _ => by simp

theorem decDep_prefix : PrefixOnly decDep := by
  unfold decDep
  follow_prefix [decId_prefix,
    decName_prefix]

theorem decExternTypes_prefix : PrefixOnly decExternTypes :=
  decSet_prefix (decPair_prefix decName_prefix (decSet_prefix
    (decPair_prefix decId_prefix decName_prefix) _ _ _)) _ _ _

theorem decTypeLib_prefix : PrefixOnly decTypeLib := by
  unfold decTypeLib
  follow_prefix [decName_prefix,
    decSet_prefix decDep_prefix _ _ _,
    decExternTypes_prefix,
    decSet_prefix (decPair_prefix decName_prefix (decTy_prefix decLibRef_prefix)) _ _ _]

theorem decTypeSystem_prefix : PrefixOnly decTypeSystem :=
  decSet_prefix (decPair_prefix decId_prefix (decTy_prefix decId_prefix)) _ _ _

theorem decOption_prefix {f : Bytes → Out CErr (α × Bytes)} (hf : PrefixOnly f) :
    PrefixOnly (decOption f) := by
  refine decByte_prefix.bind fun tag => ?_
  dsimp only
  split
  · exact PrefixOnly.pure _
  · follow_prefix [hf]
  · exact PrefixOnly.fail fun _ _ => by simp

theorem decFqn_prefix : PrefixOnly decFqn := by
  unfold decFqn
  follow_prefix [decName_prefix]

theorem decSymbol_prefix : PrefixOnly decSymbol := by
  unfold decSymbol
  follow_prefix [decId_prefix,
    decOption_prefix decFqn_prefix]

theorem decSymbols_prefix : PrefixOnly decSymbols := by
  unfold decSymbols
  follow_prefix [decSet_prefix decDep_prefix _ _ _,
    decSet_prefix decSymbol_prefix _ _ _]

theorem decSymbolicSys_prefix : PrefixOnly decSymbolicSys := by
  unfold decSymbolicSys
  follow_prefix [decSymbols_prefix,
    decTypeSystem_prefix]

theorem decSymbolRef_prefix : PrefixOnly decSymbolRef := by
  unfold decSymbolRef
  follow_prefix [decName_prefix,
    decId_prefix]

theorem decTranspileRef_prefix (fuel : Nat) : PrefixOnly (decTranspileRef fuel) := by
  induction fuel with
  | zero => exact PrefixOnly.fail fun _ _ => by simp [decTranspileRef]
  | succ fuel ih =>
    refine decByte_prefix.bind fun tag => ?_
    dsimp only
    split
    · follow_prefix [decTy_prefix ih]
    · follow_prefix [decName_prefix]
    · follow_prefix [decSymbolRef_prefix]
    · exact PrefixOnly.fail fun _ _ => by simp

theorem decSymbolicLib_prefix (fuel : Nat) : PrefixOnly (decSymbolicLib fuel) := by
  unfold decSymbolicLib
  follow_prefix [decName_prefix,
    decSet_prefix decDep_prefix _ _ _,
    decExternTypes_prefix,
    decSet_prefix (decPair_prefix decName_prefix (decTy_prefix (decTranspileRef_prefix fuel))) _ _ _]

/-! ## Returning -/

namespace ReturnsBelow
variable {k : Nat}

theorem pure (a : α) : ReturnsBelow k fun bs => .ok (a, bs) :=
  fun bs _ => .inr ⟨a, bs, rfl, Nat.le_refl _⟩

theorem fail {f : Bytes → Out CErr (α × Bytes)} (h : ∀ bs, ∃ e, f bs = .err e) :
    ReturnsBelow k f := fun bs _ => .inl (h bs)

theorem bind {f : Bytes → Out CErr (α × Bytes)} {g : α × Bytes → Out CErr (β × Bytes)}
    (hf : ReturnsBelow k f) (hg : ∀ a, ReturnsBelow k fun bs => g (a, bs)) :
    ReturnsBelow k fun bs => f bs >>= g := by
  intro bs hk
  rcases hf bs hk with ⟨e, h⟩ | ⟨a, rest, h, hl⟩
  · exact .inl ⟨e, by simp [h]⟩
  · dsimp only
    rw [h, Out.bind_ok]
    rcases hg a rest (by omega) with ⟨e, h⟩ | ⟨b, rest', h, hl'⟩
    · exact .inl ⟨e, h⟩
    · exact .inr ⟨b, rest', h, by omega⟩

theorem guard {γ : Type} {x : Out CErr γ} {g : γ → Bytes → Out CErr (β × Bytes)}
    (hx : (∃ e, x = .err e) ∨ ∃ a, x = .ok a) (hg : ∀ a, ReturnsBelow k (g a)) :
    ReturnsBelow k fun bs => x >>= fun a => g a bs := by
  rcases hx with ⟨e, rfl⟩ | ⟨a, rfl⟩
  · exact fail fun _ => ⟨e, rfl⟩
  · exact hg a

end ReturnsBelow

/-- The same for returning. -/
macro "follow_returns" "[" ts:term,* "]" : tactic => do
  let ts := ts.getElems
  `(tactic| repeat' first
    $[| exact $ts]*
    | (refine ReturnsBelow.bind ?_ fun _ => ?_ <;> try dsimp only)
    | exact ReturnsBelow.pure _)

section
variable {k : Nat}

theorem checkMin_returns (lo : Nat) (l : List α) :
    (∃ e, checkMin lo l = .err e) ∨ ∃ m, checkMin lo l = .ok m := by
  unfold checkMin
  split
  · exact .inr ⟨_, rfl⟩
  · exact .inl ⟨_, rfl⟩

theorem ofOption_returns {ε : Type} (e : ε) (o : Option α) :
    (∃ e', Out.ofOption e o = .err e') ∨ ∃ a, Out.ofOption e o = .ok a := by
  cases o with
  | none => exact .inl ⟨_, rfl⟩
  | some a => exact .inr ⟨_, rfl⟩

theorem decRaw_returns (n : Nat) : ReturnsBelow k (decRaw n) := by
  intro bs _
  unfold decRaw
  split
  · exact .inr ⟨_, _, rfl, by simp⟩
  · exact .inl ⟨_, rfl⟩

theorem decNat_returns (n : Nat) : ReturnsBelow k (decNat n) := by
  unfold decNat
  follow_returns [decRaw_returns n]

theorem decByte_returns : ReturnsBelow k decByte := by
  intro bs _
  cases bs with
  | nil => exact .inl ⟨_, rfl⟩
  | cons b bs => exact .inr ⟨_, _, rfl, by simp⟩

theorem decId_returns : ReturnsBelow k decId := by
  intro bs _
  unfold decId
  split
  · exact .inr ⟨_, _, rfl, by simp⟩
  · exact .inl ⟨_, rfl⟩

theorem decName_returns : ReturnsBelow k decName := by
  unfold decName
  refine (decNat_returns 1).bind fun len => (decRaw_returns len).bind fun s => ?_
  exact ReturnsBelow.guard (g := fun n bs => .ok (n, bs)) (ofOption_returns _ _)
    fun n => ReturnsBelow.pure n

theorem decSizing_returns : ReturnsBelow k decSizing := by
  unfold decSizing
  follow_returns [decNat_returns 8]

theorem decVariant_returns : ReturnsBelow k decVariant := by
  unfold decVariant
  follow_returns [decName_returns,
    decByte_returns]

theorem decPair_returns {f : Bytes → Out CErr (α × Bytes)} {g : Bytes → Out CErr (β × Bytes)}
    (hf : ReturnsBelow k f) (hg : ReturnsBelow k g) : ReturnsBelow k (decPair f g) := by
  unfold decPair
  follow_returns [hf,
    hg]

theorem decN_returns {f : Bytes → Out CErr (α × Bytes)} (hf : ReturnsBelow k f) (n : Nat) :
    ReturnsBelow k (decN f n) := by
  induction n with
  | zero => exact ReturnsBelow.pure _
  | succ n ih => exact hf.bind fun _ => ih.bind fun _ => ReturnsBelow.pure _

theorem decVec_returns {f : Bytes → Out CErr (α × Bytes)} (hf : ReturnsBelow k f) (w lo : Nat) :
    ReturnsBelow k (decVec w lo f) := by
  refine (decNat_returns w).bind fun n => (decN_returns hf n).bind fun l => ?_
  exact ReturnsBelow.guard (g := fun l bs => .ok (l, bs)) (checkMin_returns _ _)
    fun n => ReturnsBelow.pure n

theorem decOrd_returns {f : Bytes → Out CErr (α × Bytes)} (hf : ReturnsBelow k f)
    (cmp : α → α → Ordering) (n : Nat) (acc : List α) :
    ReturnsBelow k (decOrd cmp f n acc) := by
  induction n generalizing acc with
  | zero => exact ReturnsBelow.pure _
  | succ n ih =>
    refine hf.bind fun x => ?_
    dsimp only
    by_cases h : lastGt cmp acc x = true
    · simp only [h, if_true]
      exact ReturnsBelow.fail fun _ => ⟨_, rfl⟩
    · simp only [h]
      match cmpInsert cmp acc x with
      | none => exact ReturnsBelow.fail fun _ => ⟨_, rfl⟩
      | some acc' => exact ih acc'

theorem decSet_returns {f : Bytes → Out CErr (α × Bytes)} (hf : ReturnsBelow k f) (w lo : Nat)
    (cmp : α → α → Ordering) : ReturnsBelow k (decSet w lo cmp f) := by
  refine (decNat_returns w).bind fun n => (decOrd_returns hf cmp n []).bind fun l => ?_
  exact ReturnsBelow.guard (g := fun l bs => .ok (l, bs)) (checkMin_returns _ _)
    fun n => ReturnsBelow.pure n

theorem decUnion_returns {f : Bytes → Out CErr (α × Bytes)} (hf : ReturnsBelow k f) :
    ReturnsBelow k (decUnion f) := by
  refine (decSet_returns (decPair_returns decByte_returns (decPair_returns decName_returns hf)) 1 0
    entryCmp).bind fun m => ?_
  exact ReturnsBelow.guard (g := fun l bs => .ok (l, bs)) (checkMin_returns _ _)
    fun n => ReturnsBelow.pure n

theorem decTy_returns {f : Bytes → Out CErr (α × Bytes)} (hf : ReturnsBelow k f) :
    ReturnsBelow k (decTy f) := by
  refine decByte_returns.bind fun tag => ?_
  dsimp only
  split
  · follow_returns [decByte_returns]
  · exact ReturnsBelow.pure _
  · follow_returns [decSet_returns decVariant_returns _ _ _]
  · follow_returns [decUnion_returns hf]
  · follow_returns [decVec_returns hf _ _]
  · follow_returns [decVec_returns (decPair_returns decName_returns hf) _ _]
  · follow_returns [hf, decNat_returns 2]
  · follow_returns [hf, decSizing_returns]
  · follow_returns [hf, decSizing_returns]
  · follow_returns [hf, decSizing_returns]
  · exact ReturnsBelow.fail fun _ => ⟨_, rfl⟩

theorem decExtern_returns : ReturnsBelow k decExtern := by
  unfold decExtern
  follow_returns [decId_returns]

theorem decRef2_returns : ReturnsBelow k decRef2 := by
  refine decByte_returns.bind fun tag => ?_
  dsimp only
  split
  · follow_returns [decId_returns]
  · follow_returns [decExtern_returns]
  · exact ReturnsBelow.fail fun _ => ⟨_, rfl⟩

theorem decRef1_returns : ReturnsBelow k decRef1 := by
  refine decByte_returns.bind fun tag => ?_
  dsimp only
  split
  · follow_returns [decTy_returns decRef2_returns]
  · follow_returns [decId_returns]
  · follow_returns [decExtern_returns]
  · exact ReturnsBelow.fail fun _ => ⟨_, rfl⟩

theorem decRef0_returns : ReturnsBelow k decRef0 := by
  refine decByte_returns.bind fun tag => ?_
  dsimp only
  split
  · follow_returns [decTy_returns decRef1_returns]
  · follow_returns [decId_returns]
  · follow_returns [decExtern_returns]
  · exact ReturnsBelow.fail fun _ => ⟨_, rfl⟩

theorem decLibRef_returns : ReturnsBelow k decLibRef := by
  refine decByte_returns.bind fun tag => ?_
  dsimp only
  split
  · follow_returns [decTy_returns decRef0_returns]
  · follow_returns [decId_returns]
  · follow_returns [decExtern_returns]
  · exact ReturnsBelow.fail fun _ => ⟨_, rfl⟩

theorem decDep_returns : ReturnsBelow k decDep := by
  unfold decDep
  follow_returns [decId_returns,
    decName_returns]

theorem decExternTypes_returns : ReturnsBelow k decExternTypes :=
  decSet_returns (decPair_returns decName_returns (decSet_returns
    (decPair_returns decId_returns decName_returns) _ _ _)) _ _ _

theorem decTypeLib_returns : ReturnsBelow k decTypeLib := by
  unfold decTypeLib
  follow_returns [decName_returns,
    decSet_returns decDep_returns _ _ _,
    decExternTypes_returns,
    decSet_returns (decPair_returns decName_returns (decTy_returns decLibRef_returns)) _ _ _]

theorem decTypeSystem_returns : ReturnsBelow k decTypeSystem :=
  decSet_returns (decPair_returns decId_returns (decTy_returns decId_returns)) _ _ _

theorem decOption_returns {f : Bytes → Out CErr (α × Bytes)} (hf : ReturnsBelow k f) :
    ReturnsBelow k (decOption f) := by
  refine decByte_returns.bind fun tag => ?_
  dsimp only
  split
  · exact ReturnsBelow.pure _
  · follow_returns [hf]
  · exact ReturnsBelow.fail fun _ => ⟨_, rfl⟩

theorem decFqn_returns : ReturnsBelow k decFqn := by
  unfold decFqn
  follow_returns [decName_returns]

theorem decSymbol_returns : ReturnsBelow k decSymbol := by
  unfold decSymbol
  follow_returns [decId_returns,
    decOption_returns decFqn_returns]

theorem decSymbols_returns : ReturnsBelow k decSymbols := by
  unfold decSymbols
  follow_returns [decSet_returns decDep_returns _ _ _,
    decSet_returns decSymbol_returns _ _ _]

theorem decSymbolicSys_returns : ReturnsBelow k decSymbolicSys := by
  unfold decSymbolicSys
  follow_returns [decSymbols_returns,
    decTypeSystem_returns]

theorem decSymbolRef_returns : ReturnsBelow k decSymbolRef := by
  unfold decSymbolRef
  follow_returns [decName_returns,
    decId_returns]

/-- Every nesting level takes at least one byte. -/
theorem decTranspileRef_returns (fuel : Nat) : ReturnsBelow fuel (decTranspileRef fuel) := by
  induction fuel with
  | zero => intro bs h; omega
  | succ fuel ih =>
    intro bs hk
    cases bs with
    | nil => exact .inl ⟨_, rfl⟩
    | cons tag bs =>
      have hk : bs.length < fuel := by simpa using hk
      have key : ReturnsBelow fuel (fun bs => (match tag.toNat with
          | 0 => do
            let (ty, bs) ← decTy (decTranspileRef fuel) bs
            pure (.embedded ty, bs)
          | 1 => do
            let (n, bs) ← decName bs
            pure (.named n, bs)
          | 2 => do
            let (s, bs) ← decSymbolRef bs
            pure (.extern s, bs)
          | _ => .err .tag : Out CErr (TranspileRef × Bytes))) := by
        split
        · follow_returns [decTy_returns ih]
        · follow_returns [decName_returns]
        · follow_returns [decSymbolRef_returns]
        · exact ReturnsBelow.fail fun _ => ⟨_, rfl⟩
      rcases key bs hk with h | ⟨a, rest, h, hl⟩
      · exact .inl h
      · exact .inr ⟨a, rest, h, by simp; omega⟩

theorem decSymbolicLib_returns (fuel : Nat) : ReturnsBelow fuel (decSymbolicLib fuel) := by
  unfold decSymbolicLib
  follow_returns [decName_returns,
    decSet_returns decDep_returns _ _ _,
    decExternTypes_returns,
    decSet_returns (decPair_returns decName_returns (decTy_returns (decTranspileRef_returns fuel))) _ _ _]

end

end Verif
