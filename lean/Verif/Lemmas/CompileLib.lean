import Verif.Lemmas.CompileLoop
import Verif.Lemmas.Deps

/-! Helper lemmas about the outcome of `SymbolicLib::compile`. -/

namespace Verif

/-! ## Shared facts about `compile` -/

theorem SymbolicLib.WF.get_deep {s : SymbolicLib} (hw : s.WF) :
    ∀ n t, s.types.get n = some t → t.Deep :=
  fun n t h => hw.types (n, t) (OMap.get_mem h)

theorem OMap.length_keys {K V : Type} (m : OMap K V) : m.keys.length = m.length := by
  simp [OMap.keys]

/-- All outcomes of compilation. -/
theorem compile_cases (H : Hash) (debug : Bool) (fuel : Nat) (s : SymbolicLib) (hw : s.WF) :
    (∃ st, compileLoop H debug s.types.keys fuel ⟨s.types, [], []⟩ = .ok st ∧
      CompileInv H s.types st ∧ st.oldTypes = [] ∧
      ((s.types.length ≤ 65535 ∧ ∃ used, usedDeps s.dependencies s.externTypes.keys [] = .ok used ∧
          s.compile H debug fuel = .ok ⟨s.name, used, s.externTypes, st.newTypes⟩) ∨
        (∃ lib, s.compile H debug fuel = .err (.unknownLib lib) ∧ lib ∈ s.externTypes.keys ∧
          lib ≠ LIB_EMBEDDED ∧ ∀ d ∈ s.dependencies, d.name ≠ lib) ∨
        (65535 < s.types.length ∧ s.compile H debug fuel = .panic))) ∨
    (∃ n t p q, s.types.get n = some t ∧ ¬ t.DepthLe 3 ∧
      s.compile H debug fuel = .err (.nestedInline n p q)) ∨
    (∃ st, CompileInv H s.types st ∧ st.oldTypes ≠ [] ∧
      (∀ n t, st.oldTypes.get n = some t → ∃ m, t.Mentions m ∧ st.index.get m = none) ∧
      ((debug = true ∧ s.compile H debug fuel = .panic) ∨
       (debug = false ∧ s.compile H debug fuel = .diverge))) ∨
    (fuel < s.types.length ∧ s.compile H debug fuel = .diverge) := by
  unfold SymbolicLib.compile
  rcases compileLoop_cases (T := s.types) hw.get_deep debug fuel (CompileInv.init H s.types) with
    ⟨st, h, hi, ho⟩ | ⟨n, t, p, q, hT, hq, h⟩ | ⟨st, hi, hne, hs, h⟩ | ⟨h1, h2⟩
  · left
    refine ⟨st, h, hi, ho, ?_⟩
    rw [h]
    have hlen : st.newTypes.length = s.types.length := by
      rw [← OMap.length_keys, (hi.finished hw.typesSorted ho).2.1, OMap.length_keys]
    have hpos : 1 ≤ s.types.length := by
      cases hs : s.types with
      | nil => exact absurd hs hw.nonEmpty
      | cons => simp
    rcases usedDeps_spec hw.deps s.externTypes.keys (used := []) (by simp) List.Pairwise.nil with
      ⟨used, h1, h2, h3, -, -⟩ | ⟨lib, hl, hne, hno, h1⟩
    · have hu : used.length ≤ 255 := by
        have hnd : used.Nodup := List.Pairwise.imp
          (fun {a b} h (e : a = b) => KeyOrd.ne_of_lt h (congrArg Dependency.id e)) h2
        exact Nat.le_trans (nodup_length_le hnd h3) hw.fewDeps
      by_cases hmax : s.types.length ≤ 65535
      · left
        refine ⟨hmax, used, h1, ?_⟩
        simp [h1, checkTypeMap, checkTiny, hlen, hpos, hmax, hu]
      · right; right
        refine ⟨by omega, ?_⟩
        simp [h1, checkTypeMap, hlen, hmax]
    · right; left
      refine ⟨lib, ?_, hl, hne, hno⟩
      simp [h1]
  · right; left
    refine ⟨n, t, p, q, hT, hq, ?_⟩
    rw [h]; rfl
  · right; right; left
    refine ⟨st, hi, hne, hs, ?_⟩
    rcases h with ⟨hd, h⟩ | ⟨hd, h⟩
    · left; refine ⟨hd, ?_⟩; rw [h]; rfl
    · right; refine ⟨hd, ?_⟩; rw [h]; rfl
  · right; right; right
    refine ⟨h1, ?_⟩
    rw [h2]; rfl

/-- What success of compilation means. -/
theorem compile_ok {H : Hash} {debug : Bool} {fuel : Nat} {s : SymbolicLib} (hw : s.WF)
    {l : TypeLib} (h : s.compile H debug fuel = .ok l) :
    ∃ st used, CompileInv H s.types st ∧ st.oldTypes = [] ∧ s.types.length ≤ 65535 ∧
      usedDeps s.dependencies s.externTypes.keys [] = .ok used ∧
      l = ⟨s.name, used, s.externTypes, st.newTypes⟩ := by
  rcases compile_cases H debug fuel s hw with
    ⟨st, -, hi, ho, ⟨hlen, used, hu, h'⟩ | ⟨lib, h', -⟩ | ⟨-, h'⟩⟩ | ⟨n, t, p, q, -, -, h'⟩ |
    ⟨st, -, -, -, ⟨-, h'⟩ | ⟨-, h'⟩⟩ | ⟨-, h'⟩
  · rw [h] at h'; cases h'
    exact ⟨st, used, hi, ho, hlen, hu, rfl⟩
  all_goals rw [h] at h'; cases h'

end Verif

namespace Verif

/-! ### Commitments of symbolic types -/

theorem TranspileRef.commitRefs_eq (l : List TranspileRef) :
    TranspileRef.commitRefs l = l.flatMap TranspileRef.commit := by
  induction l with
  | nil => simp [TranspileRef.commitRefs]
  | cons r l ih => simp [TranspileRef.commitRefs, ih]

theorem TranspileRef.commitVariants_eq (l : List (Variant × TranspileRef)) :
    TranspileRef.commitVariants l = l.flatMap fun v => v.1.commit ++ v.2.commit := by
  induction l with
  | nil => simp [TranspileRef.commitVariants]
  | cons r l ih => obtain ⟨v, r⟩ := r; simp [TranspileRef.commitVariants, ih]

theorem TranspileRef.commitFields_eq (l : List (Name × TranspileRef)) :
    TranspileRef.commitFields l = l.flatMap fun v => v.1.commit ++ v.2.commit := by
  induction l with
  | nil => simp [TranspileRef.commitFields]
  | cons r l ih => obtain ⟨v, r⟩ := r; simp [TranspileRef.commitFields, ih]

/-- The structurally recursive commitment of symbolic types is the generic one. -/
theorem TranspileRef.commitTy_eq (t : Ty TranspileRef) :
    TranspileRef.commitTy t = t.commit TranspileRef.commit := by
  cases t <;> simp [TranspileRef.commitTy, Ty.commit, Ty.cls, commitRefs_eq, commitVariants_eq,
    commitFields_eq]

theorem flatMap_all2 {α β : Type} {f : α → Bytes} {g : β → Bytes} {R : α → β → Prop}
    {l : List α} {m : List β} (h : All2 R l m) (hR : ∀ a ∈ l, ∀ b, R a b → f a = g b) :
    l.flatMap f = m.flatMap g := by
  induction l generalizing m with
  | nil => cases m with
    | nil => rfl
    | cons => exact h.elim
  | cons a l ih => cases m with
    | nil => exact h.elim
    | cons b m =>
      simp only [List.flatMap_cons]
      rw [hR a (by simp) b h.1, ih h.2 fun a ha => hR a (by simp [ha])]

/-- Types that are the same up to references with equal commitments have equal commitments. -/
theorem Ty.commit_congr {α β : Type} {f : α → Bytes} {g : β → Bytes} {R : α → β → Prop}
    {t : Ty α} {u : Ty β} (h : Ty.Rel R t u) (hR : ∀ a ∈ t.refs, ∀ b, R a b → f a = g b) :
    t.commit f = u.commit g := by
  cases t <;> cases u <;> simp only [Ty.Rel] at h <;> try exact h.elim
  case primitive => subst h; rfl
  case unicodeChar => rfl
  case enum => subst h; rfl
  case tuple =>
    simp only [Ty.commit, Ty.cls]
    rw [flatMap_all2 h hR]
  case union =>
    simp only [Ty.commit, Ty.cls]
    rw [flatMap_all2 h]
    rintro ⟨v, a⟩ ha ⟨w, b⟩ ⟨rfl, hr⟩
    rw [hR a (List.mem_map_of_mem (f := Prod.snd) ha) b hr]
  case struct =>
    simp only [Ty.commit, Ty.cls]
    rw [flatMap_all2 h]
    rintro ⟨v, a⟩ ha ⟨w, b⟩ ⟨rfl, hr⟩
    rw [hR a (List.mem_map_of_mem (f := Prod.snd) ha) b hr]
  case array => obtain ⟨h, rfl⟩ := h; simp [Ty.commit, Ty.cls, hR _ (by simp [Ty.refs]) _ h]
  case list => obtain ⟨h, rfl⟩ := h; simp [Ty.commit, Ty.cls, hR _ (by simp [Ty.refs]) _ h]
  case set => obtain ⟨h, rfl⟩ := h; simp [Ty.commit, Ty.cls, hR _ (by simp [Ty.refs]) _ h]
  case map =>
    obtain ⟨h, h', rfl⟩ := h
    simp [Ty.commit, Ty.cls, hR _ (by simp [Ty.refs]) _ h, hR _ (by simp [Ty.refs]) _ h']

variable {idx : Name → Option SemId}

theorem TranspileRef.commit_embedded (t : Ty TranspileRef) :
    (TranspileRef.embedded t).commit = t.commit TranspileRef.commit := by
  rw [← commitTy_eq]
  simp [TranspileRef.commit]

theorem not_mentions_embedded {t : Ty TranspileRef}
    (h : ∀ n, ¬ (TranspileRef.embedded t).Mentions n) :
    ∀ r ∈ t.refs, ∀ n, ¬ r.Mentions n := fun _ hr n hm => h n (.embedded hr hm)

theorem InlineRef2.Compiled.commit {r : TranspileRef} {l : InlineRef2}
    (h : InlineRef2.Compiled idx r l) (hn : ∀ n, ¬ r.Mentions n) : r.commit = l.commit := by
  cases r <;> cases l <;> try exact h.elim
  · exact absurd (.named _) (hn _)
  · simp [TranspileRef.commit, InlineRef2.commit, ExternRef.commit, h.2]

theorem InlineRef1.Compiled.commit {r : TranspileRef} {l : InlineRef1}
    (h : InlineRef1.Compiled idx r l) (hn : ∀ n, ¬ r.Mentions n) : r.commit = l.commit := by
  cases r <;> cases l <;> try exact h.elim
  · rw [TranspileRef.commit_embedded]
    exact Ty.commit_congr h fun a ha b hb => hb.commit (not_mentions_embedded hn a ha)
  · exact absurd (.named _) (hn _)
  · simp [TranspileRef.commit, InlineRef1.commit, ExternRef.commit, h.2]

theorem InlineRef.Compiled.commit {r : TranspileRef} {l : InlineRef}
    (h : InlineRef.Compiled idx r l) (hn : ∀ n, ¬ r.Mentions n) : r.commit = l.commit := by
  cases r <;> cases l <;> try exact h.elim
  · rw [TranspileRef.commit_embedded]
    exact Ty.commit_congr h fun a ha b hb => hb.commit (not_mentions_embedded hn a ha)
  · exact absurd (.named _) (hn _)
  · simp [TranspileRef.commit, InlineRef.commit, ExternRef.commit, h.2]

theorem LibRef.Compiled.commit {r : TranspileRef} {l : LibRef}
    (h : LibRef.Compiled idx r l) (hn : ∀ n, ¬ r.Mentions n) : r.commit = l.commit := by
  cases r <;> cases l <;> try exact h.elim
  · rw [TranspileRef.commit_embedded]
    exact Ty.commit_congr h fun a ha b hb => hb.commit (not_mentions_embedded hn a ha)
  · exact absurd (.named _) (hn _)
  · simp [TranspileRef.commit, LibRef.commit, ExternRef.commit, h.2]

end Verif
