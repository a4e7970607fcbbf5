import Verif.Lemmas.Util
import Verif.Spec.Ty

/-!
# Properties C50 and C51: names of formats, text of versions
-/

namespace Verif

/-! ## C50 -/

/-- Parsing accepts exactly the documented names. -/
theorem C50_parse_exact (armor : Bool) (s : Bytes) (f : StlFormat) :
    StlFormat.fromStr armor s = .ok f ↔ f.Named armor s := by
  unfold StlFormat.fromStr
  constructor
  · intro h
    split at h
    · cases h; assumption
    · split at h
      · cases h; assumption
      · split at h
        · cases h; assumption
        · cases h
  · intro h
    cases f with
    | source => subst h; simp
    | binary => subst h; simp
    | armored => obtain ⟨h1, rfl⟩ := h; simp [h1]

/-- Any other text is returned as the error. -/
theorem C50_parse_error (armor : Bool) (s : Bytes) (h : ∀ f : StlFormat, ¬ f.Named armor s) :
    StlFormat.fromStr armor s = .err s := by
  unfold StlFormat.fromStr
  have h1 := h .source
  have h2 := h .binary
  have h3 := h .armored
  simp only [StlFormat.Named] at h1 h2 h3
  rw [if_neg h2, if_neg h3, if_neg h1]

/-- Parsing the displayed name of a format that the build has returns that format. -/
theorem C50_parse_display (armor : Bool) (f : StlFormat) (h : f.exists' armor = true) :
    StlFormat.fromStr armor f.display = .ok f := by
  rw [C50_parse_exact]
  cases f <;> simp_all [StlFormat.Named, StlFormat.display, StlFormat.exists']

/-- The command line is accepted exactly if there is at most one further argument besides the format,
and the format, after any number of leading double dashes, has a documented name; the format
without arguments is the source. -/
theorem C50_arguments (armor : Bool) (args : List Bytes) (f : StlFormat) (dir : Option Bytes) :
    parseArgs armor args = .ok (f, dir) ↔
      (∃ prog, args = [prog] ∧ f = .source ∧ dir = none) ∨
      (∃ prog x s n, args = [prog, x] ∧ x = (List.replicate n b!"--").flatten ++ s ∧ f.Named armor s ∧
        dir = some b!"stl") ∨
      (∃ prog x s n d, args = [prog, x, d] ∧ x = (List.replicate n b!"--").flatten ++ s ∧
        f.Named armor s ∧ dir = some d) := by
  have htrim : ∀ x s : Bytes, (∃ g : StlFormat, g.Named armor s) →
      (trimDashes x = s ↔ ∃ n, x = (List.replicate n b!"--").flatten ++ s) := by
    intro x s hs
    have hfix : trimDashes s = s := by
      obtain ⟨g, hg⟩ := hs
      cases g with
      | source => rw [show s = b!"sty" from hg]; rfl
      | binary => rw [show s = b!"stl" from hg]; rfl
      | armored => rw [show s = b!"sta" from hg.2]; rfl
    constructor
    · have : ∀ (k : Nat) (x : Bytes), x.length ≤ k → ∃ n, x = (List.replicate n b!"--").flatten ++ trimDashes x := by
        intro k
        induction k with
        | zero => intro x hx; cases x with
          | nil => exact ⟨0, rfl⟩
          | cons a x => simp at hx
        | succ k ih =>
          intro x hx
          match x, hx with
          | [], _ => exact ⟨0, rfl⟩
          | [a], _ => exact ⟨0, rfl⟩
          | a :: b :: x, hx =>
            unfold trimDashes
            split
            · rename_i h
              obtain ⟨n, hn⟩ := ih x (by simp at hx; omega)
              refine ⟨n + 1, ?_⟩
              rw [List.replicate_succ, List.flatten_cons, List.append_assoc, ← hn, h.1, h.2]
              rfl
            · exact ⟨0, rfl⟩
      intro h
      obtain ⟨n, hn⟩ := this _ x (Nat.le_refl _)
      exact ⟨n, by rw [h] at hn; exact hn⟩
    · rintro ⟨n, rfl⟩
      induction n with
      | zero => exact hfix
      | succ n ih => rw [List.replicate_succ, List.flatten_cons, List.append_assoc]; simp [trimDashes, ih]
  have hfmt : ∀ (s : Bytes) (g : StlFormat), formatArg armor s = .ok g ↔ g.Named armor s := by
    intro s g
    rw [← C50_parse_exact]
    unfold formatArg
    cases StlFormat.fromStr armor s <;> simp
  unfold parseArgs
  simp only [Out.bind_eq_ok, hfmt, Out.pure_eq, Out.ok.injEq, Prod.mk.injEq]
  match args with
  | [] => simp [dirArg]
  | [prog] =>
    simp only [dirArg, List.length_singleton, if_true, Out.ok.injEq]
    constructor
    · rintro ⟨g, hg, d, rfl, rfl, rfl⟩
      refine .inl ⟨prog, rfl, ?_, rfl⟩
      cases g with
      | source => rfl
      | binary => simp [StlFormat.Named] at hg
      | armored => simp [StlFormat.Named] at hg
    · rintro (⟨_, _, rfl, rfl⟩ | ⟨_, _, _, _, h, _⟩ | ⟨_, _, _, _, _, h, _⟩)
      · exact ⟨.source, rfl, none, rfl, rfl, rfl⟩
      · simp at h
      · simp at h
  | [prog, x] =>
    constructor
    · rintro ⟨g, hg, d, hd, rfl, rfl⟩
      simp [dirArg] at hd hg
      obtain ⟨n, hn⟩ := (htrim x _ ⟨g, hg⟩).mp rfl
      exact .inr (.inl ⟨prog, x, _, n, rfl, hn, hg, hd.symm⟩)
    · rintro (⟨_, h, _⟩ | ⟨prog', x', s, n, h, hx, hf, rfl⟩ | ⟨_, _, _, _, _, h, _⟩)
      · simp at h
      · simp only [List.cons.injEq, and_true] at h
        obtain ⟨rfl, rfl⟩ := h
        refine ⟨f, ?_, _, rfl, rfl, rfl⟩
        have := (htrim x s ⟨f, hf⟩).mpr ⟨n, hx⟩
        simpa [this] using hf
      · simp at h
  | [prog, x, d] =>
    constructor
    · rintro ⟨g, hg, d', hd, rfl, rfl⟩
      simp [dirArg] at hd hg
      obtain ⟨n, hn⟩ := (htrim x _ ⟨g, hg⟩).mp rfl
      exact .inr (.inr ⟨prog, x, _, n, d, rfl, hn, hg, hd.symm⟩)
    · rintro (⟨_, h, _⟩ | ⟨_, _, _, _, h, _⟩ | ⟨prog', x', s, n, d', h, hx, hf, rfl⟩)
      · simp at h
      · simp at h
      · simp only [List.cons.injEq, and_true] at h
        obtain ⟨rfl, rfl, rfl⟩ := h
        refine ⟨f, ?_, _, rfl, rfl, rfl⟩
        have := (htrim x s ⟨f, hf⟩).mpr ⟨n, hx⟩
        simpa [this] using hf
  | a :: b :: c :: d :: l =>
    constructor
    · rintro ⟨g, hg, d', hd, rfl, rfl⟩
      simp [dirArg] at hd
    · rintro (⟨_, h, _⟩ | ⟨_, _, _, _, h, _⟩ | ⟨_, _, _, _, _, h, _⟩) <;> simp at h

/-- The command line `prog --stl dir`. -/
example : parseArgs false [b!"prog", b!"--stl", b!"dir"] = .ok (.binary, some b!"dir") := by decide
example : StlFormat.fromStr false b!"sta" = .err b!"sta" := by decide
example : StlFormat.armored.exists' true = true := rfl

/-! ## C51 -/

/-- The two orders of the fragments: the text is in the standard form exactly if the fragments of the
pre-release and of the build read the same; in particular without fragments. The full claim, that the
form is always the standard one, is refuted by `C51_form_violated`. -/
theorem C51_form_partial (v : SemVer) :
    v.display = v.standardText ↔ v.pre.map PreFragment.display = v.build.map BuildFragment.display := by
  rw [v.display_eq, v.standardText_eq]
  have hp : ∀ x ∈ v.pre.map PreFragment.display, IsWord x := by
    intro x hx; obtain ⟨f, -, rfl⟩ := List.mem_map.mp hx; exact f.display_isWord
  have hb : ∀ x ∈ v.build.map BuildFragment.display, IsWord x := by
    intro x hx; obtain ⟨f, -, rfl⟩ := List.mem_map.mp hx; exact f.display_isWord
  constructor
  · intro h
    exact (fragments_inj hp hb hb hp (List.append_cancel_left h).symm).1
  · intro h; rw [h]

example : (SemVer.mk 1 2 3 [] []).display = b!"1.2.3" := by decide +kernel

/-- Counterexample to the full claim: `1.2.3-rc+b5` in the standard form is displayed as
`1.2.3-b5+rc`. -/
theorem C51_form_violated :
    ∃ v : SemVer, v.standardText = b!"1.2.3-rc+b5" ∧ v.display = b!"1.2.3-b5+rc" :=
  ⟨⟨1, 2, 3, [.ident n!"rc"], [.ident n!"b5"]⟩, by decide +kernel, by decide +kernel⟩

/-- Equal texts mean equal versions, except for the kind of the build fragments. The full claim is
refuted by `C51_distinct_violated`. -/
theorem C51_distinct_partial (v w : SemVer) (h : v.display = w.display) :
    v.major = w.major ∧ v.minor = w.minor ∧ v.patch = w.patch ∧ v.pre = w.pre ∧
    All2 (fun a b => a = b ∨ ∃ n, (a = .ident n ∧ b = .digits n) ∨ (a = .digits n ∧ b = .ident n))
      v.build w.build := by
  rw [v.display_eq, w.display_eq] at h
  obtain ⟨h1, h2, h3, h4⟩ := numbers_inj (fragments_head _ _) (fragments_head _ _) h
  have hp : ∀ u : SemVer, ∀ x ∈ u.pre.map PreFragment.display, IsWord x := by
    intro u x hx; obtain ⟨f, -, rfl⟩ := List.mem_map.mp hx; exact f.display_isWord
  have hb : ∀ u : SemVer, ∀ x ∈ u.build.map BuildFragment.display, IsWord x := by
    intro u x hx; obtain ⟨f, -, rfl⟩ := List.mem_map.mp hx; exact f.display_isWord
  obtain ⟨h5, h6⟩ := fragments_inj (hb v) (hp v) (hb w) (hp w) h4
  refine ⟨BitVec.eq_of_toNat_eq h1, BitVec.eq_of_toNat_eq h2, BitVec.eq_of_toNat_eq h3, ?_, ?_⟩
  · exact List.map_inj_right (fun _ _ => PreFragment.display_inj) |>.mp h6
  · clear h h4 h6
    generalize v.build = a at h5
    generalize w.build = b at h5
    induction a generalizing b with
    | nil => cases b with
      | nil => trivial
      | cons y b => simp at h5
    | cons x a ih => cases b with
      | nil => simp at h5
      | cons y b =>
        simp only [List.map_cons, List.cons.injEq] at h5
        refine ⟨?_, ih b h5.2⟩
        cases x with
        | ident n => cases y with
          | ident m =>
            cases n; cases m; have := h5.1; simp only [BuildFragment.display] at this; subst this; exact .inl rfl
          | digits m =>
            cases n; cases m; have := h5.1; simp only [BuildFragment.display] at this; subst this
            exact .inr ⟨_, .inl ⟨rfl, rfl⟩⟩
        | digits n => cases y with
          | ident m =>
            cases n; cases m; have := h5.1; simp only [BuildFragment.display] at this; subst this
            exact .inr ⟨_, .inr ⟨rfl, rfl⟩⟩
          | digits m =>
            cases n; cases m; have := h5.1; simp only [BuildFragment.display] at this; subst this; exact .inl rfl

example : (SemVer.mk 1 2 3 [.digits 7] [.ident n!"x"]).display = (SemVer.mk 1 2 3 [.digits 7] [.digits n!"x"]).display := by
  decide +kernel

/-- Counterexample to the full claim: build fragments of both kinds hold identifiers and look the
same. -/
theorem C51_distinct_violated : ∃ v w : SemVer, v ≠ w ∧ v.display = w.display :=
  ⟨⟨1, 0, 0, [], [.ident n!"x"]⟩, ⟨1, 0, 0, [], [.digits n!"x"]⟩, by decide, by decide +kernel⟩

end Verif
