import Verif.Lemmas.System
import Verif.Lemmas.Commit
import Verif.Lemmas.Basic
import Verif.Spec.Value

/-!
# Ids of the built-in types
-/

namespace Verif

/-- The id is the hash of something which is the commitment of a primitive or a unicode character only
if the type is that one. -/
def Basic (H : Hash) (D : Bytes → Prop) (id : SemId) (t : Ty SemId) : Prop :=
  ∃ x, D x ∧ id = taggedHash H SEM_ID_TAG x ∧ (∀ c, x = [0, c] → t = .primitive c) ∧ (x = [1] → t = .unicodeChar)

theorem Basic.mono {H : Hash} {D D' : Bytes → Prop} {id : SemId} {t : Ty SemId} (h : Basic H D id t)
    (hD : ∀ x, D x → D' x) : Basic H D' id t := by
  obtain ⟨x, hx, h⟩ := h
  exact ⟨x, hD x hx, h⟩

theorem Ty.commit_basic {Ref : Type} (f : Ref → Bytes) (g : Ref → SemId) (t : Ty Ref) :
    (∀ c, t.commit f = [0, c] → t.mapRefs g = .primitive c) ∧ (t.commit f = [1] → t.mapRefs g = .unicodeChar) := by
  constructor
  · intro c h
    cases t <;> simp [Ty.commit, Ty.cls, Cls.code] at h
    subst h
    rfl
  · intro h
    cases t <;> simp [Ty.commit, Ty.cls, Cls.code] at h
    rfl

theorem named_basic {n : Name} {x : Bytes} (hx : x ≠ []) :
    (∀ c, n.commit ++ x ≠ [0, c]) ∧ n.commit ++ x ≠ [1] := by
  have h1 := n.length_pos
  have h2 := List.length_pos_iff.mpr hx
  refine ⟨fun c h => ?_, fun h => ?_⟩ <;>
    (have := congrArg List.length h
     simp only [Name.commit, List.length_append, List.length_cons, List.length_nil] at this
     omega)

theorem Ty.commit_ne_nil {Ref : Type} (f : Ref → Bytes) (t : Ty Ref) : t.commit f ≠ [] := by
  simp [Ty.commit]

theorem basic_unnamed {Ref : Type} (H : Hash) {D : Bytes → Prop} (f : Ref → Bytes) (g : Ref → SemId) (t : Ty Ref)
    (hD : D (t.commit f)) : Basic H D (t.semIdUnnamed H f) (t.mapRefs g) :=
  ⟨_, hD, Ty.semIdUnnamed_eq H f t, t.commit_basic f g⟩

theorem basic_named {Ref : Type} (H : Hash) {D : Bytes → Prop} (f : Ref → Bytes) (g : Ref → SemId) (t : Ty Ref)
    (n : Name) (hD : D (n.commit ++ t.commit f)) : Basic H D (t.semIdNamed H f n) (t.mapRefs g) := by
  obtain ⟨h1, h2⟩ := named_basic (n := n) (t.commit_ne_nil f)
  exact ⟨_, hD, Ty.semIdNamed_eq H f t n, fun c h => absurd h (h1 c), fun h => absurd h h2⟩

theorem allDefs_basic {H : Hash} {ls : List TypeLib} : ∀ p ∈ allDefs H ls, Basic H (· ∈ libTexts ls) p.1 p.2.ty := by
  have h1 : ∀ (D : Bytes → Prop) (r : InlineRef1), (∀ x ∈ r.texts, D x) → ∀ p ∈ r.defs H, Basic H D p.1 p.2.ty := by
    intro D r hD p hp
    cases r <;> simp only [InlineRef1.defs, List.mem_singleton, List.not_mem_nil] at hp
    subst hp
    exact basic_unnamed _ _ _ _ (hD _ (by simp [InlineRef1.texts]))
  have h2 : ∀ (D : Bytes → Prop) (r : InlineRef), (∀ x ∈ r.texts, D x) → ∀ p ∈ r.defs H, Basic H D p.1 p.2.ty := by
    intro D r hD p hp
    cases r <;> simp only [InlineRef.defs, List.mem_append, List.mem_flatMap, List.mem_singleton,
      List.not_mem_nil] at hp
    rcases hp with ⟨r, hr, hp⟩ | rfl
    · exact h1 D r (fun x hx => hD x (List.mem_append_left _ (List.mem_flatMap.mpr ⟨r, hr, hx⟩))) p hp
    · exact basic_unnamed _ _ _ _ (hD _ (by simp [InlineRef.texts]))
  have h3 : ∀ (D : Bytes → Prop) (r : LibRef), (∀ x ∈ r.texts, D x) → ∀ p ∈ r.defs H, Basic H D p.1 p.2.ty := by
    intro D r hD p hp
    cases r <;> simp only [LibRef.defs, List.mem_append, List.mem_flatMap, List.mem_singleton,
      List.not_mem_nil] at hp
    rcases hp with ⟨r, hr, hp⟩ | rfl
    · exact h2 D r (fun x hx => hD x (List.mem_append_left _ (List.mem_flatMap.mpr ⟨r, hr, hx⟩))) p hp
    · exact basic_unnamed _ _ _ _ (hD _ (by simp [LibRef.texts]))
  intro p hp
  simp only [allDefs, TypeLib.defs, Ty.inlineDefs, List.mem_flatMap, List.mem_append, List.mem_singleton] at hp
  obtain ⟨l, hl, q, hq, ⟨r, hr, hp⟩ | rfl⟩ := hp
  · exact h3 _ r (fun x hx => List.mem_flatMap.mpr ⟨l, hl, List.mem_flatMap.mpr ⟨q, hq,
      List.mem_append_left _ (List.mem_flatMap.mpr ⟨r, hr, hx⟩)⟩⟩) p hp
  · exact basic_named _ _ _ _ _ (List.mem_flatMap.mpr ⟨l, hl, List.mem_flatMap.mpr ⟨q, hq, by simp⟩⟩)

/-- The ids of the built-in types denote these types. -/
theorem Basic.types {H : Hash} {D : Bytes → Prop} (hc : ¬ Collision H D) (hb : ∀ x ∈ basicTexts, D x) {id : SemId}
    {t : Ty SemId} (h : Basic H D id t) :
    (id = SemId.unit H → t = Ty.UNIT) ∧ (id.isByte H = true → t = Ty.BYTE ∨ t = Ty.U8) ∧
    (id.isUnicodeChar H = true → t = .unicodeChar) := by
  obtain ⟨x, hx, rfl, h1, h2⟩ := h
  have key : ∀ u : Ty SemId, u ∈ [Ty.UNIT, Ty.BYTE, Ty.U8, .unicodeChar] → taggedHash H SEM_ID_TAG x = u.semIdUnnamed H SemId.commit → x = u.commit SemId.commit := by
    intro u hm hu
    rw [Ty.semIdUnnamed_eq] at hu
    exact semHash_inj hc hx (hb _ (List.mem_map_of_mem hm)) hu
  refine ⟨fun e => h1 _ (key _ (by simp) e), fun e => ?_, fun e => ?_⟩
  · simp only [SemId.isByte, Bool.or_eq_true, decide_eq_true_eq] at e
    rcases e with e | e
    · exact .inl (h1 _ (key _ (by simp) e.symm))
    · exact .inr (h1 _ (key _ (by simp) e.symm))
  · simp only [SemId.isUnicodeChar, decide_eq_true_eq] at e
    exact h2 (key _ (by simp) e.symm)

end Verif
