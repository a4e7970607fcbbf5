import Verif.Spec.Moved
import Verif.Lemmas.World
import Verif.Lemmas.Rel

/-!
# Ids of compiled types with the same references
-/

namespace Verif

/-- Commitments of two types with related references, each compiled. -/
theorem moved_commit {α β : Type} {f : α → Bytes} {g : β → Bytes} {A : TranspileRef → α → Prop}
    {B : TranspileRef → β → Prop} {R : TranspileRef → TranspileRef → Prop} {t t' : Ty TranspileRef} {u : Ty α} {u' : Ty β}
    (ha : Ty.Rel A t u) (hb : Ty.Rel B t' u') (hr : Ty.Rel R t t')
    (h : ∀ a ∈ t.refs, ∀ b x y, A a x → B b y → R a b → f x = g y) : u.commit f = u'.commit g := by
  have hr' : Ty.Rel (fun a b => a ∈ t.refs ∧ R a b) t t' := Ty.rel_imp hr fun a ha _ h => ⟨ha, h⟩
  refine Ty.commit_congr (Ty.rel_comp hb (Ty.rel_flip.mp (Ty.rel_comp hr' ha))) ?_
  rintro x - y ⟨b, ⟨a, h1, h2, h3⟩, h4⟩
  exact h a h2 b x y h1 h4 h3

section
variable {ia ib : Name → Option SemId} {S : Name → Prop}

theorem moved_inline2 {k : Nat} {r s : TranspileRef} {x y : InlineRef2} (ha : InlineRef2.Compiled ia r x)
    (hb : InlineRef2.Compiled ib s y) (hr : SameRef ia ib S k r s) (h : ∀ n, r.Mentions n → S n → ia n = ib n) :
    x.commit = y.commit := by
  cases r <;> cases x <;> simp only [InlineRef2.Compiled] at ha <;> cases s <;> cases y <;>
    simp only [InlineRef2.Compiled] at hb <;> cases k <;> simp only [SameRef] at hr <;>
    simp only [InlineRef2.commit, ExternRef.commit] <;> congr 1
  all_goals first
    | (obtain ⟨rfl, hs⟩ := hr; have := h _ (.named _) hs; rw [ha, hb] at this; exact Option.some.inj this)
    | (rw [hb.2]; rw [ha] at hr; exact Option.some.inj hr)
    | (rw [ha.2]; rw [hb] at hr; exact (Option.some.inj hr).symm)
    | (rw [ha.2, hb.2]; exact hr)

theorem moved_inline1 {k : Nat} {r s : TranspileRef} {x y : InlineRef1} (ha : InlineRef1.Compiled ia r x)
    (hb : InlineRef1.Compiled ib s y) (hr : SameRef ia ib S k r s) (h : ∀ n, r.Mentions n → S n → ia n = ib n) :
    x.commit = y.commit := by
  cases r <;> cases x <;> simp only [InlineRef1.Compiled] at ha <;> cases s <;> cases y <;>
    simp only [InlineRef1.Compiled] at hb <;> cases k <;> simp only [SameRef] at hr <;>
    simp only [InlineRef1.commit, ExternRef.commit] <;> first
    | exact moved_commit ha hb hr fun a hm b x y h1 h2 h3 => moved_inline2 h1 h2 h3 fun n hn => h n (.embedded hm hn)
    | congr 1
  all_goals first
    | (obtain ⟨rfl, hs⟩ := hr; have := h _ (.named _) hs; rw [ha, hb] at this; exact Option.some.inj this)
    | (rw [hb.2]; rw [ha] at hr; exact Option.some.inj hr)
    | (rw [ha.2]; rw [hb] at hr; exact (Option.some.inj hr).symm)
    | (rw [ha.2, hb.2]; exact hr)

theorem moved_inline {k : Nat} {r s : TranspileRef} {x y : InlineRef} (ha : InlineRef.Compiled ia r x)
    (hb : InlineRef.Compiled ib s y) (hr : SameRef ia ib S k r s) (h : ∀ n, r.Mentions n → S n → ia n = ib n) :
    x.commit = y.commit := by
  cases r <;> cases x <;> simp only [InlineRef.Compiled] at ha <;> cases s <;> cases y <;>
    simp only [InlineRef.Compiled] at hb <;> cases k <;> simp only [SameRef] at hr <;>
    simp only [InlineRef.commit, ExternRef.commit] <;> first
    | exact moved_commit ha hb hr fun a hm b x y h1 h2 h3 => moved_inline1 h1 h2 h3 fun n hn => h n (.embedded hm hn)
    | congr 1
  all_goals first
    | (obtain ⟨rfl, hs⟩ := hr; have := h _ (.named _) hs; rw [ha, hb] at this; exact Option.some.inj this)
    | (rw [hb.2]; rw [ha] at hr; exact Option.some.inj hr)
    | (rw [ha.2]; rw [hb] at hr; exact (Option.some.inj hr).symm)
    | (rw [ha.2, hb.2]; exact hr)

theorem moved_lib {k : Nat} {r s : TranspileRef} {x y : LibRef} (ha : LibRef.Compiled ia r x)
    (hb : LibRef.Compiled ib s y) (hr : SameRef ia ib S k r s) (h : ∀ n, r.Mentions n → S n → ia n = ib n) :
    x.commit = y.commit := by
  cases r <;> cases x <;> simp only [LibRef.Compiled] at ha <;> cases s <;> cases y <;>
    simp only [LibRef.Compiled] at hb <;> cases k <;> simp only [SameRef] at hr <;>
    simp only [LibRef.commit, ExternRef.commit] <;> first
    | exact moved_commit ha hb hr fun a hm b x y h1 h2 h3 => moved_inline h1 h2 h3 fun n hn => h n (.embedded hm hn)
    | congr 1
  all_goals first
    | (obtain ⟨rfl, hs⟩ := hr; have := h _ (.named _) hs; rw [ha, hb] at this; exact Option.some.inj this)
    | (rw [hb.2]; rw [ha] at hr; exact Option.some.inj hr)
    | (rw [ha.2]; rw [hb] at hr; exact (Option.some.inj hr).symm)
    | (rw [ha.2, hb.2]; exact hr)

theorem moved_ty {t t' : Ty TranspileRef} {u u' : Ty LibRef} (ha : t.CompiledTo ia u) (hb : t'.CompiledTo ib u')
    (hr : SameTy ia ib S t t') (h : ∀ n, t.Mentions n → S n → ia n = ib n) :
    u.commit LibRef.commit = u'.commit LibRef.commit :=
  moved_commit ha hb hr fun a hm _ _ _ h1 h2 h3 => moved_lib h1 h2 h3 fun n hn => h n ⟨a, hm, hn⟩

end

end Verif
