import Verif.Props.Confined
import Verif.Props.RustEnds

/-! # C111 for types of Rust crates -/

namespace Verif

section
variable {E : Env}

theorem span_rust (hs : E.Sane) (strict : Bool) : ∀ q : RTy, (∀ p, q.Contains p → NearFit E p) → ∀ n, sizeOf q ≤ n →
    ∃ lo hi, SpanN E strict n (q.semId E.H) lo hi := by
  refine RTy.induct fun q ih hall n hn => ?_
  have hq := hall q (.refl _)
  cases n with
  | zero => cases q <;> simp at hn
  | succ n =>
    have step : (∀ r ∈ (q.img E.H).refs, ∃ lo hi, SpanN E strict n r lo hi) →
        ∃ lo hi, SpanN E strict (n + 1) (q.semId E.H) lo hi := fun h => by
      obtain ⟨lo, hi, h⟩ := spans_exists (E := E) (strict := strict) (hs.wf _ _ hq.find) h
      exact ⟨lo, hi, _, hq.find, h⟩
    by_cases hu : ∃ sz, q = .unicode sz
    · obtain ⟨sz, rfl⟩ := hu
      refine step fun r hin => ?_
      rw [RTy.img_unicode] at hin
      rw [List.mem_singleton.mp hin]
      cases n with
      | zero =>
        cases sz
        simp only [RTy.unicode.sizeOf_spec, Sizing.mk.sizeOf_spec] at hn
        omega
      | succ n => exact ⟨1, 4, _, hq.holds.find_unicode, .char⟩
    · by_cases hr : ∃ c c1 sz, q = .rstring c c1 sz
      · obtain ⟨c, c1, sz, rfl⟩ := hr
        have h0 := RTy.parts_lt (show c ∈ (RTy.rstring c c1 sz).parts by simp [RTy.parts])
        have h1 := RTy.parts_lt (show c1 ∈ (RTy.rstring c c1 sz).parts by simp [RTy.parts])
        refine step fun r hin => ?_
        rw [RTy.img_rstring] at hin
        simp only [Ty.refs, List.mem_cons, List.not_mem_nil, or_false] at hin
        rcases hin with rfl | rfl
        · exact ih c1 (by simp [RTy.parts]) (fun s hs => hall s (.step (by simp [RTy.parts]) hs)) n (by omega)
        · cases n with
          | zero =>
            have : 0 < sizeOf c := by cases c <;> simp <;> omega
            omega
          | succ n =>
            have hf : E.find (tailId E.H c sz) = _ := hq.holds.find_tail
            obtain ⟨lo, hi, h⟩ := spans_exists (E := E) (strict := strict) (R := SpanN E strict n) (hs.wf _ _ hf) fun r hr => by
              rw [List.mem_singleton.mp hr]
              exact ih c (by simp [RTy.parts]) (fun s hs => hall s (.step (by simp [RTy.parts]) hs)) n (by
                have : 0 < sizeOf c1 := by cases c1 <;> simp <;> omega
                simp only [RTy.rstring.sizeOf_spec] at hn
                omega)
            exact ⟨lo, hi, _, hf, h⟩
      · refine step fun r hin => ?_
        obtain ⟨p, hp, rfl⟩ := RTy.img_refs (fun sz e => hu ⟨sz, e⟩) (fun c c1 sz e => hr ⟨c, c1, sz, e⟩) hin
        exact ih p hp (fun s hs => hall s (.step hp hs)) n (by have := RTy.parts_lt hp; omega)

end

/-- **C111 for Rust types, partial** (for systems where definitions with the same id are the same; for collections of less than
`2 ^ 32` items): every type owned by one of the crates, or mentioned by such a type, has a least and a largest number of bytes,
and the data of all its well-typed values is within (or there is a hash collision). There are no types containing themselves. -/
theorem C111_crates_partial (H : Hash) (debug : Bool) (cs : List Crate) (hb : Buildable debug cs)
    (fuel : Nat) (hf : 65535 ≤ fuel) (ls ms : List TypeLib) (h : buildAll H debug fuel cs [] = .ok ls)
    (hp : ls.Perm ms) (sys : SymbolicSys) (hs : assembleSys H debug ms = .ok sys)
    (hcon : Consistent (allDefs H ms)) (hd : ∀ c ∈ cs, ∀ q, c.Mentions q → q.DistinctFields)
    (E : Env) (hH : E.H = H) (hE : E.sys = sys.types)
    (h1 : ∀ n, 1 ≤ n → n ≤ 8 → E.primSize (BitVec.ofNat 8 n) = n)
    (h2 : ∀ n, n = 1 ∨ n = 2 ∨ n = 4 ∨ n = 8 → E.primSize (BitVec.ofNat 8 (0x40 + n)) = n)
    (h3 : E.primSize Ty.BYTE_CODE = 1) (c : Crate) (hcm : c ∈ cs) (s : RTy) (n : Name) (ho : c.Owns s n) (q : RTy)
    (hq : s.Contains q) (hok : ∀ p, q.Contains p → p.Ordinary) :
    (∀ strict, ∃ lo hi, Span E strict (q.semId H) lo hi ∧ (strict = true → E.BoundedTails → ∀ v, WellTyped E v (q.semId H) →
      ∀ wfuel bs, write E wfuel v (q.semId H) = .ok bs → lo ≤ bs.length ∧ bs.length ≤ hi)) ∨
    CrateCollision H debug fuel cs := by
  by_cases hc : CrateCollision H debug fuel cs
  · exact .inr hc
  have hsane := (C76_crates_sane H debug cs hb fuel hf ls ms h hp sys hs hd E hH hE h1 h2 h3).resolve_right hc
  have hdist : ∀ p, q.Contains p → p.DistinctFields := fun p hp => hd c hcm p (by
    obtain ⟨t, ht, hts⟩ := ho.1
    exact ⟨t, ht, hts.trans (hq.trans hp)⟩)
  have hnear := crates_near hc hb hf h hp hs hcon hH hE hcm ho hq fun p hp => ⟨hdist p hp, hok p hp⟩
  subst hH
  refine .inl fun strict => ?_
  obtain ⟨lo, hi, hr⟩ := span_rust hsane strict q hnear _ (Nat.le_refl _)
  refine ⟨lo, hi, ⟨_, hr⟩, ?_⟩
  rintro rfl hbt v hv wfuel bs hw
  exact C111_written_partial E hsane hbt _ lo hi ⟨_, hr⟩ v hv wfuel bs hw

/-- The type of the example crates: its parts are ordinary. -/
example : ∀ p, exPicture.Contains p → p.Ordinary := fun p hp => (exPicture_fits.2.1 p hp).2.1

end Verif
