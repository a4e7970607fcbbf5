import Verif.Props.Apart
import Verif.Props.RustValues
import Verif.Spec.Stl

/-! # C84: from Rust types to dynamic values and back -/

namespace Verif

theorem crates_describe {H : Hash} {debug : Bool} {cs : List Crate} {fuel : Nat}
    (hc : ¬ CrateCollision H debug fuel cs) (hb : Buildable debug cs) (hi : IdsApart H cs)
    (hreg : ∀ c ∈ cs, ∀ q, c.Mentions q → q.Regular)
    (ht : ∃ ds : List RTy, ds.length < 2 ^ 24 - 1 ∧ ∀ q, Describe cs q → q ∈ ds) (hf : 65535 ≤ fuel) :
    ∃ ls, buildAll H debug fuel cs [] = .ok ls ∧ ∀ ms, ls.Perm ms → ∃ S, assembleSys H debug ms = .ok S ∧
      ∀ E : Env, E.H = H → E.sys = S.types → E.Usual → ∀ c ∈ cs, ∀ s n, c.Owns s n →
        (∀ v, WellTyped E v (s.semId H) ↔ v.Tidy ∧ ∃ bs, s.Writes v bs) ∧
        ∀ v bs, s.Writes v bs → v.Tidy → ∀ rfuel, sizeOf s ≤ rfuel →
          S.Describes E rfuel (c.name.bytes ++ b!"." ++ n.bytes) (s.semId H) v bs := by
  obtain ⟨ls, h, hsys⟩ := system_apart hc hb hi (fun _ c hcm q hq => (hreg c hcm q hq).fewParts) ht hf
  refine ⟨ls, h, fun ms hp => ?_⟩
  obtain ⟨S, hs, -⟩ := hsys ms hp
  refine ⟨S, hs, fun E hH hE hu c hcm s n hon => ?_⟩
  obtain ⟨hcon, hA, hC⟩ := ids_apart hc hb hi hf h hp
  have hin : ∀ p, s.Contains p → p.Regular := fun p hp => hreg c hcm p (by
    obtain ⟨t, ht, hts⟩ := hon.1
    exact ⟨t, ht, hts.trans hp⟩)
  have hA' : ∀ c ∈ cs, ∀ d ∈ cs, ∀ s s' n, c.Owns s n → d.Owns s' n → s.semId H = s'.semId H → c = d :=
    fun c hcm d hdm s s' n ho ho' e => (hA c hcm d hdm s s' n n ho ho' e).1
  refine ⟨((C80_exact_partial H debug cs hb fuel hf ls ms h hp S hs hcon E hH hE hu.small hu.unsigned
    hu.signed hu.byte c hcm s n hon s (.refl _)
    fun p hp => ⟨(hin p hp).fields, (hin p hp).ordinary, (hin p hp).noLookalike, (hin p hp).upTo64.to128⟩).resolve_right hc).1,
    fun v bs hv ht rfuel hr => ?_⟩
  obtain ⟨spec, w, h1, h2, h3, h4, -⟩ := (C79_read_write_partial H debug cs hb fuel hf ls ms h hp S hs hcon hA' hC E hH hE
    hu.small hu.unsigned hu.signed hu.byte c hcm s n hon (fun p hp => ⟨(hin p hp).fields,
      (hin p hp).ordinary, (hin p hp).noLookalike, (hin p hp).upTo64⟩) v bs hv rfuel hr).resolve_right hc
  refine ⟨spec, h1, ⟨w, h2, h3, h4⟩, ?_⟩
  have hty := fun maxLen hl => (C81_by_name_partial H debug cs hb fuel hf ls ms h hp S hs hcon
    (fun c hcm q hq => (hreg c hcm q hq).fields) hA' hC E hH hE
    hu.small hu.unsigned hu.signed hu.byte c hcm s n hon (fun p hp => ⟨(hin p hp).ordinary, (hin p hp).noLookalike,
      (hin p hp).noBareByte, (hin p hp).noItemArray, (hin p hp).upTo64.not_wide⟩) v bs hv ht rfuel hr maxLen hl).resolve_right hc
  obtain ⟨spec', w', h1', h2', h3', h4', -⟩ := hty _ (Nat.le_refl _)
  rw [h1] at h1'
  cases h1'
  refine ⟨w', h2', h3', h4', fun maxLen hl => ?_⟩
  obtain ⟨spec'', w'', h1'', h2'', -, -, h5⟩ := hty maxLen hl
  rw [h1] at h1''
  cases h1''
  rw [h2'] at h2''
  cases h2''
  exact h5

/-- **C84, partial** (for crates whose types are described by texts which differ whatever the ids in them are, and whose
types are regular): the libraries of the crates are built and, in any order, assembled into a system; in this system the
well-typed values of the id of a type are exactly the dynamic values of its Rust values; the text `Crate.Type` reads
what a Rust program writes, the value read is accepted by `typify` unchanged, and it is written as the Rust program
writes it (or there is a hash collision among the texts of these crates). Conditions are on the Rust types only. What is
missing: `C77_read_violated`, `C78_array_violated`, `C81_byte_violated`, `C82_read_violated`, numbers above 64 bits. -/
theorem C84_whole_partial (H : Hash) (debug : Bool) (cs : List Crate) (hb : Buildable debug cs) (ha : OutlinesApart cs)
    (hreg : ∀ c ∈ cs, ∀ q, c.Mentions q → q.Regular)
    (ht : ∃ ds : List RTy, ds.length < 2 ^ 24 - 1 ∧ ∀ q, Describe cs q → q ∈ ds) (fuel : Nat) (hf : 65535 ≤ fuel) :
    (∃ ls, buildAll H debug fuel cs [] = .ok ls ∧ ∀ ms, ls.Perm ms → ∃ S, assembleSys H debug ms = .ok S ∧
      ∀ E : Env, E.H = H → E.sys = S.types → E.Usual → ∀ c ∈ cs, ∀ s n, c.Owns s n →
        (∀ v, WellTyped E v (s.semId H) ↔ v.Tidy ∧ ∃ bs, s.Writes v bs) ∧
        ∀ v bs, s.Writes v bs → v.Tidy → ∀ rfuel, sizeOf s ≤ rfuel →
          S.Describes E rfuel (c.name.bytes ++ b!"." ++ n.bytes) (s.semId H) v bs) ∨
    CrateCollision H debug fuel cs := by
  by_cases hc : CrateCollision H debug fuel cs
  · exact .inr hc
  exact .inl (crates_describe hc hb ((C82_outlines H cs ha).resolve_right fun h => hc (.inl h)) hreg ht hf)

/-! ### A concrete case -/

/-- All types mentioned by the example crates. -/
def exNodes : List RTy := [exPicture, exShape, .record n!"Own" none true [(none, exPoint)], exPoint, .prim 1,
  .record n!"Own" none true [], .list exPoint ⟨0, 255⟩, exForeign, .array (.prim 1) 32]

theorem exNodes_described {q : RTy} (h : Describe exCrates q) : q ∈ exNodes := by
  obtain ⟨c, hc, s, hs, hq⟩ := h
  have hd : ∀ q ∈ exNodes, ∀ p ∈ q.described, p ∈ exNodes := by
    simp [exNodes, exPicture, exShape, exPoint, exForeign, RTy.described]
  refine hd s ?_ q hq
  rcases exCrates_mentions hc hs with ⟨-, h⟩ | ⟨-, h⟩
  · simp only [List.mem_cons, List.not_mem_nil, or_false] at h
    rcases h with rfl | rfl | rfl <;> simp [exNodes]
  · exact h

theorem exCrates_outlines : OutlinesApart exCrates := by
  have hcl : ClosedNodes exNodes := by simp [ClosedNodes, exNodes, exPicture, exShape, exPoint, exForeign, RTy.parts]
  have hd : ∀ q ∈ exNodes, ∀ p ∈ q.described, p ∈ exNodes := by
    simp [exNodes, exPicture, exShape, exPoint, exForeign, RTy.described]
  exact outlinesApart_of hcl (by simp [exCrates, exNodes]) hd (by decide +kernel)

theorem exCrates_regular : ∀ c ∈ exCrates, ∀ q, c.Mentions q → q.Regular := by
  have h : ∀ q ∈ exNodes, q.DistinctFields ∧ q.Ordinary ∧ ¬ q.LooksLikeString ∧ q.UpTo64 ∧ ¬ q.BareByte ∧
    ¬ q.ItemArray ∧ q.parts.length < 255 := by decide +kernel
  intro c hc q hq
  obtain ⟨h1, h2, h3, h4, h5, h6, h7⟩ := h q (exNodes_described ⟨c, hc, q, hq, mem_described q⟩)
  exact ⟨h1, h2, h3, h4, h5, h6, h7⟩

end Verif
