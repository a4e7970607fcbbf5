import Verif.Lemmas.StlChecks
import Verif.Lemmas.StlValues
import Verif.Props.Binary
import Verif.Props.Whole

/-! # C83: the library `StrictTypes` describes libraries and type systems -/

namespace Verif
open Stl

theorem strict_mem : strictTypesCrate ∈ crates := by simp [crates]

theorem typeLib_owned : strictTypesCrate.Owns typeLib n!"TypeLib" :=
  ⟨⟨typeLib, by simp [strictTypesCrate], .refl _⟩, rfl, rfl⟩
theorem symbolicSys_owned : strictTypesCrate.Owns symbolicSys n!"SymbolicSys" :=
  ⟨⟨symbolicSys, by simp [strictTypesCrate], .refl _⟩, rfl, rfl⟩
theorem symbols_owned : strictTypesCrate.Owns symbols n!"Symbols" :=
  ⟨⟨symbolicSys, by simp [strictTypesCrate], .step (by rw [symbolicSys_parts]; simp) (.refl _)⟩, rfl, rfl⟩
theorem typeSystem_owned : strictTypesCrate.Owns typeSystem n!"TypeSystem" :=
  ⟨⟨symbolicSys, by simp [strictTypesCrate], .step (by rw [symbolicSys_parts]; simp) (.refl _)⟩, rfl, rfl⟩

/-- The libraries are built, the system is assembled, and the types of the crate are described. -/
theorem stl_describes {H : Hash} {debug : Bool} {fuel : Nat} (hc : ¬ CrateCollision H debug fuel crates)
    (ho : ¬ Overlap H (crateTexts H crates)) (hf : 65535 ≤ fuel) :
    ∃ ls, buildAll H debug fuel crates [] = .ok ls ∧ ∀ ms, ls.Perm ms → ∃ S, assembleSys H debug ms = .ok S ∧
      ∀ E : Env, E.H = H → E.sys = S.types → E.Usual → ∀ c ∈ crates, ∀ s n, c.Owns s n → ∀ v bs, s.Writes v bs → v.Tidy →
        ∀ rfuel, sizeOf s ≤ rfuel → S.Describes E rfuel (c.name.bytes ++ b!"." ++ n.bytes) (s.semId H) v bs := by
  have hreg : ∀ c ∈ crates, ∀ q, c.Mentions q → q.Regular := fun c hcm q hq => by
    obtain ⟨h1, h2, h3, h4, h5, h6, h7⟩ := nodes_values q (nodes_closed.mentions (crates_nodes c hcm) hq)
    exact ⟨h1, h2, h3, h4, h5, h6, h7⟩
  obtain ⟨ls, h, hsys⟩ := crates_describe hc (buildable debug) (idsApart (fun h => hc (.inl h)) ho) hreg
    ⟨describedNodes, by decide +kernel, fun q hq => described_nodes hq⟩ hf
  refine ⟨ls, h, fun ms hp => ?_⟩
  obtain ⟨S, hs, hd⟩ := hsys ms hp
  exact ⟨S, hs, fun E hH hE hu c hcm s n hon => (hd E hH hE hu c hcm s n hon).2⟩

/-- **C83**: the libraries `Std` and `StrictTypes` are built and, in either order, assembled into a system; in this system
the text `StrictTypes.TypeLib` reads the file of any library, the value read is accepted by `typify` unchanged and is
written as the same file; the same is true of type systems, symbol tables and symbolic systems (or there is a hash
collision among the texts of these two crates, or two of their ids overlap in thirty bytes). -/
theorem C83_self_description (H : Hash) (debug : Bool) (fuel : Nat) (hf : 65535 ≤ fuel) :
    (∃ ls, buildAll H debug fuel crates [] = .ok ls ∧ ∀ ms, ls.Perm ms → ∃ S, assembleSys H debug ms = .ok S ∧
      ∀ E : Env, E.H = H → E.sys = S.types → E.Usual →
        (∀ l : TypeLib, l.WF → l.Cased → ∀ rfuel, sizeOf typeLib ≤ rfuel →
          S.Describes E rfuel b!"StrictTypes.TypeLib" (typeLib.semId H) l.val l.encode) ∧
        (∀ s : TypeSystem, s.Held → s.Cased → ∀ rfuel, sizeOf typeSystem ≤ rfuel →
          S.Describes E rfuel b!"StrictTypes.TypeSystem" (typeSystem.semId H) s.val s.encode) ∧
        (∀ s : Symbols, s.Held → s.Cased → ∀ rfuel, sizeOf symbols ≤ rfuel →
          S.Describes E rfuel b!"StrictTypes.Symbols" (symbols.semId H) s.val s.encode) ∧
        (∀ s : SymbolicSys, s.Held → s.symbols.Cased → s.types.Cased → ∀ rfuel, sizeOf symbolicSys ≤ rfuel →
          S.Describes E rfuel b!"StrictTypes.SymbolicSys" (symbolicSys.semId H) s.val s.encode)) ∨
      CrateCollision H debug fuel crates ∨ Overlap H (crateTexts H crates) := by
  by_cases hc : CrateCollision H debug fuel crates
  · exact .inr (.inl hc)
  by_cases ho : Overlap H (crateTexts H crates)
  · exact .inr (.inr ho)
  left
  obtain ⟨ls, h, hsys⟩ := stl_describes hc ho hf
  refine ⟨ls, h, fun ms hp => ?_⟩
  obtain ⟨S, hs, hd⟩ := hsys ms hp
  refine ⟨S, hs, fun E hH hE hu => ⟨?_, ?_, ?_, ?_⟩⟩
  · exact fun l hw hcs => hd E hH hE hu _ strict_mem _ _ typeLib_owned _ _ (typeLib_writes hw hcs) (typeLib_tidy hw)
  · exact fun s hw hcs => hd E hH hE hu _ strict_mem _ _ typeSystem_owned _ _ (typeSystem_writes hw hcs) (typeSystem_tidy hw)
  · exact fun s hw hcs => hd E hH hE hu _ strict_mem _ _ symbols_owned _ _ (symbols_writes hw hcs) (symbols_tidy hw)
  · exact fun s hw hcs hct => hd E hH hE hu _ strict_mem _ _ symbolicSys_owned _ _ (symbolicSys_writes hw hcs hct)
      (symbolicSys_tidy hw)

/-! ### A concrete case -/

instance (n : Name) : Decidable n.Capital := by unfold Name.Capital; infer_instance
instance (n : Name) : Decidable n.Small := by unfold Name.Small; infer_instance

/-- The library of the examples has names with the right letters. -/
theorem exBinLib_cased : exBinLib.Cased where
  name := by decide
  deps := by decide
  externs := by decide
  names := by decide
  types := by
    simp [exBinLib, exDeepTy, Ty.Small, Ty.refs, LibRef.Small, InlineRef.Small, InlineRef1.Small]
    refine ⟨?_, by decide, by decide⟩
    rintro a b (⟨rfl, -⟩ | ⟨rfl, -⟩) <;> decide

/-- So has the symbolic system, and there are environments with the usual sizes. -/
example : exSymSys.symbols.Cased ∧ exSymSys.types.Cased ∧ ∀ debug, (exE debug).Usual := by
  refine ⟨⟨by decide, ?_⟩, ?_, fun debug => ⟨by show 2 ^ 32 * (2 * 24) < 2 ^ 63; decide, ?_, ?_, rfl⟩⟩
  · intro p hp f hf
    simp only [exSymSys, List.mem_cons, List.not_mem_nil, or_false] at hp
    rcases hp with rfl | rfl
    · cases hf
    · cases hf; decide
  · simp [TypeSystem.Cased, exSymSys, Ty.Small, Ty.U8]
  · intro n h1 h2
    obtain ⟨k, rfl⟩ : ∃ k : Fin 17, n = k := ⟨⟨n, by omega⟩, rfl⟩
    revert h1 debug
    revert k
    decide +kernel
  · rintro n (rfl | rfl | rfl | rfl | rfl) <;> rfl

end Verif
