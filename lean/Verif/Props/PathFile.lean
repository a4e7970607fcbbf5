import Verif.Lemmas.PathCodec
import Verif.Props.PathText

/-! # C98: binary form of paths and versions -/

namespace Verif

/-- **C98, paths into values**: steps and paths within the limits of their types are read back whatever follows; nothing
else is read, and each from its own bytes only. -/
theorem C98_value_paths : Faithful KeyStep.encode decKeyStep KeyStep.Held ∧
    Faithful VStep.encode decVStep VStep.Held ∧ Faithful encVPath decVPath VPathHeld :=
  ⟨decKeyStep_faithful, decVStep_faithful, decVPath_faithful⟩

/-- **C98, paths are told by their bytes**: unlike the texts of paths (C71), the bytes of different paths are different,
and none begins with the other. -/
theorem C98_injective {p q : List VStep} (hp : VPathHeld p) (hq : VPathHeld q) {r s : Bytes}
    (h : encVPath p ++ r = encVPath q ++ s) : p = q ∧ r = s := by
  have h1 := decVPath_faithful.reads p hp r
  rw [h, decVPath_faithful.reads q hq s] at h1
  cases h1
  exact ⟨rfl, rfl⟩

/-- Two keys with the same text. -/
example : VPathHeld [.key (.number 5)] ∧ VPathHeld [.key (.string b!"5")] ∧
    vpathText [.key (.number 5)] = vpathText [.key (.string b!"5")] ∧
    encVPath [.key (.number 5)] = [1, 0, 3, 0, 5, 0, 0, 0, 0, 0, 0, 0, 0, 0, 0, 0, 0, 0, 0, 0] ∧
    encVPath [.key (.string b!"5")] = [1, 0, 3, 2, 1, 53] := by
  refine ⟨⟨by decide, ?_⟩, ⟨by decide, ?_⟩, by decide +kernel, by decide, by decide⟩ <;>
    (intro s hs; simp only [List.mem_cons, List.not_mem_nil, or_false] at hs; subst hs; simp only [VStep.Held, KeyStep.Held])
  decide

/-- **C98, paths are what their types describe**: the bytes of a step or path are those which any value of the type derived
for it has: tags in the order of variants, lengths of one and two bytes. Keys which are numbers have 128 bits and are
left to the example above. -/
theorem C98_described : (∀ p : List VStep, VPathHeld p → (∀ s ∈ p, s.Described) →
      Stl.vpath.Writes (.tuple [.list (p.map VStep.val)]) (encVPath p)) ∧
    ∀ s : Ty.Step, s.Small → Stl.tstep.Writes s.val s.encode :=
  ⟨fun _ => Stl.vpath_writes, fun _ => Stl.tstep_writes⟩

example : VStep.Described (.namedField n!"abc") ∧ VStep.Described (.key (.string b!"5")) :=
  ⟨by simp only [VStep.Described, Name.Small]; decide, trivial⟩

/-- **C98, paths into types and classes of types**: all steps and all classes are read back, and nothing else is read. -/
theorem C98_type_steps : Faithful Ty.Step.encode decStep (fun _ => True) ∧ Faithful Cls.encode decCls (fun _ => True) :=
  ⟨decStep_faithful, decCls_faithful⟩

/-- **C98, versions**: versions are read back, and nothing else is read. -/
theorem C98_versions : Faithful PreFragment.encode decPreFragment (fun _ => True) ∧
    Faithful BuildFragment.encode decBuildFragment (fun _ => True) ∧ Faithful SemVer.encode decSemVer SemVer.Held :=
  ⟨decPreFragment_faithful, decBuildFragment_faithful, decSemVer_faithful⟩

/-- Two versions with the same text have different bytes. -/
example : let v := fun b => SemVer.mk 1 2 3 [] [b]
    (v (.ident n!"x")).Held ∧ (v (.ident n!"x")).display = (v (.digits n!"x")).display ∧
    (v (.ident n!"x")).encode = [1, 0, 2, 0, 3, 0, 0, 1, 0, 1, 120] ∧
    (v (.digits n!"x")).encode = [1, 0, 2, 0, 3, 0, 0, 1, 1, 1, 120] := by
  refine ⟨⟨by decide, by decide⟩, by decide, by decide, by decide⟩

/-- **C98, types with origin**: with a well-formed type they are read back; reading returns and looks only at what it
consumes; the bytes written are the only shortest ones. -/
theorem C98_types (k : Nat) : (∀ s : SymTy, s.ty.WF → ReadsBack SymTy.encode decSymTy s) ∧
    NearCanonical SymTy.encode decSymTy (fun s => s.ty.WF) ∧ PrefixOnly decSymTy ∧ ReturnsBelow k decSymTy :=
  ⟨fun _ => decSymTy_append, decSymTy_near.near, decSymTy_prefix, decSymTy_returns⟩

example : (Ty.tuple [Id32.rep 1, Id32.rep 2] : Ty SemId).WF ∧
    (SymTy.mk (some ⟨n!"A", n!"B"⟩) (Ty.U8 : Ty SemId)).encode = [1, 1, 65, 1, 66, 0, 1] := ⟨by decide, by decide⟩

end Verif
