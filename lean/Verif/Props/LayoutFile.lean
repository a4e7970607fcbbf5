import Verif.Lemmas.LayoutHeld
import Verif.Props.Layout
import Verif.Props.Stl

/-! # C92: files of memory layouts -/

namespace Verif
open Stl

/-- **C92**: the layout the code makes of a type, in a system of well-formed types, is read back from its file, whatever
follows it. -/
theorem C92_roundtrip {H : Hash} {debug : Bool} {fuel : Nat} {S : SymbolicSys} (hS : ∀ p ∈ S.types, p.2.WF) {id : SemId}
    {l : List TypeInfo} (h : layout H debug fuel S id = .ok l) :
    ReadsBack encLayout decLayout l ∧ fromSerialized decLayout (encLayout l) = .ok l := by
  have hr := decLayout_append (layout_held hS h)
  refine ⟨hr, ?_⟩
  have := hr []
  rw [List.append_nil] at this
  simp [fromSerialized, this]

/-- **C92**: two layouts made by the code with the same file, or one file beginning with the other, are the same layout. -/
theorem C92_injective {H : Hash} {debug : Bool} {fuel : Nat} {S T : SymbolicSys} (hS : ∀ p ∈ S.types, p.2.WF)
    (hT : ∀ p ∈ T.types, p.2.WF) {i j : SemId} {l m : List TypeInfo} (hl : layout H debug fuel S i = .ok l)
    (hm : layout H debug fuel T j = .ok m) {r s : Bytes} (h : encLayout l ++ r = encLayout m ++ s) : l = m ∧ r = s := by
  have h1 := (C92_roundtrip hS hl).1 r
  rw [h, (C92_roundtrip hT hm).1 s] at h1
  cases h1
  exact ⟨rfl, rfl⟩

/-- **C92**: reading any bytes as a layout returns, and has looked at what it consumed only; the file is the shortest of
the files read as this layout, and the only one of its length. -/
theorem C92_reading (k : Nat) : ReturnsBelow k decLayout ∧ PrefixOnly decLayout ∧
    NearCanonical encLayout decLayout LayoutHeld ∧
    ∀ bs l rest, decLayout bs = .ok (l, rest) → l.length < 2 ^ 32 ∧ ∀ i ∈ l, i.nested.length ≤ 255 :=
  ⟨decLayout_returns, decLayout_prefix, decLayout_near.near, fun _ _ _ => decLayout_held⟩

/-- An item with nothing but a number at some depth. -/
def exItem (d : BitVec 32) : TypeInfo := ⟨d, Ty.U8, none, none, []⟩

theorem exItem_head (H : Hash) {m : Nat} (hm : 1 ≤ m) (d : BitVec 32) :
    (exItem d).toVesper H m = .ok ⟨lodash, .is, [.prim 1], none⟩ := by
  show (if 1 ≤ m then _ else _) = _
  rw [if_pos hm]
  rfl

/-- **C92 is violated** for what is read: nothing checks that the items read are those of one type. The file of no items is
read, and so is one with an item of depth zero after others; showing them panics. Two items of depth zero panic in debug
builds only; otherwise the first of them is dropped without notice. -/
theorem C92_display_violated (H : Hash) (debug : Bool) {maxAttrs maxContent : Nat} (ha : 1 ≤ maxAttrs) (hc : 1 ≤ maxContent) :
    (fromSerialized decLayout [0, 0, 0, 0] = .ok [] ∧ toVesper H debug maxAttrs maxContent [] = .panic) ∧
    (fromSerialized decLayout (encLayout [exItem 0, exItem 1, exItem 0]) = .ok [exItem 0, exItem 1, exItem 0] ∧
      toVesper H debug maxAttrs maxContent [exItem 0, exItem 1, exItem 0] = .panic) ∧
    fromSerialized decLayout (encLayout [exItem 0, exItem 0]) = .ok [exItem 0, exItem 0] ∧
      toVesper H debug maxAttrs maxContent [exItem 0, exItem 0] =
        if debug then .panic else toVesper H debug maxAttrs maxContent [exItem 0] := by
  refine ⟨⟨rfl, rfl⟩, ⟨by rfl, ?_⟩, by rfl, ?_⟩
  · simp only [toVesper, toVesperLoop, exItem_head H ha, Out.bind_ok]
    have hc' : 0 < maxContent := hc
    cases debug <;> simp [exItem, Out.debugAssert, Out.expect, VExpr.pushAt, hc', Out.bind_ok]
  · simp only [toVesper, toVesperLoop, exItem_head H ha, Out.bind_ok]
    cases debug <;> simp [exItem, Out.debugAssert, Out.expect]

theorem memoryLayout_owned : strictTypesCrate.Owns memoryLayout n!"MemoryLayout" :=
  ⟨⟨memoryLayout, by simp [strictTypesCrate], .refl _⟩, rfl, rfl⟩

/-- **C92**: in the system assembled of `Std` and `StrictTypes`, the text `StrictTypes.MemoryLayout` reads the file of the
layout of any type of any system of well-formed types with properly capitalised names; the value is accepted unchanged
and is written as the same file (or there is a hash collision among the texts of these two crates, or two of their ids
overlap in thirty bytes). -/
theorem C92_described (H : Hash) (debug : Bool) (fuel : Nat) (hf : 65535 ≤ fuel) :
    (∃ ls, buildAll H debug fuel crates [] = .ok ls ∧ ∀ ms, ls.Perm ms → ∃ S, assembleSys H debug ms = .ok S ∧
      ∀ E : Env, E.H = H → E.sys = S.types → E.Usual →
        ∀ (T : SymbolicSys) (H' : Hash) (debug' : Bool) (fuel' : Nat) (id : SemId) (l : List TypeInfo),
          (∀ p ∈ T.types, p.2.WF) → T.types.Cased → T.symbols.Cased → layout H' debug' fuel' T id = .ok l →
          ∀ rfuel, sizeOf memoryLayout ≤ rfuel →
            S.Describes E rfuel b!"StrictTypes.MemoryLayout" (memoryLayout.semId H) (layoutVal l) (encLayout l)) ∨
      CrateCollision H debug fuel crates ∨ Overlap H (crateTexts H crates) := by
  by_cases hc : CrateCollision H debug fuel crates
  · exact .inr (.inl hc)
  by_cases ho : Overlap H (crateTexts H crates)
  · exact .inr (.inr ho)
  left
  obtain ⟨ls, h, hsys⟩ := stl_describes hc ho hf
  refine ⟨ls, h, fun ms hp => ?_⟩
  obtain ⟨S, hs, hd⟩ := hsys ms hp
  refine ⟨S, hs, fun E hH hE hu T H' debug' fuel' id l hw ht hy hl => ?_⟩
  exact hd E hH hE hu _ strict_mem _ _ memoryLayout_owned _ _
    (memoryLayout_writes (layout_held hw hl) (layout_cased ht hy hl)) (memoryLayout_tidy (layout_held hw hl))

/-! ### A concrete case -/

/-- The types of the example system are well-formed and its names are properly capitalised. -/
example : (∀ p ∈ exLay.types, p.2.WF) ∧ exLay.types.Cased ∧ exLay.symbols.Cased := by
  refine ⟨by decide +kernel, ?_, ?_⟩
  · intro p hp
    simp only [exLay, exLayTypes, List.mem_cons, List.not_mem_nil, or_false] at hp
    rcases hp with rfl | rfl | rfl | rfl | rfl | rfl | rfl | rfl | rfl | rfl | rfl | rfl | rfl <;>
      first
      | trivial
      | (simp only [Ty.Small]; decide)
  · refine ⟨by decide, ?_⟩
    intro p hp f hf
    simp only [exLay, List.mem_cons, List.not_mem_nil, or_false] at hp
    rcases hp with rfl | rfl <;> (cases hf; decide)

/-- The layout of its optional number, and its file. -/
example (H : Hash) (debug : Bool) :
    layout H debug 100 exLay (Id32.rep 11) = .ok [⟨1, Ty.U8, none, some (.unionVariant 1 n!"some"), [.option]⟩] ∧
    encLayout [⟨1, Ty.U8, none, some (.unionVariant 1 n!"some"), [.option]⟩] =
      [1, 0, 0, 0] ++ [1, 0, 0, 0] ++ [0, 1] ++ [0] ++ ([1, 2, 1, 4] ++ b!"some") ++ [1, 1] := by
  refine ⟨?_, by decide⟩
  cases debug <;> rfl

end Verif
