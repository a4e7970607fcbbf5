import Verif.Lemmas.CompText
import Verif.Lemmas.TextShown
import Verif.Props.SysText

/-!
# Properties of the texts of compiled libraries
-/

namespace Verif

/-! ## C68 -/

/-- A compiled library with the only type `X`, which is `t`. -/
def compX (t : Ty LibRef) : TypeLib := ⟨n!"Lib", [], [], [(n!"X", t)]⟩

/-- **C68 is violated** for compiled libraries: a tuple of a pair and a tuple of an item with another item have
the same text, and even the same id, so that the libraries have the same text for every hash. -/
theorem C68_compiled_violated (G : Glyphs) (H : Hash) (a b : Byte) :
    (compX (.tuple [.inline (.tuple [.inline (.primitive a), .inline (.primitive b)])])).text G H =
      (compX (.tuple [.inline (.tuple [.inline (.primitive a)]), .inline (.primitive b)])).text G H ∧
    compX (.tuple [.inline (.tuple [.inline (.primitive a), .inline (.primitive b)])]) ≠
      compX (.tuple [.inline (.tuple [.inline (.primitive a)]), .inline (.primitive b)]) := by
  refine ⟨?_, by simp [compX]⟩
  have hid : (compX (.tuple [.inline (.tuple [.inline (.primitive a), .inline (.primitive b)])])).id H =
      (compX (.tuple [.inline (.tuple [.inline (.primitive a)]), .inline (.primitive b)])).id H := by
    unfold TypeLib.id TypeLib.commit
    simp [compX, Ty.semIdNamed, Ty.semIdInner, Ty.commit, LibRef.commit, InlineRef.commit, InlineRef1.commit, Ty.cls]
  unfold TypeLib.text
  rw [hid]
  simp [compX, Ty.text, LibRef.text, InlineRef.text, InlineRef1.text, sepBy]

/-- **C68, what holds for compiled libraries**: libraries with the same text have the same name and the same id,
the same dependencies (names and mnemonics of their ids), and the same types: names and definitions are equal, in
the same order, with the ids of the types referred to and of their libraries. Missing: items of tuples and structs
and optional types that are themselves tuples, structs, enums or unions (see above); dependencies are shown by
the mnemonics of their ids only. -/
theorem C68_compiled_partial (G : Glyphs) (P : Byte → Prop) (hG : G.Clear P) (hi : ∀ i, idText (G.id i) = true)
    (H : Hash) (l m : TypeLib) (hl : ∀ e ∈ l.types, (LibRef.surfaceTy G e.2).Plain G P false)
    (hm : ∀ e ∈ m.types, (LibRef.surfaceTy G e.2).Plain G P false) (h : l.text G H = m.text G H) :
    l.view G H = m.view G H ∧ ((∀ i j, G.id i = G.id j → i = j) → l.id H = m.id H) := by
  have hv := TypeLib.view_inj hG hi H hl hm h
  exact ⟨hv, fun hj => hj _ _ (congrArg CompView.id hv)⟩

/-- A compiled library with a dependency, a type from it, and types of several forms. -/
def exCompiled : TypeLib :=
  ⟨n!"Lib", [⟨Id32.rep 9, n!"Std"⟩], [(n!"Std", [(Id32.rep 7, n!"Bool")])],
    [(n!"A", .struct [(n!"x", .inline (.primitive 1)), (n!"y", .named (Id32.rep 3)),
        (n!"z", .inline (.list (.inline (.tuple [.inline (.primitive 2), .named (Id32.rep 3)])) ⟨1, 255⟩))]),
     (n!"B", .enum [⟨n!"p", 0⟩, ⟨n!"q", 1⟩, ⟨n!"r", 5⟩]),
     (n!"C", .union [(⟨n!"s", 0⟩, .inline (.tuple [.inline (.primitive 4), .inline .unicodeChar])),
        (⟨n!"t", 3⟩, .extern ⟨Id32.rep 9, Id32.rep 7⟩)]),
     (n!"D", .map (.inline .unicodeChar) (.inline (.union [(⟨n!"none", 0⟩, .inline (.primitive 0)),
        (⟨n!"some", 1⟩, .named (Id32.rep 3))])) ⟨0, 65535⟩)]⟩

/-- The example meets the hypotheses. -/
example : ∀ e ∈ exCompiled.types, (LibRef.surfaceTy (shownGlyphs (exIdText b!"id-") exMnemo2) e.2).Plain
    (shownGlyphs (exIdText b!"id-") exMnemo2) Shown false := by
  intro e he
  refine Sty.plain_of_plainB (ps := shownPrims.map Prod.fst) ?_
  revert e
  decide +kernel

/-- The text of its third type. -/
example : (exCompiled.types.getD 2 (n!"X", .unicodeChar)).2.text (shownGlyphs (exIdText b!"id-") exMnemo2)
      (LibRef.text (shownGlyphs (exIdText b!"id-") exMnemo2)) LibRef.isCompound =
    b!"s (U32, Unicode)" ++ newLine ++ b!"| t#3 " ++ exIdText b!"id-" (Id32.rep 9) ++ b!"." ++
      exIdText b!"id-" (Id32.rep 7) := by decide +kernel

end Verif
