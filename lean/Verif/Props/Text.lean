import Verif.Lemmas.TextShown
import Verif.Lemmas.StonTyped
import Verif.Spec.Example

/-!
# The source form of libraries
-/

namespace Verif

/-! ## C68 -/

/-- **C68 is violated** for nested tuples: the parentheses are not shown. -/
theorem C68_nesting_violated (G : Glyphs) (a b c : TranspileRef) :
    (TranspileRef.embedded (.tuple [.embedded (.tuple [a, b]), c])).text G =
    (TranspileRef.embedded (.tuple [a, b, c])).text G := by
  simp [TranspileRef.text, TranspileRef.textTy, TranspileRef.textRefs, sepBy]

/-- **C68 is violated** for optional tuples: an optional pair is shown as a pair with an optional item. -/
theorem C68_option_violated (G : Glyphs) (a b : TranspileRef) (u v : TranspileRef) :
    (TranspileRef.embedded (.union [(⟨n!"none", 0⟩, u), (⟨n!"some", 1⟩, .embedded (.tuple [a, b]))])).text G =
    (TranspileRef.embedded (.tuple [a, .embedded (.union [(⟨n!"none", 0⟩, v), (⟨n!"some", 1⟩, b)])])).text G := by
  simp [TranspileRef.text, TranspileRef.textTy, TranspileRef.textRefs, TranspileRef.textVariants, Ty.asSome,
    Ty.noneName, Ty.someName, sepBy]

/-- **C68 is violated** for unions shaped as an option whose `none` has a payload: it is not shown. -/
theorem C68_none_violated (G : Glyphs) (a u v : TranspileRef) :
    (TranspileRef.embedded (.union [(⟨n!"none", 0⟩, u), (⟨n!"some", 1⟩, a)])).text G =
    (TranspileRef.embedded (.union [(⟨n!"none", 0⟩, v), (⟨n!"some", 1⟩, a)])).text G := by
  simp [TranspileRef.text, TranspileRef.textTy, TranspileRef.textVariants, Ty.asSome, Ty.noneName, Ty.someName]

/-- **C68 is violated** for types named as a primitive type. -/
theorem C68_name_violated (G : Glyphs) (n : Name) (p : Byte) (h : G.prim p = n.bytes) :
    (TranspileRef.named n).text G = (TranspileRef.embedded (.primitive p)).text G := by
  simp [TranspileRef.text, TranspileRef.textTy, h]

/-- There is such a name. -/
example : (shownGlyphs (fun _ => []) fun _ => []).prim 1 = (n!"U8").bytes := by decide +kernel

/-- A library with the only type `X`, which is `t`. -/
def onlyX (t : Ty TranspileRef) : SymbolicLib := ⟨n!"Lib", [], [], [(n!"X", t)]⟩

/-- **C68 is violated** for libraries: a tuple of a pair and a tuple of an item with another item have the
same text, and even the same id, so that the libraries have the same source form for every hash. -/
theorem C68_library_violated (G : Glyphs) (H : Hash) (a b : TranspileRef) :
    (onlyX (.tuple [.embedded (.tuple [a, b])])).text G H =
      (onlyX (.tuple [.embedded (.tuple [a]), b])).text G H ∧
    onlyX (.tuple [.embedded (.tuple [a, b])]) ≠ onlyX (.tuple [.embedded (.tuple [a]), b]) := by
  refine ⟨?_, by simp [onlyX]⟩
  have hid : TranspileRef.semIdNamed H (.tuple [.embedded (.tuple [a, b])]) n!"X" =
      TranspileRef.semIdNamed H (.tuple [.embedded (.tuple [a]), b]) n!"X" := by
    unfold TranspileRef.semIdNamed
    simp [TranspileRef.commitTy, TranspileRef.commitRefs, TranspileRef.commit]
  simp only [SymbolicLib.text, onlyX, List.flatMap_cons, List.flatMap_nil, dataText, hid]
  simp [TranspileRef.text, TranspileRef.textTy, TranspileRef.textRefs, sepBy]

/-- **C68, what holds for types**: types with the same text have the same syntax tree, if no item of a tuple
or struct and no optional type is itself a tuple, struct, enum or union, and names are not those of primitive
types. Missing: such types (see above), and ids of types from other libraries, which are not shown. -/
theorem C68_types_partial (G : Glyphs) (P : Byte → Prop) (hG : G.Clear P) (r s : TranspileRef) (a b : Bool)
    (hr : r.surface.Plain G P a) (hs : s.surface.Plain G P b) (h : r.text G = s.text G) : r.surface = s.surface := by
  rw [TranspileRef.text_eq, TranspileRef.text_eq] at h
  exact hr.told hG _ _ hs h

/-- **C68, what holds for libraries**: libraries with the same source form have the same name, the same
dependencies with the same types used from them, and the same types: names, mnemonics of ids and definitions
are equal, in the same order. Missing: as for types; ids are shown by mnemonics only. -/
theorem C68_library_partial (G : Glyphs) (P : Byte → Prop) (hG : G.Clear P) (H : Hash) (l m : SymbolicLib)
    (hl : ∀ e ∈ l.types, (TranspileRef.surfaceTy e.2).Plain G P false)
    (hm : ∀ e ∈ m.types, (TranspileRef.surfaceTy e.2).Plain G P false) (h : l.text G H = m.text G H) :
    l.view G H = m.view G H :=
  view_inj hG H hl hm h

/-- **C68, the shipped texts**: the requirements on texts of primitive types and bounds hold for those in the
shipped files, whatever the ids, if the mnemonics are words with dashes. -/
theorem C68_shown_partial (id mnemo : Id32 → Bytes) (hm : ∀ i, ∀ c ∈ mnemo i, markChar c = true) (H : Hash)
    (l m : SymbolicLib) (hl : l.plainB (shownGlyphs id mnemo) (shownPrims.map Prod.fst) = true)
    (hm' : m.plainB (shownGlyphs id mnemo) (shownPrims.map Prod.fst) = true)
    (h : l.text (shownGlyphs id mnemo) H = m.text (shownGlyphs id mnemo) H) :
    l.view (shownGlyphs id mnemo) H = m.view (shownGlyphs id mnemo) H := by
  refine view_inj (shownGlyphs_clear hm) H (P := Shown) ?_ ?_ h
  · exact fun e he => Sty.plain_of_plainB (List.all_eq_true.1 hl e he)
  · exact fun e he => Sty.plain_of_plainB (List.all_eq_true.1 hm' e he)

/-- A library with a dependency, a type from it, and types of every form. -/
def exSource : SymbolicLib :=
  ⟨n!"Lib", [⟨Id32.rep 9, n!"Std"⟩], [(n!"Std", [(Id32.rep 7, n!"Bool")])],
    [(n!"A", .struct [(n!"x", .embedded (.primitive 1)), (n!"y", .named n!"B"),
        (n!"z", .embedded (.list (.embedded (.tuple [.embedded (.primitive 2), .named n!"B"])) ⟨1, 255⟩))]),
     (n!"B", .enum [⟨n!"p", 0⟩, ⟨n!"q", 1⟩, ⟨n!"r", 5⟩]),
     (n!"C", .union [(⟨n!"s", 0⟩, .embedded (.tuple [.embedded (.primitive 4), .embedded .unicodeChar])),
        (⟨n!"t", 3⟩, .extern ⟨n!"Std", n!"Bool", Id32.rep 9, Id32.rep 7⟩)]),
     (n!"D", .map (.named n!"B") (.embedded (.union [(⟨n!"none", 0⟩, .embedded (.primitive 0)),
        (⟨n!"some", 1⟩, .named n!"C")])) ⟨0, 65535⟩),
     (n!"E", .tuple [.embedded (.array (.embedded (.primitive 64)) 32)])]⟩

/-- Mnemonics for the example: the last byte of the id in decimal form. -/
def exMnemo (i : Id32) : Bytes := b!"word-" ++ decimal (i.bytes.getLast?.getD 0).toNat

example : ∀ i, ∀ c ∈ exMnemo i, markChar c = true := by
  intro i c hc
  rcases List.mem_append.1 hc with hc | hc
  · exact (by decide : ∀ c ∈ b!"word-", markChar c = true) c hc
  · exact decimal_mark _ c hc

/-- The example meets the hypotheses. -/
example : exSource.plainB (shownGlyphs exMnemo exMnemo) (shownPrims.map Prod.fst) = true := by decide +kernel

/-- The text of its third type. -/
example : TranspileRef.textTy (shownGlyphs exMnemo exMnemo) (exSource.types.getD 2 (n!"X", .unicodeChar)).2 =
    b!"s (U32, Unicode)" ++ newLine ++ b!"| t#3 Std.Bool" := by decide +kernel

/-! ## C69 -/

/-- **C69**: the full name of a type is read back from its text, nothing else is read, and everything else
stops the program. -/
theorem C69_full_name (s : Bytes) :
    (∀ f : TypeFqn, TypeFqn.fromStr s = .ok f ↔ s = f.text) ∧
    ((∀ f : TypeFqn, s ≠ f.text) → TypeFqn.fromStr s = .panic) := by
  have hr : ∀ f : TypeFqn, TypeFqn.fromStr f.text = .ok f := by
    intro f
    simp only [TypeFqn.fromStr, TypeFqn.text, splitDot_append f.lib.no_dot, Out.expect]
    simp
  cases hs : splitDot s with
  | none =>
    have hp : TypeFqn.fromStr s = .panic := by simp [TypeFqn.fromStr, hs, Out.expect]
    refine ⟨fun f => ⟨fun h => (by rw [hp] at h; cases h), fun h => (by rw [h]; exact hr f)⟩, fun _ => hp⟩
  | some p =>
    obtain ⟨a, b⟩ := p
    have he := splitDot_some hs
    cases ha : Name.ofBytes? a with
    | none =>
      have hp : TypeFqn.fromStr s = .panic := by simp [TypeFqn.fromStr, hs, Out.expect, ha]
      exact ⟨fun f => ⟨fun h => (by rw [hp] at h; cases h), fun h => (by rw [h]; exact hr f)⟩, fun _ => hp⟩
    | some l =>
      cases hb : Name.ofBytes? b with
      | none =>
        have hp : TypeFqn.fromStr s = .panic := by simp [TypeFqn.fromStr, hs, Out.expect, ha, hb]
        exact ⟨fun f => ⟨fun h => (by rw [hp] at h; cases h), fun h => (by rw [h]; exact hr f)⟩, fun _ => hp⟩
      | some n =>
        have hk : s = (TypeFqn.mk l n).text := by
          rw [he, Name.ofBytes?_eq_some.1 ha, Name.ofBytes?_eq_some.1 hb]; rfl
        refine ⟨fun f => ⟨fun h => ?_, fun h => (by rw [h]; exact hr f)⟩, fun h => absurd hk (h _)⟩
        rw [hk, hr] at h
        cases h
        exact hk

/-- Two dots, no dot, and a digit in front of a name are not read. -/
example : TypeFqn.fromStr b!"Std.Bool" = .ok ⟨n!"Std", n!"Bool"⟩ ∧ TypeFqn.fromStr b!"Std.Bool.x" = .panic ∧
    TypeFqn.fromStr b!"Std" = .panic ∧ TypeFqn.fromStr b!"Std.1x" = .panic := by decide +kernel

/-! ## Tags -/

theorem enumItems_consecutive {vs : List Variant} : ∀ {k : Nat}, k + vs.length ≤ 256 →
    (∀ i v, vs[i]? = some v → v.tag.toNat = k + i) →
    enumItems (BitVec.ofNat 8 k) vs = vs.map fun v => v.name.bytes := by
  induction vs with
  | nil => intros; rfl
  | cons v vs ih =>
    intro k hk h
    simp only [List.length_cons] at hk
    have hv : v.tag = BitVec.ofNat 8 k := BitVec.eq_of_toNat_eq (by rw [h 0 v rfl, BitVec.toNat_ofNat]; omega)
    rw [enumItems, tagMark, if_pos hv.symm, List.append_nil, List.map_cons]
    cases vs with
    | nil => rfl
    | cons w vs =>
      simp only [List.length_cons] at hk
      have hs : satSucc v.tag = BitVec.ofNat 8 (k + 1) := by
        have hne : v.tag ≠ 255 := by
          intro he
          have := h 0 v rfl
          rw [he] at this
          simp at this; omega
        rw [satSucc, if_neg hne, hv]
        apply BitVec.eq_of_toNat_eq
        simp
      rw [hs, ih (by simp only [List.length_cons]; omega) fun i u hu => by rw [h (i + 1) u (by simpa using hu)]; omega]

theorem unionItems_names {l : List (Variant × Bytes × Bool)} : ∀ {last : Byte},
    unionItems last l = ((enumItems last (l.map Prod.fst)).zip l).map fun p => p.1 ++ b!" " ++ parens p.2.2.2 p.2.2.1 := by
  induction l with
  | nil => intro _; rfl
  | cons p l ih =>
    obtain ⟨v, t, c⟩ := p
    intro last
    simp only [unionItems, List.map_cons, enumItems, List.zip_cons_cons, ih]

/-- **C68, tags**: the tags 0, 1, 2, ... of the variants of an enum or union are not shown. -/
theorem C68_tags :
    (∀ vs : List Variant, vs.length ≤ 256 → (∀ (i : Nat) (v : Variant), vs[i]? = some v → v.tag.toNat = i) →
      enumItems 0 vs = vs.map fun v => v.name.bytes) ∧
    (∀ l : List (Variant × Bytes × Bool), l.length ≤ 256 → (∀ (i : Nat) (v : Variant × Bytes × Bool), l[i]? = some v → v.1.tag.toNat = i) →
      unionItems 0 l = l.map fun v => v.1.name.bytes ++ b!" " ++ parens v.2.2 v.2.1) := by
  refine ⟨fun vs hl h => enumItems_consecutive (k := 0) (by omega) fun i v hv => by rw [h i v hv]; omega, fun l hl h => ?_⟩
  have := enumItems_consecutive (vs := l.map Prod.fst) (k := 0) (by rw [List.length_map]; omega) (by
    intro i v hv
    rw [List.getElem?_map] at hv
    cases hi : l[i]? with
    | none => rw [hi] at hv; cases hv
    | some p => rw [hi] at hv; cases hv; rw [h i p hi]; omega)
  rw [unionItems_names]
  show ((enumItems (BitVec.ofNat 8 0) (l.map Prod.fst)).zip l).map _ = _
  rw [this]
  clear this h hl
  induction l with
  | nil => rfl
  | cons p l ih => simp only [List.map_cons, List.zip_cons_cons, ih]

example : enumItems 0 [⟨n!"a", 0⟩, ⟨n!"b", 1⟩, ⟨n!"c", 5⟩] = [b!"a", b!"b", b!"c#5"] := by decide

end Verif
