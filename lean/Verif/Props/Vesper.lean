import Verif.Lemmas.Vesper
import Verif.Props.Layout
import Verif.Spec.Text

/-!
# C73: text of layouts
-/

namespace Verif

/-- **C73 is violated** by values of an enumeration called `tag` or `len`, and by types with the name of another
label: different labels have the same text. -/
theorem C73_labels_violated (G : Glyphs) (t : Byte) (p : Byte) (n : Name) (hn : n.bytes = G.prim p) :
    Attr.text G (.enumVariant t n!"tag") = Attr.text G (.tag t) ∧
    Attr.text G (.enumVariant t n!"len") = Attr.text G (.len (t.setWidth 16)) ∧
    Attr.text G (.typeName n!"option") = Attr.text G .option ∧
    Attr.text G (.typeName n!"wrapped") = Attr.text G (.wrapped none) ∧
    Attr.text G (.typeName n) = Attr.text G (.prim p) := by
  refine ⟨rfl, ?_, rfl, rfl, hn⟩
  simp only [Attr.text, Attr.name, Attr.value]
  congr 2

/-- **C73, ranges**: the bounds of a collection are told by their text, also with the names of upper bounds. -/
theorem C73_ranges {a b c d : BitVec 64} : rangeText a b = rangeText c d ↔ a = c ∧ b = d :=
  ⟨rangeText_inj, by rintro ⟨rfl, rfl⟩; rfl⟩

/-- **C73, meaning of ranges**: the text of a range is the lower bound, two dots and a text meaning the upper
bound. -/
theorem C73_ranges_meaning (lo hi : BitVec 64) :
    ∃ u, rangeText lo hi = decimal lo.toNat ++ b!".." ++ u ∧ BoundText u hi.toNat := by
  refine ⟨upperText hi, rfl, ?_⟩
  unfold upperText
  split
  · next h => subst h; exact .named (k := 8) (by simp) rfl
  split
  · next h => subst h; exact .named (k := 16) (by simp) rfl
  split
  · next h => subst h; exact .named (k := 24) (by simp) rfl
  split
  · next h => subst h; exact .named (k := 32) (by simp) rfl
  split
  · next h => subst h; exact .named (k := 64) (by simp) rfl
  next h1 h2 h3 h4 h5 =>
    refine .number fun k hk he => ?_
    have key : ∀ x : BitVec 64, hi ≠ x → hi.toNat ≠ x.toNat := fun x hx he => hx (BitVec.eq_of_toNat_eq he)
    have k1 := key _ h1
    have k2 := key _ h2
    have k3 := key _ h3
    have k4 := key _ h4
    have k5 := key _ h5
    simp at k1 k2 k3 k4 k5
    simp only [List.mem_cons, List.not_mem_nil, or_false] at hk
    rcases hk with rfl | rfl | rfl | rfl | rfl <;> omega

/-- **C73, labels**: labels are told by their text, if type names are none of the words for other labels and no
value of an enumeration is called `tag` or `len`. -/
theorem C73_labels_partial {G : Glyphs} {P : Byte → Prop} (hG : G.Words P) {a b : Attr} (ha : a.Clear G P)
    (hb : b.Clear G P) : a.text G = b.text G ↔ a = b :=
  ⟨Attr.text_inj hG ha hb, by rintro rfl; rfl⟩

/-- **C73**: layouts are told by their text: the lines, what is below what, subjects, predicates and labels. What
is missing: labels that have the text of others, see `C73_labels_violated`. -/
theorem C73_layouts_partial {G : Glyphs} {P : Byte → Prop} (hG : G.Words P) {e f : VExpr} (he : e.Clear G P)
    (hf : f.Clear G P) : e.text G 0 = f.text G 0 ↔ e = f := by
  constructor
  · intro h
    exact (text_split hG 0 e f [] [] he hf (.inl rfl) (.inl rfl) (by rw [h])).1
  · rintro rfl; rfl

/-- **C73, types**: from the text of the layout of a type that is not optional one reads off how many items there
are, and of each the values of an enumeration, the primitive type, the length of an array, the bounds of a
collection, and the tag as a variant. What is missing: labels that have the text of others, see
`C73_labels_violated`. -/
theorem C73_types_partial {G : Glyphs} {P : Byte → Prop} (hG : G.Words P) (H : Hash) (debug : Bool)
    {maxAttrs maxContent : Nat} {S S' : SymbolicSys} {rank wraps rank' wraps' : SemId → Nat}
    (hS : S.Outlined debug rank wraps) (hS' : S'.Outlined debug rank' wraps') {id id' : SemId}
    (hroot : ¬ S.IsOptional id) (hroot' : ¬ S'.IsOptional id') {T T' : LTree} (hT : Outline H S id T)
    (hT' : Outline H S' id' T') (hl : ∀ i ∈ T.items, i.Labelled maxAttrs) (hl' : ∀ i ∈ T'.items, i.Labelled maxAttrs)
    (hc : T.items.length ≤ maxContent) (hc' : T'.items.length ≤ maxContent)
    (hi : ∀ i ∈ T.items, i.Clear G P) (hi' : ∀ i ∈ T'.items, i.Clear G P) :
    ∃ e e', toVesper H debug maxAttrs maxContent T.items = .ok e ∧
      toVesper H debug maxAttrs maxContent T'.items = .ok e' ∧
      (e.text G 0 = e'.text G 0 → T.items.length = T'.items.length ∧ ∀ (k : Nat) (i j : TypeInfo),
        T.items[k]? = some i → T'.items[k]? = some j → i.ty.values = j.ty.values ∧ i.ty.code = j.ty.code ∧
        i.ty.arrayLen = j.ty.arrayLen ∧ i.tag? = j.tag? ∧
        ∀ a b, i.ty.bounds = some a → j.ty.bounds = some b → a = b) := by
  obtain ⟨head, hh, e, he, hm⟩ := C49_preorder_partial H debug hS hroot hT hl hc
  obtain ⟨head', hh', e', he', hm'⟩ := C49_preorder_partial H debug hS' hroot' hT' hl' hc'
  refine ⟨e, e', he, he', fun ht => ?_⟩
  have clear : ∀ {T : LTree} {e : VExpr} {head : TypeInfo → VHead}, (∀ i ∈ T.items, i.Clear G P) →
      (∀ i ∈ T.items, i.toVesper H maxAttrs = .ok (head i)) → e.heads = T.items.map head → e.Clear G P := by
    intro T e head hi hh hm h hmem
    rw [hm, List.mem_map] at hmem
    obtain ⟨i, hmem, rfl⟩ := hmem
    exact toVesper_clear (hi i hmem) (hh i hmem)
  have heq : e = e' := (C73_layouts_partial hG (clear hi hh hm) (clear hi' hh' hm')).1 ht
  subst heq
  rw [hm] at hm'
  refine ⟨by simpa using congrArg List.length hm', fun k i j hik hjk => ?_⟩
  have h1 : head i = head' j := by
    have := congrArg (·[k]?) hm'
    simpa [hik, hjk] using this
  obtain ⟨a1, a2, a3, a4, a5⟩ := toVesper_reads (hh i (List.mem_of_getElem? hik))
  obtain ⟨b1, b2, b3, b4, b5⟩ := toVesper_reads (hh' j (List.mem_of_getElem? hjk))
  rw [← h1] at b1 b2 b3 b4 b5
  have ol : ∀ {α : Type} {a b : Option α}, a.toList = b.toList → a = b := by
    intro α a b h; cases a <;> cases b <;> simp_all
  refine ⟨a1.symm.trans b1, ol (a2.symm.trans b2), ol (a3.symm.trans b3), ol (a4.symm.trans b4), fun a b ha hb => ?_⟩
  have := (a5 a ha).symm.trans (b5 b hb)
  simpa using this

/-! ## Example -/

/-- The texts in the shipped files. -/
def exGlyphs : Glyphs := shownGlyphs (fun _ => []) fun _ => []

/-- The codes of the numbers in the shipped files. -/
def exCodes (p : Byte) : Prop := p = 1 ∨ p = 2 ∨ p = 4 ∨ p = 8 ∨ p = 64

instance : DecidablePred exCodes := fun _ => by unfold exCodes; infer_instance

theorem exGlyphs_words : exGlyphs.Words exCodes where
  word p hp := by rcases hp with rfl | rfl | rfl | rfl | rfl <;> decide
  inj p q hp hq h := by
    rcases hp with rfl | rfl | rfl | rfl | rfl <;> rcases hq with rfl | rfl | rfl | rfl | rfl <;>
      first | rfl | exact absurd h (by decide)
  apart p hp := by rcases hp with rfl | rfl | rfl | rfl | rfl <;> decide

/-- The layout of the example: its text, and that its labels are told from others. -/
example (debug : Bool) : (match layout toyHash debug 100 exLay (Id32.rep 9) with
    | .ok l => match toVesper toyHash debug 255 255 l with
      | .ok e => decide (e.text exGlyphs 0 = b!"rec Main\n  ascii name, aka Name, len 1..11\n  list cases, len 0..MAX8\n    union element\n      is a, U8, tag 0\n      bytes b, len 0..MAX8, tag 1\n")
      | _ => false
    | _ => false) = true := by
  cases debug <;> decide +kernel

/-- A check for `TypeInfo.Clear` with the texts of the example. -/
def TypeInfo.clearB (i : TypeInfo) : Bool :=
  (match i.fqn with
    | some f => f.name != n!"Unit" && f.name != n!"option" && f.name != n!"wrapped" &&
      [1, 2, 4, 8, 64].all fun p => f.name.bytes != exGlyphs.prim p
    | none => true) &&
  (match i.ty with
    | .enum vs => vs.all fun v => v.name != n!"tag" && v.name != n!"len"
    | .primitive p => p == Ty.UNIT_CODE || decide (exCodes p)
    | _ => true)

theorem TypeInfo.clearB_sound {i : TypeInfo} (h : i.clearB = true) : i.Clear exGlyphs exCodes := by
  rw [TypeInfo.clearB, Bool.and_eq_true] at h
  obtain ⟨h1, h2⟩ := h
  refine ⟨fun f hf => ?_, fun vs hv v hm => ?_, fun p hp => ?_⟩
  · rw [hf] at h1
    simp only [Bool.and_eq_true, bne_iff_ne, List.all_eq_true] at h1
    refine ⟨h1.1.1.1, h1.1.1.2, h1.1.2, fun p hp => h1.2 p ?_⟩
    rcases hp with rfl | rfl | rfl | rfl | rfl <;> decide
  · rw [hv] at h2
    simp only [Bool.and_eq_true, bne_iff_ne, List.all_eq_true] at h2
    exact h2 v hm
  · rw [hp] at h2
    simpa using h2

example (debug : Bool) : match layout toyHash debug 100 exLay (Id32.rep 9) with
    | .ok l => ∀ i ∈ l, i.Clear exGlyphs exCodes
    | _ => False := by
  have h : (match layout toyHash debug 100 exLay (Id32.rep 9) with
    | .ok l => l.all TypeInfo.clearB
    | _ => false) = true := by cases debug <;> decide +kernel
  split at h
  · intro i hi
    exact TypeInfo.clearB_sound (List.all_eq_true.1 h i hi)
  · cases h

example : rangeText 1 0xffff = b!"1..MAX16" ∧ rangeText 0 0x10000 = b!"0..65536" := by decide

end Verif
