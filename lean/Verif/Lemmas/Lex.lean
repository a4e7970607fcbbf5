import Verif.Spec.Text
import Verif.Lemmas.Util

/-!
# Items and gaps of a text

A text falls apart into items, in which brackets are balanced and which have no spaces, commas and line breaks
outside of brackets, and the gaps between them. The items and gaps are determined by the text.
-/

namespace Verif

/-- Spaces, commas and line breaks. -/
def gapChar (c : Byte) : Bool := c == 32 || c == 44 || c == 10

def openChar (c : Byte) : Bool := c == 40 || c == 91 || c == 123

def closeChar (c : Byte) : Bool := c == 41 || c == 93 || c == 125

/-- One step in an item: the depth of brackets. No next state: the character is not of the item. -/
def itemStep (d : Nat) (c : Byte) : Option Nat :=
  if openChar c then some (d + 1)
  else if closeChar c then (if d = 0 then none else some (d - 1))
  else if gapChar c then (if d = 0 then none else some d)
  else some d

def itemScan : Nat → Bytes → Option Nat
  | d, [] => some d
  | d, c :: s => (itemStep d c).bind fun e => itemScan e s

theorem itemScan_append {s : Bytes} : ∀ {d : Nat} {t : Bytes},
    itemScan d (s ++ t) = (itemScan d s).bind fun e => itemScan e t := by
  induction s with
  | nil => intro d t; rfl
  | cons c s ih =>
    intro d t
    simp only [List.cons_append, itemScan]
    cases itemStep d c with
    | none => rfl
    | some p => exact ih

/-- A text that can stand at depth `d` or deeper. -/
def Balanced (d : Nat) (s : Bytes) : Prop := ∀ e, d ≤ e → itemScan e s = some e

theorem Balanced.nil {d : Nat} : Balanced d [] := fun _ _ => rfl

theorem Balanced.append {d : Nat} {s t : Bytes} (hs : Balanced d s) (ht : Balanced d t) : Balanced d (s ++ t) := by
  intro e he
  rw [itemScan_append, hs e he]
  exact ht e he

theorem Balanced.deeper {d e : Nat} {s : Bytes} (h : Balanced d s) (he : d ≤ e) : Balanced e s :=
  fun f hf => h f (Nat.le_trans he hf)

/-- Characters without meaning. -/
def inert (c : Byte) : Bool := !(openChar c || closeChar c || gapChar c)

theorem inert_word {c : Byte} (h : isAlphaNumLodash c = true) : inert c = true := by
  revert c; decide +kernel

theorem inert_mark {c : Byte} (h : markChar c = true) : inert c = true := by
  revert c; decide +kernel

theorem Balanced.inert {s : Bytes} (h : ∀ c ∈ s, inert c = true) : Balanced 0 s := by
  intro e _
  induction s with
  | nil => rfl
  | cons c s ih =>
    have hc := h c (by simp)
    simp only [Verif.inert, Bool.not_eq_true', Bool.or_eq_false_iff] at hc
    simp only [itemScan, itemStep, hc, Option.bind_some, Bool.false_eq_true, if_false]
    exact ih fun c hc => h c (by simp [hc])

theorem Balanced.gap {s : Bytes} (h : ∀ c ∈ s, gapChar c = true) : Balanced 1 s := by
  intro e he
  induction s with
  | nil => rfl
  | cons c s ih =>
    have hc := h c (by simp)
    have h1 : ∀ c, gapChar c = true → openChar c = false ∧ closeChar c = false := by decide +kernel
    have he : e ≠ 0 := by omega
    simp only [itemScan, itemStep, hc, h1 c hc, Option.bind_some, Bool.false_eq_true, if_false, he, if_true]
    exact ih fun c hc => h c (by simp [hc])

theorem Balanced.bracket {a b : Byte} {s : Bytes} (ha : openChar a = true) (hb : closeChar b = true)
    (h : Balanced 1 s) : Balanced 0 ([a] ++ s ++ [b]) := by
  intro e _
  have hb' : openChar b = false := by revert b; decide +kernel
  rw [List.append_assoc, itemScan_append]
  simp only [itemScan, itemStep, ha, if_true, Option.bind_some]
  rw [itemScan_append, h _ (by omega)]
  simp [itemScan, itemStep, hb, hb']

/-- An item. -/
structure Item (s : Bytes) : Prop where
  ne : s ≠ []
  bal : Balanced 0 s

theorem Item.head {c : Byte} {s : Bytes} (h : Item (c :: s)) : gapChar c = false := by
  have h1 := h.bal 0 (Nat.le_refl _)
  have h2 : ∀ c, gapChar c = true → openChar c = false ∧ closeChar c = false := by decide +kernel
  cases hg : gapChar c with
  | false => rfl
  | true => simp [itemScan, itemStep, hg, h2 c hg] at h1

/-- The end of an item is determined by the text. -/
theorem Item.extent {a b r s : Bytes} (ha : Item a) (hb : Item b) (hr : ∀ c ∈ r.head?, gapChar c = true)
    (hs : ∀ c ∈ s.head?, gapChar c = true) (h : a ++ r = b ++ s) : a = b ∧ r = s := by
  have hg : ∀ c, gapChar c = true → openChar c = false ∧ closeChar c = false := by decide +kernel
  have key : ∀ {a c r : Bytes}, Balanced 0 a → Balanced 0 (a ++ c) → (∀ x ∈ (c ++ r).head?, gapChar x = true) → c = [] := by
    intro a c r ha hb hr
    cases c with
    | nil => rfl
    | cons x c =>
      have h1 := hb 0 (Nat.le_refl _)
      rw [itemScan_append, ha 0 (Nat.le_refl _)] at h1
      have h2 := hr x (by simp)
      simp [itemScan, itemStep, h2, hg x h2] at h1
  rcases List.append_eq_append_iff.1 h with ⟨c, rfl, rfl⟩ | ⟨c, rfl, rfl⟩
  · have := key ha.bal hb.bal hr
    subst this; simp
  · have := key hb.bal ha.bal hs
    subst this; simp

/-! ## Lexed texts -/

/-- The text of items and gaps. -/
def flat (L : List (Bytes × Bytes)) : Bytes := L.flatMap fun p => p.1 ++ p.2

theorem flat_nil : flat [] = [] := rfl
theorem flat_cons (p : Bytes × Bytes) (L : List (Bytes × Bytes)) : flat (p :: L) = p.1 ++ p.2 ++ flat L := rfl
theorem flat_append (L M : List (Bytes × Bytes)) : flat (L ++ M) = flat L ++ flat M := List.flatMap_append

/-- Items and gaps; only the last gap may be empty. -/
inductive Lexed : List (Bytes × Bytes) → Prop
  | nil : Lexed []
  | last {i g : Bytes} : Item i → (∀ c ∈ g, gapChar c = true) → Lexed [(i, g)]
  | cons {i g : Bytes} {L : List (Bytes × Bytes)} : Item i → g ≠ [] → (∀ c ∈ g, gapChar c = true) → Lexed L →
      Lexed ((i, g) :: L)

theorem Lexed.inv {i g : Bytes} {L : List (Bytes × Bytes)} (h : Lexed ((i, g) :: L)) :
    Item i ∧ (∀ c ∈ g, gapChar c = true) ∧ (L ≠ [] → g ≠ []) ∧ Lexed L := by
  cases h with
  | last hi hg => exact ⟨hi, hg, fun h => absurd rfl h, .nil⟩
  | cons hi hn hg hL => exact ⟨hi, hg, fun _ => hn, hL⟩

theorem Lexed.head {L : List (Bytes × Bytes)} (h : Lexed L) : ∀ c ∈ (flat L).head?, gapChar c = false := by
  match L, h with
  | [], _ => simp [flat]
  | (i, g) :: L, h =>
    obtain ⟨hi, -, -, -⟩ := h.inv
    match i, hi with
    | [], hi => exact absurd rfl hi.ne
    | c :: i, hi =>
      intro x hx
      simp [flat] at hx
      subst hx
      exact hi.head

theorem Lexed.unique : ∀ {L M : List (Bytes × Bytes)}, Lexed L → Lexed M → flat L = flat M → L = M := by
  have empty : ∀ {i g : Bytes} {L : List (Bytes × Bytes)}, Lexed ((i, g) :: L) → flat ((i, g) :: L) ≠ [] := by
    intro i g L h e
    simp only [flat_cons, List.append_eq_nil_iff] at e
    exact h.inv.1.ne e.1.1
  intro L
  induction L with
  | nil =>
    intro M _ hM h
    match M, hM, h with
    | [], _, _ => rfl
    | (i, g) :: M, hM, h => exact absurd h.symm (empty hM)
  | cons p L ih =>
    obtain ⟨i, g⟩ := p
    intro M hL hM h
    match M, hM, h with
    | [], _, h => exact absurd h (empty hL)
    | (j, k) :: M, hM, h =>
      obtain ⟨hi, hg, hgn, hL'⟩ := hL.inv
      obtain ⟨hj, hk, hkn, hM'⟩ := hM.inv
      simp only [flat_cons, List.append_assoc] at h
      have hh : ∀ {g : Bytes} {L : List (Bytes × Bytes)}, (∀ c ∈ g, gapChar c = true) → (L ≠ [] → g ≠ []) →
          ∀ c ∈ (g ++ flat L).head?, gapChar c = true := by
        intro g L hg hgn c hc
        cases g with
        | nil =>
          cases L with
          | nil => simp [flat] at hc
          | cons p L => exact absurd rfl (hgn (by simp))
        | cons x g =>
          simp at hc
          subst hc
          exact hg _ (by simp)
      obtain ⟨h1, h2⟩ := Item.extent hi hj (hh hg hgn) (hh hk hkn) h
      obtain ⟨h3, h4⟩ := append_span hg hk hL'.head hM'.head h2
      rw [h1, h3, ih hL' hM' h4]

theorem Lexed.balanced {L : List (Bytes × Bytes)} (h : Lexed L) : Balanced 1 (flat L) := by
  induction h with
  | nil => exact .nil
  | last hi hg =>
    rw [flat_cons, flat_nil, List.append_nil]
    exact (hi.bal.deeper (by omega)).append (.gap hg)
  | cons hi _ hg _ ih =>
    rw [flat_cons]
    exact ((hi.bal.deeper (by omega)).append (.gap hg)).append ih

/-- Extends the last gap. -/
def addGap (g : Bytes) : List (Bytes × Bytes) → List (Bytes × Bytes)
  | [] => []
  | [p] => [(p.1, p.2 ++ g)]
  | p :: q :: L => p :: addGap g (q :: L)

theorem addGap_ne {g : Bytes} {L : List (Bytes × Bytes)} (h : L ≠ []) : addGap g L ≠ [] := by
  match L, h with
  | [_], _ => simp [addGap]
  | _ :: _ :: _, _ => simp [addGap]

theorem flat_addGap {g : Bytes} : ∀ {L : List (Bytes × Bytes)}, L ≠ [] → flat (addGap g L) = flat L ++ g
  | [(i, h)], _ => by simp [addGap, flat]
  | p :: q :: L, _ => by
    rw [addGap, flat_cons, flat_addGap (by simp), flat_cons p]; simp only [List.append_assoc]

theorem items_addGap {g : Bytes} : ∀ {L : List (Bytes × Bytes)}, (addGap g L).map Prod.fst = L.map Prod.fst
  | [] => rfl
  | [(i, h)] => rfl
  | p :: q :: L => by simp only [addGap, List.map_cons, items_addGap]

theorem addGap_inj {g : Bytes} : ∀ {L M : List (Bytes × Bytes)}, addGap g L = addGap g M → L = M
  | [], [], _ => rfl
  | [], [(i, h)], e => by simp [addGap] at e
  | [], p :: q :: M, e => by simp [addGap] at e
  | [(i, h)], [], e => by simp [addGap] at e
  | [(i, h)], [(j, k)], e => by simpa [addGap] using e
  | [(i, h)], p :: q :: M, e => by
    simp only [addGap, List.cons.injEq] at e
    exact absurd e.2.symm (addGap_ne (by simp))
  | p :: q :: L, [], e => by simp [addGap] at e
  | p :: q :: L, [(j, k)], e => by
    simp only [addGap, List.cons.injEq] at e
    exact absurd e.2 (addGap_ne (by simp))
  | p :: q :: L, p' :: q' :: M, e => by
    simp only [addGap, List.cons.injEq] at e
    rw [e.1, addGap_inj e.2]

/-- Items follow a gap. -/
theorem Lexed.append {g : Bytes} {M : List (Bytes × Bytes)} (hn : g ≠ []) (hg : ∀ c ∈ g, gapChar c = true)
    (hM : Lexed M) : ∀ {L : List (Bytes × Bytes)}, Lexed L → Lexed (addGap g L ++ M)
  | [], _ => by simpa [addGap] using hM
  | [(i, h)], hL => by
    obtain ⟨hi, hh, -, -⟩ := hL.inv
    refine .cons hi (by simp [hn]) ?_ hM
    intro c hc
    rcases List.mem_append.1 hc with hc | hc
    · exact hh c hc
    · exact hg c hc
  | (i, h) :: q :: L, hL => by
    obtain ⟨hi, hh, hne, hL'⟩ := hL.inv
    exact .cons hi (hne (by simp)) hh (Lexed.append hn hg hM hL')

theorem Lexed.addGap {g : Bytes} (hg : ∀ c ∈ g, gapChar c = true) {L : List (Bytes × Bytes)} (hL : Lexed L) :
    Lexed (Verif.addGap g L) := by
  by_cases hn : g = []
  · subst hn
    have : ∀ L, Verif.addGap [] L = L := by
      intro L
      induction L with
      | nil => rfl
      | cons p L ih =>
        cases L with
        | nil => simp [Verif.addGap]
        | cons q L => rw [Verif.addGap, ih]
    rwa [this]
  · simpa using Lexed.append hn hg .nil hL

end Verif
