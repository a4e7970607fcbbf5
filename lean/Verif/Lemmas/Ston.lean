import Verif.Model.Ston
import Verif.Spec.Ston
import Verif.Spec.Value
import Verif.Lemmas.Util
import Verif.Lemmas.Ast

/-!
# The text of a value determines it

A scanner that knows only brackets and quotation marks finds the end of every item of a text.
-/

namespace Verif

/-- One step of the scanner: depth of brackets, and whether inside of a string. No next state: the
character ends the item. -/
def scanStep (d : Nat) (q : Bool) (c : Byte) : Option (Nat × Bool) :=
  if q then some (d, c ≠ 34)
  else if c = 34 then some (d, true)
  else if c = 40 ∨ c = 91 ∨ c = 123 then some (d + 1, false)
  else if c = 41 ∨ c = 93 ∨ c = 125 then (if d = 0 then none else some (d - 1, false))
  else if c = 44 ∨ c = 32 then (if d = 0 then none else some (d, false))
  else some (d, false)

def scan : Nat → Bool → Bytes → Option (Nat × Bool)
  | d, q, [] => some (d, q)
  | d, q, c :: s => (scanStep d q c).bind fun p => scan p.1 p.2 s

theorem scan_append {s : Bytes} : ∀ {d : Nat} {q : Bool} {t : Bytes},
    scan d q (s ++ t) = (scan d q s).bind fun p => scan p.1 p.2 t := by
  induction s with
  | nil => intro d q t; rfl
  | cons c s ih =>
    intro d q t
    simp only [List.cons_append, scan]
    cases scanStep d q c with
    | none => rfl
    | some p => exact ih

/-- A text that can stand at depth `d` or deeper. -/
def Closed (d : Nat) (s : Bytes) : Prop := ∀ e, d ≤ e → scan e false s = some (e, false)

theorem Closed.nil {d : Nat} : Closed d [] := fun _ _ => rfl

theorem Closed.append {d : Nat} {s t : Bytes} (hs : Closed d s) (ht : Closed d t) : Closed d (s ++ t) := by
  intro e he
  rw [scan_append, hs e he]
  exact ht e he

theorem Closed.deeper {d e : Nat} {s : Bytes} (h : Closed d s) (he : d ≤ e) : Closed e s :=
  fun f hf => h f (Nat.le_trans he hf)

/-- Characters without meaning for the scanner. -/
def plain (c : Byte) : Bool :=
  !(c = 34 || c = 40 || c = 91 || c = 123 || c = 41 || c = 93 || c = 125 || c = 44 || c = 32)

theorem plain_word {c : Byte} (h : isAlphaNumLodash c = true) : plain c = true := by
  revert c; decide +kernel

theorem Closed.plain {s : Bytes} (h : ∀ c ∈ s, plain c = true) : Closed 0 s := by
  intro e _
  induction s with
  | nil => rfl
  | cons c s ih =>
    have hc := h c (by simp)
    simp only [Verif.plain, Bool.not_eq_true', Bool.or_eq_false_iff, decide_eq_false_iff_not] at hc
    obtain ⟨⟨⟨⟨⟨⟨⟨⟨h1, h2⟩, h3⟩, h4⟩, h5⟩, h6⟩, h7⟩, h8⟩, h9⟩ := hc
    simp only [scan, scanStep, h1, h2, h3, h4, h5, h6, h7, h8, h9, Option.bind_some, if_false,
      Bool.false_eq_true, or_self]
    exact ih fun c hc => h c (by simp [hc])

theorem Closed.bracket {a b : Byte} {s : Bytes} (ha : a = 40 ∨ a = 91 ∨ a = 123) (hb : b = 41 ∨ b = 93 ∨ b = 125)
    (h : Closed 1 s) : Closed 0 ([a] ++ s ++ [b]) := by
  intro e _
  rw [List.append_assoc, scan_append]
  have h1 : scan e false [a] = some (e + 1, false) := by
    rcases ha with rfl | rfl | rfl <;> simp [scan, scanStep]
  rw [h1]
  simp only [Option.bind_some]
  rw [scan_append, h _ (by omega)]
  simp only [Option.bind_some]
  rcases hb with rfl | rfl | rfl <;> simp [scan, scanStep]

theorem Closed.sep : Closed 1 b!", " := by
  intro e he
  have h : e ≠ 0 := by omega
  simp [scan, scanStep, h]

theorem Closed.space : Closed 1 b!" " := by
  intro e he
  have h : e ≠ 0 := by omega
  simp [scan, scanStep, h]

theorem Closed.arrow : Closed 1 b!" -> " := by
  intro e he
  have h : e ≠ 0 := by omega
  simp [scan, scanStep, h]

theorem scan_quoted {s : Bytes} {d : Nat} (h : (34 : Byte) ∉ s) : scan d true s = some (d, true) := by
  induction s with
  | nil => rfl
  | cons c s ih =>
    have hc : c ≠ 34 := fun hc => h (by simp [hc])
    simp only [scan, scanStep, if_true, Option.bind_some, hc, ne_eq, not_false_eq_true, decide_true]
    exact ih fun hs => h (List.mem_cons_of_mem _ hs)

theorem Closed.quoted {s : Bytes} (h : (34 : Byte) ∉ s) : Closed 0 (b!"\"" ++ s ++ b!"\"") := by
  intro e _
  rw [List.append_assoc, scan_append]
  have h1 : scan e false b!"\"" = some (e, true) := by simp [scan, scanStep]
  rw [h1]
  simp only [Option.bind_some]
  rw [scan_append, scan_quoted h]
  simp [scan, scanStep]

/-- The character ends an item. -/
def Stops (r : Bytes) : Prop := ∀ c ∈ r.head?, scanStep 0 false c = none

/-- The end of an item is determined by the text. -/
theorem Closed.extent {a b r s : Bytes} (ha : Closed 0 a) (hb : Closed 0 b) (hr : Stops r) (hs : Stops s)
    (h : a ++ r = b ++ s) : a = b ∧ r = s := by
  have key : ∀ {a c r : Bytes}, Closed 0 a → Closed 0 (a ++ c) → Stops (c ++ r) → c = [] := by
    intro a c r ha hb hr
    cases c with
    | nil => rfl
    | cons x c =>
      have h1 := hb 0 (Nat.le_refl _)
      rw [scan_append, ha 0 (Nat.le_refl _)] at h1
      have h2 := hr x (by simp)
      simp [scan, h2] at h1
  rcases List.append_eq_append_iff.1 h with ⟨c, rfl, rfl⟩ | ⟨c, rfl, rfl⟩
  · have := key ha hb hr
    subst this; simp
  · have := key hb ha hs
    subst this; simp

/-! ## Texts of values -/

theorem digit_plain {c : Byte} (h : isDigit c = true) : plain c = true := plain_word (isDigit_alphaNum h)

theorem decimal_closed (n : Nat) : Closed 0 (decimal n) :=
  .plain fun c hc => digit_plain (decimal_digit c hc)

theorem decimalInt_closed (i : Int) : Closed 0 (decimalInt i) := by
  unfold decimalInt
  split
  · exact Closed.append (.plain (by decide)) (decimal_closed _)
  · exact decimal_closed _

theorem Num.display_closed : (n : Num) → Closed 0 n.display
  | .uint n => decimal_closed n.toNat
  | .bigUint n => decimal_closed n.toNat
  | .int n => decimalInt_closed n.toInt
  | .bigInt n => decimalInt_closed n.toInt

theorem Name.closed (n : Name) : Closed 0 n.bytes := .plain fun c hc => plain_word (n.chars c hc)

theorem Tag.display_closed (t : Tag) : Closed 0 t.display := by
  cases t
  · exact Name.closed _
  · exact decimal_closed _

theorem hexDigit_plain (n : Nat) (h : n < 16) : plain (hexDigit n) = true := by
  have : ∀ n : Fin 16, plain (hexDigit n.1) = true := by decide
  exact this ⟨n, h⟩

theorem toHex_closed (b : Bytes) : Closed 0 (toHex b) := by
  apply Closed.plain
  intro c hc
  simp only [toHex, List.mem_flatMap, List.mem_cons, List.not_mem_nil, or_false] at hc
  obtain ⟨x, -, rfl | rfl⟩ := hc <;> exact hexDigit_plain _ (by omega)

/-- The text of an item. -/
def Val.item (v : Val) : Bytes := parens v.needsParens v.ston

/-- The text of a value is closed where it is written. -/
def Val.TextOk (v : Val) : Prop := Closed (if v.needsParens then 1 else 0) v.ston

theorem Val.TextOk.item {v : Val} (h : v.TextOk) : Closed 0 v.item := by
  unfold TextOk at h
  unfold Val.item parens
  split
  · rw [if_pos ‹_›] at h
    exact .bracket (.inl rfl) (.inl rfl) h
  · rw [if_neg ‹_›] at h; exact h

theorem Val.TextOk.deep {v : Val} (h : v.TextOk) : Closed 1 v.ston := by
  unfold TextOk at h
  split at h
  · exact h
  · exact h.deeper (by omega)

theorem ifSep_closed {α : Type} (l : List α) : Closed 1 (if l.isEmpty then [] else b!", ") := by
  split
  · exact .nil
  · exact .sep

theorem stonItems_closed : ∀ {l : List Val}, (∀ v ∈ l, v.TextOk) → Closed 1 (Val.stonItems l)
  | [], _ => .nil
  | v :: l, h => by
    unfold Val.stonItems
    exact ((h v (by simp)).item.deeper (by omega) |>.append (ifSep_closed l)).append
      (stonItems_closed fun w hw => h w (by simp [hw]))

theorem stonFields_closed : ∀ {l : List (Name × Val)}, (∀ f ∈ l, f.2.TextOk) → Closed 1 (Val.stonFields l)
  | [], _ => .nil
  | (n, v) :: l, h => by
    unfold Val.stonFields Val.stonField
    exact ((((n.closed.deeper (by omega)).append .space).append
      ((h (n, v) (by simp)).item.deeper (by omega))).append (ifSep_closed l)).append
      (stonFields_closed fun w hw => h w (by simp [hw]))

theorem stonPairs_closed : ∀ {l : List (Val × Val)}, (∀ p ∈ l, p.1.TextOk ∧ p.2.TextOk) →
    Closed 1 (Val.stonPairs l)
  | [], _ => .nil
  | (k, v) :: l, h => by
    unfold Val.stonPairs Val.stonPair
    exact ((((h (k, v) (by simp)).1.deep.append .arrow).append
      ((h (k, v) (by simp)).2.item.deeper (by omega))).append (ifSep_closed l)).append
      (stonPairs_closed fun w hw => h w (by simp [hw]))

theorem Val.QuoteFree.textOk {v : Val} (h : v.QuoteFree) : v.TextOk := by
  induction h with
  | unit =>
    intro e _
    simp [Val.ston, scan, scanStep]
  | num => exact Num.display_closed _
  | str h => exact .quoted h
  | bytes => exact Closed.append (.plain (by decide)) (toHex_closed _)
  | enum => exact Tag.display_closed _
  | @union t v _ ih =>
    unfold Val.TextOk
    rw [if_neg (by simp [Val.needsParens])]
    unfold Val.ston
    split
    · exact .plain (by decide)
    · exact (ih.item.append (.plain (by decide))).append (Tag.display_closed _)
  | @tuple l _ ih =>
    unfold Val.TextOk
    split
    · exact stonItems_closed ih
    · match l, ih with
      | [], _ => exact .nil
      | [v], ih =>
        simp only [Val.ston, Val.stonItems, List.isEmpty_nil, if_true, List.append_nil]
        exact (ih v (by simp)).item
      | _ :: _ :: _, _ => simp_all [Val.needsParens]
  | struct _ ih => exact stonFields_closed ih
  | list _ ih => exact .bracket (.inr (.inl rfl)) (.inr (.inl rfl)) (stonItems_closed ih)
  | set _ ih => exact .bracket (.inr (.inr rfl)) (.inr (.inr rfl)) (stonItems_closed ih)
  | map _ _ ih ih2 =>
    exact .bracket (.inr (.inr rfl)) (.inr (.inr rfl)) (stonPairs_closed fun p hp => ⟨ih p hp, ih2 p hp⟩)

/-! ## Sequences -/

theorem stops_nil : Stops [] := by simp [Stops]

theorem stops_sep (r : Bytes) : Stops (b!", " ++ r) := by
  intro c hc; simp at hc; subst hc; decide

theorem stops_space (r : Bytes) : Stops (b!" " ++ r) := by
  intro c hc; simp at hc; subst hc; decide

theorem stops_arrow (r : Bytes) : Stops (b!" -> " ++ r) := by
  intro c hc; simp at hc; subst hc; decide

theorem stops_ifSep {α : Type} (l : List α) {r : Bytes} (h : l = [] → Stops r) :
    Stops ((if l.isEmpty then [] else b!", ") ++ r) := by
  cases l with
  | nil => simpa using h rfl
  | cons => exact stops_sep _

theorem toHex_inj {a b : Bytes} (h : toHex a = toHex b) : a = b := by
  have dig : ∀ x y : Fin 16, hexDigit x.1 = hexDigit y.1 → x = y := by decide
  induction a generalizing b with
  | nil =>
    cases b with
    | nil => rfl
    | cons y b => simp [toHex] at h
  | cons x a ih =>
    cases b with
    | nil => simp [toHex] at h
    | cons y b =>
      simp only [toHex, List.flatMap_cons, List.cons_append, List.nil_append, List.cons.injEq] at h
      obtain ⟨h1, h2, h3⟩ := h
      have e1 := dig ⟨x.toNat / 16, by omega⟩ ⟨y.toNat / 16, by omega⟩ h1
      have e2 := dig ⟨x.toNat % 16, by omega⟩ ⟨y.toNat % 16, by omega⟩ h2
      simp only [Fin.mk.injEq] at e1 e2
      rw [ih h3, show x = y from BitVec.eq_of_toNat_eq (by omega)]

theorem decimalInt_inj {i j : Int} (h : decimalInt i = decimalInt j) : i = j := by
  have dash : ∀ m n, b!"-" ++ decimal m ≠ decimal n := by
    intro m n h
    have := decimal_digit (n := n) 45 (by rw [← h]; simp)
    revert this; decide
  unfold decimalInt at h
  split at h <;> split at h
  · have := decimal_inj (List.append_cancel_left h)
    omega
  · exact absurd h (dash _ _)
  · exact absurd h.symm (dash _ _)
  · have := decimal_inj h
    omega

theorem decimalInt_ne_nil (i : Int) : decimalInt i ≠ [] := by
  unfold decimalInt
  split
  · simp
  · exact decimal_ne_nil _

theorem Num.display_ne_nil : (n : Num) → n.display ≠ []
  | .uint n => decimal_ne_nil n.toNat
  | .bigUint n => decimal_ne_nil n.toNat
  | .int n => decimalInt_ne_nil n.toInt
  | .bigInt n => decimalInt_ne_nil n.toInt

theorem Val.item_ne_nil (v : Val) : v.item ≠ [] := by
  unfold Val.item parens
  split
  · simp
  · match v with
    | .unit => simp [Val.ston]
    | .num n => simpa [Val.ston] using n.display_ne_nil
    | .str s => simp [Val.ston]
    | .bytes b => simp [Val.ston]
    | .enum (.name n) =>
      obtain ⟨b, bs, h, -⟩ := n.chars_first
      simp [Val.ston, Tag.display, h]
    | .enum (.ord t) => exact decimal_ne_nil _
    | .union t v => unfold Val.ston; split <;> simp
    | .list l => simp [Val.ston]
    | .set l => simp [Val.ston]
    | .map l => simp [Val.ston]
    | .tuple [v] =>
      have h := v.item_ne_nil
      unfold Val.item at h
      simpa [Val.ston, Val.stonItems] using h
    | .tuple [] => simp_all [Val.needsParens]
    | .tuple (_ :: _ :: _) => simp_all [Val.needsParens]
    | .struct _ => simp_all [Val.needsParens]

theorem stonItems_cons (v : Val) (l : List Val) :
    Val.stonItems (v :: l) = v.item ++ ((if l.isEmpty then [] else b!", ") ++ Val.stonItems l) := by
  rw [Val.stonItems, List.append_assoc]; rfl

/-- The items of a sequence are determined by its text. -/
theorem stonItems_inj : ∀ {l m : List Val}, (∀ v ∈ l, v.TextOk) → (∀ v ∈ m, v.TextOk) →
    Val.stonItems l = Val.stonItems m → l.map Val.item = m.map Val.item
  | [], [], _, _, _ => rfl
  | [], w :: m, _, _, h => by
    rw [stonItems_cons] at h
    exact absurd (List.append_eq_nil_iff.1 h.symm).1 w.item_ne_nil
  | v :: l, [], _, _, h => by
    rw [stonItems_cons] at h
    exact absurd (List.append_eq_nil_iff.1 h).1 v.item_ne_nil
  | v :: l, w :: m, hl, hm, h => by
    rw [stonItems_cons, stonItems_cons] at h
    obtain ⟨h1, h2⟩ := (hl v (by simp)).item.extent (hm w (by simp)).item
      (stops_ifSep l fun hl => by subst hl; exact stops_nil)
      (stops_ifSep m fun hl => by subst hl; exact stops_nil) h
    have h3 : Val.stonItems l = Val.stonItems m := by
      cases l <;> cases m <;> simp_all [Val.stonItems]
    simp [h1, stonItems_inj (fun v hv => hl v (by simp [hv])) (fun v hv => hm v (by simp [hv])) h3]

/-- The same within a text, for sequences of the same length. -/
theorem stonItems_extent : ∀ {l m : List Val} {r s : Bytes}, l.length = m.length → (∀ v ∈ l, v.TextOk) →
    (∀ v ∈ m, v.TextOk) → Stops r → Stops s → Val.stonItems l ++ r = Val.stonItems m ++ s →
    l.map Val.item = m.map Val.item ∧ r = s
  | [], [], _, _, _, _, _, _, _, h => by simpa [Val.stonItems] using h
  | v :: l, w :: m, r, s, hn, hl, hm, hr, hs, h => by
    simp only [List.length_cons, Nat.add_right_cancel_iff] at hn
    rw [stonItems_cons, stonItems_cons, List.append_assoc, List.append_assoc, List.append_assoc,
      List.append_assoc] at h
    obtain ⟨h1, h2⟩ := (hl v (by simp)).item.extent (hm w (by simp)).item
      (stops_ifSep l fun hl => by subst hl; exact hr)
      (stops_ifSep m fun hl => by subst hl; exact hs) h
    have h3 : Val.stonItems l ++ r = Val.stonItems m ++ s := by
      cases l <;> cases m <;> simp_all [Val.stonItems]
    obtain ⟨h4, h5⟩ := stonItems_extent hn (fun v hv => hl v (by simp [hv]))
      (fun v hv => hm v (by simp [hv])) hr hs h3
    exact ⟨by simp [h1, h4], h5⟩

theorem stonFields_cons (n : Name) (v : Val) (l : List (Name × Val)) :
    Val.stonFields ((n, v) :: l) =
      n.bytes ++ (b!" " ++ (v.item ++ ((if l.isEmpty then [] else b!", ") ++ Val.stonFields l))) := by
  rw [Val.stonFields, Val.stonField, List.append_assoc, List.append_assoc, List.append_assoc]; rfl

/-- The fields of structures with the same field names are determined by the text. -/
theorem stonFields_extent : ∀ {l m : List (Name × Val)} {r s : Bytes}, l.map Prod.fst = m.map Prod.fst →
    (∀ f ∈ l, f.2.TextOk) → (∀ f ∈ m, f.2.TextOk) → Stops r → Stops s →
    Val.stonFields l ++ r = Val.stonFields m ++ s →
    (l.map fun f => f.2.item) = (m.map fun f => f.2.item) ∧ r = s
  | [], [], _, _, _, _, _, _, _, h => by simpa [Val.stonFields] using h
  | (n, v) :: l, (n', w) :: m, r, s, hn, hl, hm, hr, hs, h => by
    simp only [List.map_cons, List.cons.injEq] at hn
    obtain ⟨rfl, hn⟩ := hn
    rw [stonFields_cons, stonFields_cons] at h
    simp only [List.append_assoc] at h
    have h := List.append_cancel_left (List.append_cancel_left h)
    obtain ⟨h1, h2⟩ := (hl (n, v) (by simp)).item.extent (hm (n, w) (by simp)).item
      (stops_ifSep l fun hl => by subst hl; exact hr)
      (stops_ifSep m fun hl => by subst hl; exact hs) h
    have h3 : Val.stonFields l ++ r = Val.stonFields m ++ s := by
      cases l <;> cases m <;> simp_all [Val.stonFields]
    obtain ⟨h4, h5⟩ := stonFields_extent hn (fun v hv => hl v (by simp [hv]))
      (fun v hv => hm v (by simp [hv])) hr hs h3
    exact ⟨by simp only [List.map_cons]; rw [h4]; exact congrArg (· :: _) h1, h5⟩

theorem stonPairs_cons (k v : Val) (l : List (Val × Val)) :
    Val.stonPairs ((k, v) :: l) =
      k.ston ++ (b!" -> " ++ (v.item ++ ((if l.isEmpty then [] else b!", ") ++ Val.stonPairs l))) := by
  rw [Val.stonPairs, Val.stonPair, List.append_assoc, List.append_assoc, List.append_assoc]; rfl

end Verif
