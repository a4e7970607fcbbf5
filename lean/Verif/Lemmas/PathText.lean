import Verif.Model.PathText
import Verif.Lemmas.Util
import Verif.Lemmas.Ston

/-!
# Lemmas on the text of paths
-/

namespace Verif

/-- The rest of the text of a path: it does not start within a word. -/
def Fresh (r : Bytes) : Prop := ∀ c ∈ r.head?, isAlphaNumLodash c = false

theorem dot_split {a b r s : Bytes} (ha : IsWord a) (hb : IsWord b) (hr : Fresh r) (hs : Fresh s)
    (h : (46 : Byte) :: a ++ r = 46 :: b ++ s) : a = b ∧ r = s := by
  rw [List.cons_append, List.cons_append, List.cons.injEq] at h
  exact append_span ha.2 hb.2 hr hs h.2

/-- Texts of lists are told apart if the texts of items can be split off. -/
theorem flatMap_split {α : Type} (f : α → Bytes) (P : α → Prop) (hf : ∀ a, P a → Fresh (f a) ∧ f a ≠ [])
    (hsplit : ∀ a b r s, P a → P b → Fresh r → Fresh s → f a ++ r = f b ++ s → f a = f b ∧ r = s) :
    ∀ (l m : List α), (∀ a ∈ l, P a) → (∀ a ∈ m, P a) → l.flatMap f = m.flatMap f → l.map f = m.map f := by
  have fresh : ∀ l : List α, (∀ a ∈ l, P a) → Fresh (l.flatMap f) := by
    intro l hl
    cases l with
    | nil => intro c hc; simp at hc
    | cons a l =>
      obtain ⟨h1, h2⟩ := hf a (hl a (by simp))
      intro c hc
      rw [List.flatMap_cons] at hc
      cases hfa : f a with
      | nil => exact absurd hfa h2
      | cons d w =>
        rw [hfa] at hc h1
        exact h1 c hc
  intro l
  induction l with
  | nil =>
    intro m _ hm h
    cases m with
    | nil => rfl
    | cons b m =>
      have := (hf b (hm b (by simp))).2
      simp only [List.flatMap_nil, List.flatMap_cons] at h
      exact absurd (List.append_eq_nil_iff.1 h.symm).1 this
  | cons a l ih =>
    intro m hl hm h
    cases m with
    | nil =>
      have := (hf a (hl a (by simp))).2
      simp only [List.flatMap_nil, List.flatMap_cons] at h
      exact absurd (List.append_eq_nil_iff.1 h).1 this
    | cons b m =>
      simp only [List.flatMap_cons] at h
      have hl' : ∀ a ∈ l, P a := fun a ha => hl a (by simp [ha])
      have hm' : ∀ a ∈ m, P a := fun a ha => hm a (by simp [ha])
      obtain ⟨h1, h2⟩ := hsplit a b _ _ (hl a (by simp)) (hm b (by simp)) (fresh l hl') (fresh m hm') h
      rw [List.map_cons, List.map_cons, h1, ih m hl' hm' h2]

/-! ## Type paths -/

theorem tstep_shape (s : Ty.Step) : (∃ w, IsWord w ∧ s.text = 46 :: w) ∨
    s.text ∈ [b!"#", b!"[]", b!"{}", b!"[key]", b!"[value]"] := by
  cases s with
  | namedField n => exact .inl ⟨_, n.isWord, rfl⟩
  | unnamedField i => exact .inl ⟨_, decimal_isWord _, rfl⟩
  | variant n => exact .inl ⟨_, n.isWord, rfl⟩
  | index => right; decide
  | list => right; decide
  | set => right; decide
  | mapKey => right; decide
  | mapValue => right; decide

theorem tstep_fresh (s : Ty.Step) : Fresh s.text ∧ s.text ≠ [] := by
  rcases tstep_shape s with ⟨w, -, h⟩ | h
  · rw [h]
    refine ⟨fun c hc => ?_, by simp⟩
    cases hc; decide
  · simp only [List.mem_cons, List.not_mem_nil, or_false] at h
    rcases h with h | h | h | h | h <;> rw [h] <;> refine ⟨fun c hc => ?_, by simp⟩ <;> cases hc <;> decide

theorem tstep_split (a b : Ty.Step) (r s : Bytes) (hr : Fresh r) (hs : Fresh s) (h : a.text ++ r = b.text ++ s) :
    a.text = b.text ∧ r = s := by
  rcases tstep_shape a with ⟨w, hw, ha⟩ | ha <;> rcases tstep_shape b with ⟨v, hv, hb⟩ | hb
  · rw [ha, hb] at h
    obtain ⟨rfl, rfl⟩ := dot_split hw hv hr hs h
    exact ⟨by rw [ha, hb], rfl⟩
  · rw [ha] at h
    simp only [List.mem_cons, List.not_mem_nil, or_false] at hb
    rcases hb with hb | hb | hb | hb | hb <;> rw [hb] at h <;> simp at h
  · rw [hb] at h
    simp only [List.mem_cons, List.not_mem_nil, or_false] at ha
    rcases ha with ha | ha | ha | ha | ha <;> rw [ha] at h <;> simp at h
  · simp only [List.mem_cons, List.not_mem_nil, or_false] at ha hb
    rcases ha with ha | ha | ha | ha | ha <;> rcases hb with hb | hb | hb | hb | hb <;> rw [ha, hb] at h ⊢ <;>
      simp at h ⊢ <;> exact h

theorem name_ne_decimal (n : Name) (k : Nat) : n.bytes ≠ decimal k := by
  obtain ⟨c, cs, h, hc, -⟩ := n.chars_first
  intro he
  have := decimal_digit (n := k) c (by rw [← he, h]; simp)
  simp only [isDigit, isAlphaLodash, Bool.and_eq_true, decide_eq_true_eq, Bool.or_eq_true, beq_iff_eq] at this hc
  omega

/-! ## Value paths -/

theorem escapeQuotes_inj : ∀ {s t : Bytes}, escapeQuotes s = escapeQuotes t → s = t := by
  intro s
  induction s with
  | nil =>
    intro t h
    cases t with
    | nil => rfl
    | cons c t => unfold escapeQuotes at h; split at h <;> cases h
  | cons c s ih =>
    intro t h
    cases t with
    | nil => unfold escapeQuotes at h; split at h <;> cases h
    | cons d t =>
      unfold escapeQuotes at h
      by_cases hc : c = 34 <;> by_cases hd : d = 34
      · rw [if_pos hc, if_pos hd] at h
        rw [hc, hd, ih (List.cons.inj (List.cons.inj h).2).2]
      · rw [if_pos hc, if_neg hd] at h
        obtain ⟨-, h⟩ := List.cons.inj h
        exfalso
        cases t with
        | nil => simp [escapeQuotes] at h
        | cons e t =>
          rw [escapeQuotes.eq_2 e t] at h
          by_cases he : e = 34
          · rw [if_pos he] at h; simp at h
          · rw [if_neg he] at h; exact he (List.cons.inj h).1.symm
      · rw [if_neg hc, if_pos hd] at h
        obtain ⟨-, h⟩ := List.cons.inj h
        exfalso
        cases s with
        | nil => simp [escapeQuotes] at h
        | cons e s =>
          rw [escapeQuotes.eq_2 e s] at h
          by_cases he : e = 34
          · rw [if_pos he] at h; simp at h
          · rw [if_neg he] at h; exact he (List.cons.inj h).1
      · rw [if_neg hc, if_neg hd] at h
        rw [(List.cons.inj h).1, ih (List.cons.inj h).2]

theorem escapeQuotes_id {s : Bytes} : 34 ∉ s → escapeQuotes s = s := by
  induction s with
  | nil => intro _; rfl
  | cons c s ih =>
    intro h
    simp only [List.mem_cons, not_or] at h
    rw [escapeQuotes, if_neg (Ne.symm h.1), ih h.2]

theorem mem_escapeQuotes {c : Byte} {s : Bytes} (h : c ∈ s) : c ∈ escapeQuotes s := by
  induction s with
  | nil => cases h
  | cons d s ih =>
    unfold escapeQuotes
    rcases List.mem_cons.1 h with rfl | h
    · split
      · rename_i hc; rw [hc]; simp
      · simp
    · split <;> simp [ih h]

/-- A text without quotes comes from itself. -/
theorem of_escapeQuotes {s t : Bytes} (h : escapeQuotes s = t) (ht : 34 ∉ t) : s = t := by
  rw [← h, escapeQuotes_id fun hm => ht (h ▸ mem_escapeQuotes hm)]

theorem escapeQuotes_mem {c : Byte} {s : Bytes} (h : c ∈ escapeQuotes s) : c = 92 ∨ c ∈ s := by
  induction s with
  | nil => cases h
  | cons d s ih =>
    unfold escapeQuotes at h
    split at h
    · rename_i hd
      rcases List.mem_cons.1 h with rfl | h
      · exact .inl rfl
      · rcases List.mem_cons.1 h with rfl | h
        · exact .inr (by simp [hd])
        · exact (ih h).imp_right (by intro h; simp [h])
    · rcases List.mem_cons.1 h with rfl | h
      · exact .inr (by simp)
      · exact (ih h).imp_right (by intro h; simp [h])

theorem hexUpper_word (n : Nat) (h : n < 16) : isAlphaNumLodash (hexDigitUpper n) = true := by
  have : ∀ n < 16, isAlphaNumLodash (hexDigitUpper n) = true := by decide
  exact this n h

theorem blob_word (b : Bytes) : IsWord (KeyStep.blob b).text := by
  refine ⟨by simp [KeyStep.text], fun c hc => ?_⟩
  simp only [KeyStep.text, List.mem_append, List.mem_flatMap, List.mem_cons, List.not_mem_nil, or_false] at hc
  rcases hc with (rfl | rfl) | ⟨x, -, rfl | rfl⟩
  · decide
  · decide
  · exact hexUpper_word _ (by omega)
  · exact hexUpper_word _ (by omega)

theorem blob_inj {a b : Bytes} (h : (KeyStep.blob a).text = (KeyStep.blob b).text) : a = b := by
  have dig : ∀ x y : Fin 16, hexDigitUpper x.1 = hexDigitUpper y.1 → x = y := by decide
  simp only [KeyStep.text, List.append_cancel_left_eq] at h
  induction a generalizing b with
  | nil =>
    cases b with
    | nil => rfl
    | cons y b => simp at h
  | cons x a ih =>
    cases b with
    | nil => simp at h
    | cons y b =>
      simp only [List.flatMap_cons, List.cons_append, List.nil_append, List.cons.injEq] at h
      obtain ⟨h1, h2, h3⟩ := h
      have e1 := dig ⟨x.toNat / 16, by omega⟩ ⟨y.toNat / 16, by omega⟩ h1
      have e2 := dig ⟨x.toNat % 16, by omega⟩ ⟨y.toNat % 16, by omega⟩ h2
      simp only [Fin.mk.injEq] at e1 e2
      rw [ih h3, show x = y from BitVec.eq_of_toNat_eq (by omega)]

theorem blob_ne_decimal (b : Bytes) (n : Nat) : (KeyStep.blob b).text ≠ decimal n := by
  intro h
  have := decimal_digit (n := n) 104 (by rw [← h]; simp [KeyStep.text])
  revert this; decide

theorem toNat_inj {w : Nat} {a b : BitVec w} (h : decimal a.toNat = decimal b.toNat) : a = b :=
  BitVec.eq_of_toNat_eq (decimal_inj h)

end Verif
