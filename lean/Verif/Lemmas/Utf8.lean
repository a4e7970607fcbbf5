import Verif.Model.Val
import Verif.Spec.Utf8

/-!
# UTF-8 text
-/

namespace Verif

theorem utf8Valid_char {c : Nat} (hc : Scalar c) (r : Bytes) : utf8Valid (utf8Char c ++ r) = utf8Valid r := by
  unfold Scalar at hc
  unfold utf8Char
  split
  · have h1 : (BitVec.ofNat 8 c).toNat = c := by simp; omega
    show utf8Valid (_ :: r) = _
    rw [utf8Valid.eq_def]; dsimp only; rw [if_pos (by rw [h1]; assumption)]
  split
  · have h1 : (BitVec.ofNat 8 (0xC0 + c / 64)).toNat = 0xC0 + c / 64 := by simp; omega
    have h2 : (BitVec.ofNat 8 (0x80 + c % 64)).toNat = 0x80 + c % 64 := by simp; omega
    show utf8Valid (_ :: _ :: r) = _
    rw [utf8Valid.eq_def]; dsimp only; rw [if_neg (by rw [h1]; omega)]
    simp only [isCont, h1, h2]
    rw [if_pos (by simp; omega)]
    have e : (decide (128 ≤ 128 + c % 64) && decide (128 + c % 64 ≤ 191)) = true := by simp; omega
    rw [e, Bool.true_and]
  split
  · have h1 : (BitVec.ofNat 8 (0xE0 + c / 4096)).toNat = 0xE0 + c / 4096 := by simp; omega
    have h2 : (BitVec.ofNat 8 (0x80 + c / 64 % 64)).toNat = 0x80 + c / 64 % 64 := by simp; omega
    have h3 : (BitVec.ofNat 8 (0x80 + c % 64)).toNat = 0x80 + c % 64 := by simp; omega
    show utf8Valid (_ :: _ :: _ :: r) = _
    rw [utf8Valid.eq_def]; dsimp only; rw [if_neg (by rw [h1]; omega)]
    simp only [isCont, h1, h2, h3]
    rw [if_neg (by simp; omega)]
    have e3 : (decide (128 ≤ 128 + c % 64) && decide (128 + c % 64 ≤ 191)) = true := by simp; omega
    split
    · have e : (decide (160 ≤ 128 + c / 64 % 64) && decide (128 + c / 64 % 64 ≤ 191)) = true := by simp; omega
      rw [e, Bool.true_and, e3, Bool.true_and]
    split
    · have e : (decide (128 ≤ 128 + c / 64 % 64) && decide (128 + c / 64 % 64 ≤ 159)) = true := by simp; omega
      rw [e, Bool.true_and, e3, Bool.true_and]
    rw [if_pos (by simp; omega)]
    have e : (decide (128 ≤ 128 + c / 64 % 64) && decide (128 + c / 64 % 64 ≤ 191)) = true := by simp; omega
    rw [e, e3, Bool.true_and, Bool.true_and]
  · have h1 : (BitVec.ofNat 8 (0xF0 + c / 262144)).toNat = 0xF0 + c / 262144 := by simp; omega
    have h0 : (BitVec.ofNat 8 (0x80 + c / 4096 % 64)).toNat = 0x80 + c / 4096 % 64 := by simp; omega
    have h2 : (BitVec.ofNat 8 (0x80 + c / 64 % 64)).toNat = 0x80 + c / 64 % 64 := by simp; omega
    have h3 : (BitVec.ofNat 8 (0x80 + c % 64)).toNat = 0x80 + c % 64 := by simp; omega
    show utf8Valid (_ :: _ :: _ :: _ :: r) = _
    rw [utf8Valid.eq_def]; dsimp only; rw [if_neg (by rw [h1]; omega)]
    simp only [isCont, h0, h1, h2, h3]
    rw [if_neg (by simp; omega), if_neg (by omega), if_neg (by omega), if_neg (by simp; omega)]
    have e3 : (decide (128 ≤ 128 + c % 64) && decide (128 + c % 64 ≤ 191)) = true := by simp; omega
    have e2 : (decide (128 ≤ 128 + c / 64 % 64) && decide (128 + c / 64 % 64 ≤ 191)) = true := by simp; omega
    split
    · have e : (decide (144 ≤ 128 + c / 4096 % 64) && decide (128 + c / 4096 % 64 ≤ 191)) = true := by simp; omega
      rw [e, Bool.true_and, e2, Bool.true_and, e3, Bool.true_and]
    split
    · have e : (decide (128 ≤ 128 + c / 4096 % 64) && decide (128 + c / 4096 % 64 ≤ 143)) = true := by simp; omega
      rw [e, Bool.true_and, e2, Bool.true_and, e3, Bool.true_and]
    rw [if_pos (by simp; omega)]
    have e : (decide (128 ≤ 128 + c / 4096 % 64) && decide (128 + c / 4096 % 64 ≤ 191)) = true := by simp; omega
    rw [e, e2, e3, Bool.true_and, Bool.true_and, Bool.true_and]

theorem utf8Char_one {a : Byte} (h : a.toNat < 0x80) : Scalar a.toNat ∧ utf8Char a.toNat = [a] := by
  refine ⟨.inl (by omega), ?_⟩
  unfold utf8Char
  rw [if_pos h]; simp

theorem utf8Char_two {a b : Byte} (ha : 0xC2 ≤ a.toNat ∧ a.toNat ≤ 0xDF) (hb : isCont b = true) :
    ∃ c, Scalar c ∧ utf8Char c = [a, b] := by
  simp only [isCont, Bool.and_eq_true, decide_eq_true_eq] at hb
  refine ⟨(a.toNat - 0xC0) * 64 + (b.toNat - 0x80), .inl (by omega), ?_⟩
  unfold utf8Char
  rw [if_neg (by omega), if_pos (by omega)]
  refine congr (congrArg _ (BitVec.eq_of_toNat_eq ?_)) (congrArg (· :: []) (BitVec.eq_of_toNat_eq ?_))
  · simp; omega
  · simp; omega

theorem utf8Char_three {a b c : Byte} (ha : 0xE0 ≤ a.toNat ∧ a.toNat ≤ 0xEF) (hb : isCont b = true) (hc : isCont c = true)
    (h0 : a.toNat = 0xE0 → 0xA0 ≤ b.toNat) (hd : a.toNat = 0xED → b.toNat ≤ 0x9F) :
    ∃ x, Scalar x ∧ utf8Char x = [a, b, c] := by
  simp only [isCont, Bool.and_eq_true, decide_eq_true_eq] at hb hc
  refine ⟨(a.toNat - 0xE0) * 4096 + (b.toNat - 0x80) * 64 + (c.toNat - 0x80), by unfold Scalar; omega, ?_⟩
  unfold utf8Char
  rw [if_neg (by omega), if_neg (by omega), if_pos (by omega)]
  simp only [List.cons.injEq, and_true]
  refine ⟨BitVec.eq_of_toNat_eq ?_, BitVec.eq_of_toNat_eq ?_, BitVec.eq_of_toNat_eq ?_⟩ <;> (simp; omega)

theorem utf8Char_four {a b c d : Byte} (ha : 0xF0 ≤ a.toNat ∧ a.toNat ≤ 0xF4) (hb : isCont b = true) (hc : isCont c = true)
    (hd : isCont d = true) (h0 : a.toNat = 0xF0 → 0x90 ≤ b.toNat) (h4 : a.toNat = 0xF4 → b.toNat ≤ 0x8F) :
    ∃ x, Scalar x ∧ utf8Char x = [a, b, c, d] := by
  simp only [isCont, Bool.and_eq_true, decide_eq_true_eq] at hb hc hd
  refine ⟨(a.toNat - 0xF0) * 262144 + (b.toNat - 0x80) * 4096 + (c.toNat - 0x80) * 64 + (d.toNat - 0x80),
    by unfold Scalar; omega, ?_⟩
  unfold utf8Char
  rw [if_neg (by omega), if_neg (by omega), if_neg (by omega)]
  simp only [List.cons.injEq, and_true]
  refine ⟨BitVec.eq_of_toNat_eq ?_, BitVec.eq_of_toNat_eq ?_, BitVec.eq_of_toNat_eq ?_, BitVec.eq_of_toNat_eq ?_⟩ <;>
    (simp; omega)

theorem Utf8.cons {x : Nat} {p r : Bytes} (hx : Scalar x ∧ utf8Char x = p) (hr : Utf8 r) : Utf8 (p ++ r) := by
  obtain ⟨cs, h1, rfl⟩ := hr
  refine ⟨x :: cs, ?_, by rw [List.flatMap_cons, hx.2]⟩
  intro c hc
  rcases List.mem_cons.1 hc with rfl | hc
  · exact hx.1
  · exact h1 c hc

theorem Utf8.add {p r : Bytes} (hr : Utf8 r) (hx : ∃ x, Scalar x ∧ utf8Char x = p) : Utf8 (p ++ r) :=
  hx.elim fun _ hx => Utf8.cons hx hr

/-- Validity of UTF-8 is being the encoding of characters. -/
theorem utf8Valid_iff (s : Bytes) : utf8Valid s = true ↔ Utf8 s := by
  constructor
  · intro h
    fun_induction utf8Valid s
    all_goals simp_all only [Bool.and_eq_true, decide_eq_true_eq, Bool.false_eq_true]
    · exact ⟨[], by simp, rfl⟩
    · rename_i ih; exact Utf8.cons (utf8Char_one ‹_›) (ih trivial)
    · rename_i ha ih
      exact Utf8.add (p := [_, _]) (ih trivial) (utf8Char_two ha h.1)
    · rename_i ha ih
      obtain ⟨⟨hb, hc⟩, -⟩ := h
      exact Utf8.add (p := [_, _, _]) (ih trivial) (utf8Char_three (by omega) (by simp [isCont]; omega) hc (fun _ => hb.1) (by omega))
    · rename_i ha ih
      obtain ⟨⟨hb, hc⟩, -⟩ := h
      exact Utf8.add (p := [_, _, _]) (ih trivial) (utf8Char_three (by omega) (by simp [isCont]; omega) hc (by omega) (fun _ => hb.2))
    · rename_i ha ih
      obtain ⟨⟨hb, hc⟩, -⟩ := h
      exact Utf8.add (p := [_, _, _]) (ih trivial) (utf8Char_three (by omega) hb hc (by omega) (by omega))
    · rename_i ha ih
      obtain ⟨⟨⟨hb, hc⟩, hd⟩, -⟩ := h
      exact Utf8.add (p := [_, _, _, _]) (ih trivial) (utf8Char_four (by omega) (by simp [isCont]; omega) hc hd (fun _ => hb.1) (by omega))
    · rename_i ha ih
      obtain ⟨⟨⟨hb, hc⟩, hd⟩, -⟩ := h
      exact Utf8.add (p := [_, _, _, _]) (ih trivial) (utf8Char_four (by omega) (by simp [isCont]; omega) hc hd (by omega) (fun _ => hb.2))
    · rename_i ha ih
      obtain ⟨⟨⟨hb, hc⟩, hd⟩, -⟩ := h
      exact Utf8.add (p := [_, _, _, _]) (ih trivial) (utf8Char_four (by omega) hb hc hd (by omega) (by omega))
  · rintro ⟨cs, h1, rfl⟩
    induction cs with
    | nil => rfl
    | cons c cs ih =>
      rw [List.flatMap_cons, utf8Valid_char (h1 c List.mem_cons_self)]
      exact ih fun x hx => h1 x (List.mem_cons_of_mem _ hx)

theorem charCount_char {c : Nat} (hc : Scalar c) : charCount (utf8Char c) = 1 := by
  unfold Scalar at hc
  have n : ∀ k, k < 0x80 → isCont (BitVec.ofNat 8 k) = false := by
    intro k hk; simp [isCont]; omega
  have n' : ∀ k, 0xC0 ≤ k → k < 0x100 → isCont (BitVec.ofNat 8 k) = false := by
    intro k hk hk'; simp [isCont]; omega
  have y : ∀ k, isCont (BitVec.ofNat 8 (0x80 + k % 64)) = true := by
    intro k; simp [isCont]; omega
  unfold utf8Char charCount
  split
  · simp [n c ‹_›]
  split
  · simp [n' (0xC0 + c / 64) (by omega) (by omega), y]
  split
  · simp [n' (0xE0 + c / 4096) (by omega) (by omega), y]
  · simp [n' (0xF0 + c / 262144) (by omega) (by omega), y]

theorem charCount_text {cs : List Nat} {s : Bytes} (h : IsText cs s) : charCount s = cs.length := by
  obtain ⟨h1, rfl⟩ := h
  induction cs with
  | nil => rfl
  | cons c cs ih =>
    have e := charCount_char (h1 c List.mem_cons_self)
    have := ih fun x hx => h1 x (List.mem_cons_of_mem _ hx)
    simp only [charCount, List.flatMap_cons, List.filter_append, List.length_append, List.length_cons] at e this ⊢
    omega

/-- Being one character. -/
theorem char_iff (s : Bytes) : (∃ c, IsText [c] s) ↔ utf8Valid s = true ∧ charCount s = 1 := by
  rw [utf8Valid_iff]
  constructor
  · rintro ⟨c, h⟩
    exact ⟨⟨_, h⟩, charCount_text h⟩
  · rintro ⟨⟨cs, h⟩, hc⟩
    rw [charCount_text h] at hc
    match cs, hc with
    | [c], _ => exact ⟨c, h⟩

end Verif
