import Verif.Spec.Util
import Verif.Lemmas.Basic

/-!
# Lemmas about text
-/

namespace Verif

theorem digitsRev_lt : ∀ {fuel n : Nat}, ∀ d ∈ digitsRev fuel n, d < 10 := by
  intro fuel
  induction fuel with
  | zero => intro n d h; cases h
  | succ f ih =>
    intro n d h
    unfold digitsRev at h
    split at h
    · simp at h; omega
    · rcases List.mem_cons.mp h with h | h
      · omega
      · exact ih d h

theorem digitsRev_ne_nil {fuel n : Nat} (h : 0 < fuel) : digitsRev fuel n ≠ [] := by
  cases fuel with
  | zero => omega
  | succ f => unfold digitsRev; split <;> simp

theorem digitsRev_value : ∀ {fuel n : Nat}, n < fuel →
    (digitsRev fuel n).foldr (fun d acc => 10 * acc + d) 0 = n := by
  intro fuel
  induction fuel with
  | zero => intro n h; omega
  | succ f ih =>
    intro n h
    unfold digitsRev
    split
    · simp
    · rw [List.foldr_cons, ih (by omega)]; omega

theorem decimal_digit {n : Nat} : ∀ b ∈ decimal n, isDigit b = true := by
  intro b hb
  simp only [decimal, List.mem_map, List.mem_reverse] at hb
  obtain ⟨d, hd, rfl⟩ := hb
  have := digitsRev_lt d hd
  simp only [isDigit, BitVec.toNat_ofNat]
  have : (48 + d) % 2 ^ 8 = 48 + d := by omega
  rw [this]
  simp; omega

theorem decimal_ne_nil (n : Nat) : decimal n ≠ [] := by
  simp [decimal, digitsRev_ne_nil]

theorem numberOf_decimal (n : Nat) : numberOf (decimal n) = n := by
  unfold numberOf decimal
  rw [List.foldl_map, List.foldl_reverse]
  have h := digitsRev_value (Nat.lt_succ_self n)
  refine Eq.trans ?_ h
  have hl : ∀ d ∈ digitsRev (n + 1) n, d < 10 := digitsRev_lt
  clear h
  revert hl
  generalize digitsRev (n + 1) n = l
  intro hl
  induction l with
  | nil => rfl
  | cons d l ih =>
    simp only [List.foldr_cons]
    rw [ih fun d hd => hl d (by simp [hd])]
    have := hl d (by simp)
    rw [BitVec.toNat_ofNat]
    have : (48 + d) % 2 ^ 8 = 48 + d := by omega
    rw [this]; omega

theorem decimal_inj {m n : Nat} (h : decimal m = decimal n) : m = n := by
  rw [← numberOf_decimal m, h, numberOf_decimal]

/-- The end of a text is marked by what follows it. -/
theorem append_span {α : Type} {p : α → Bool} : ∀ {a b r s : List α}, (∀ x ∈ a, p x = true) → (∀ x ∈ b, p x = true) →
    (∀ x ∈ r.head?, p x = false) → (∀ x ∈ s.head?, p x = false) → a ++ r = b ++ s → a = b ∧ r = s := by
  intro a
  induction a with
  | nil =>
    intro b r s _ hb hr _ h
    cases b with
    | nil => exact ⟨rfl, h⟩
    | cons y b =>
      rw [List.nil_append] at h
      subst h
      have := hr y (by simp)
      rw [hb y (by simp)] at this; cases this
  | cons x a ih =>
    intro b r s ha hb hr hs h
    cases b with
    | nil =>
      rw [List.nil_append] at h
      subst h
      have := hs x (by simp)
      rw [ha x (by simp)] at this; cases this
    | cons y b =>
      simp only [List.cons_append, List.cons.injEq] at h
      obtain ⟨h1, h2⟩ := ih (fun x hx => ha x (by simp [hx])) (fun x hx => hb x (by simp [hx])) hr hs h.2
      exact ⟨by rw [h.1, h1], h2⟩

theorem dotted_eq (l : List Bytes) : dotted l = List.intercalate b!"." l := by
  induction l with
  | nil => rfl
  | cons a l ih =>
    cases l with
    | nil => simp [dotted, List.intercalate]
    | cons b l => simp [dotted, ih, List.intercalate, List.intersperse]

/-- Texts without dots are recovered from the text with dots between them. -/
theorem dotted_inj : ∀ {l m : List Bytes}, (∀ a ∈ l, a ≠ [] ∧ (46 : Byte) ∉ a) →
    (∀ a ∈ m, a ≠ [] ∧ (46 : Byte) ∉ a) → dotted l = dotted m → l = m := by
  have hnil : ∀ {l : List Bytes}, (∀ a ∈ l, a ≠ [] ∧ (46 : Byte) ∉ a) → dotted l = [] → l = [] := by
    intro l hl h
    match l, hl, h with
    | [], _, _ => rfl
    | [a], hl, h => exact absurd h (hl a (by simp)).1
    | a :: b :: l, hl, h => simp [dotted] at h
  have hsplit : ∀ (a : Bytes) (l : List Bytes), ∃ r, dotted (a :: l) = a ++ r ∧
      (∀ x ∈ r.head?, (x != 46) = false) ∧ (r = [] ↔ l = []) ∧ (l ≠ [] → r = 46 :: dotted l) := by
    intro a l
    cases l with
    | nil => exact ⟨[], by simp [dotted], by simp, by simp, by simp⟩
    | cons b l => exact ⟨46 :: dotted (b :: l), by simp [dotted], by simp, by simp, by simp⟩
  intro l
  induction l with
  | nil => intro m _ hm h; exact (hnil hm h.symm).symm
  | cons a l ih =>
    intro m hl hm h
    cases m with
    | nil => exact hnil hl h
    | cons b m =>
      obtain ⟨r, hr, hr1, hr2, hr3⟩ := hsplit a l
      obtain ⟨s, hs, hs1, hs2, hs3⟩ := hsplit b m
      rw [hr, hs] at h
      have hp : ∀ c : Bytes, (46 : Byte) ∉ c → ∀ x ∈ c, (x != 46) = true := by
        intro c hc x hx
        simp only [bne_iff_ne, ne_eq]
        exact fun e => hc (e ▸ hx)
      obtain ⟨h1, h2⟩ := append_span (hp a (hl a (by simp)).2) (hp b (hm b (by simp)).2) hr1 hs1 h
      subst h1
      congr 1
      by_cases hl0 : l = []
      · have : s = [] := by rw [← h2]; exact hr2.mpr hl0
        rw [hl0, hs2.mp this]
      · have hm0 : m ≠ [] := fun e => hl0 (hr2.mp (h2.trans (hs2.mpr e)))
        rw [hr3 hl0, hs3 hm0] at h2
        simp only [List.cons.injEq, true_and] at h2
        exact ih (fun a ha => hl a (by simp [ha])) (fun a ha => hm a (by simp [ha])) h2

/-- What names consist of. -/
theorem Name.chars_first (n : Name) : ∃ b bs, n.bytes = b :: bs ∧ isAlphaLodash b = true ∧
    ∀ x ∈ b :: bs, isAlphaNumLodash x = true := by
  have h := n.ok
  match hb : n.bytes, h with
  | b :: bs, h =>
    simp only [nameOk, Bool.and_eq_true] at h
    refine ⟨b, bs, rfl, h.1.1, ?_⟩
    intro x hx
    rcases List.mem_cons.mp hx with rfl | hx
    · simp [isAlphaNumLodash, h.1.1]
    · exact List.all_eq_true.mp h.1.2 x hx

theorem isDigit_not_alpha {b : Byte} (h : isDigit b = true) : isAlphaLodash b = false := by
  simp only [isDigit, Bool.and_eq_true, decide_eq_true_eq] at h
  simp only [isAlphaLodash, Bool.or_eq_false_iff, Bool.and_eq_false_iff, decide_eq_false_iff_not, beq_eq_false_iff_ne]
  omega

theorem isDigit_alphaNum {b : Byte} (h : isDigit b = true) : isAlphaNumLodash b = true := by
  simp only [isDigit] at h
  simp [isAlphaNumLodash, h]

/-- A word: letters, digits and underscores, at least one. -/
def IsWord (a : Bytes) : Prop := a ≠ [] ∧ ∀ b ∈ a, isAlphaNumLodash b = true

theorem IsWord.not_mem {a : Bytes} (h : IsWord a) {c : Byte} (hc : isAlphaNumLodash c = false) : c ∉ a := by
  intro hm
  rw [h.2 c hm] at hc; cases hc

theorem Name.isWord (n : Name) : IsWord n.bytes := by
  obtain ⟨b, bs, h, -, h2⟩ := n.chars_first
  rw [h]; exact ⟨by simp, h2⟩

theorem decimal_isWord (n : Nat) : IsWord (decimal n) :=
  ⟨decimal_ne_nil n, fun b hb => isDigit_alphaNum (decimal_digit b hb)⟩

theorem PreFragment.display_isWord (f : PreFragment) : IsWord f.display := by
  cases f with
  | ident n => exact n.isWord
  | digits n => exact decimal_isWord _

theorem BuildFragment.display_isWord (f : BuildFragment) : IsWord f.display := by
  cases f with
  | ident n => exact n.isWord
  | digits n => exact n.isWord

theorem PreFragment.display_inj {f g : PreFragment} (h : f.display = g.display) : f = g := by
  have clash : ∀ (n : Name) (k : Nat), n.bytes ≠ decimal k := by
    intro n k e
    obtain ⟨b, bs, hb, ha, -⟩ := n.chars_first
    have := isDigit_not_alpha (decimal_digit (n := k) b (by rw [← e, hb]; simp))
    rw [ha] at this; cases this
  cases f with
  | ident n => cases g with
    | ident m => cases n; cases m; simp only [display] at h; subst h; rfl
    | digits k => exact absurd h (clash n _)
  | digits k => cases g with
    | ident m => exact absurd h.symm (clash m _)
    | digits l => rw [BitVec.eq_of_toNat_eq (decimal_inj h)]

/-- The fragments of a version: `-` before the first ones and `+` before the second ones. -/
def fragments (a b : List Bytes) : Bytes :=
  (if a.isEmpty then [] else b!"-") ++ dotted a ++ ((if b.isEmpty then [] else b!"+") ++ dotted b)

theorem dotted_mem {l : List Bytes} {c : Byte} (h : c ∈ dotted l) : c = 46 ∨ ∃ a ∈ l, c ∈ a := by
  induction l with
  | nil => cases h
  | cons a l ih =>
    cases l with
    | nil => exact .inr ⟨a, by simp, h⟩
    | cons b l =>
      simp only [dotted, List.mem_append, List.mem_singleton] at h
      rcases h with (h | h) | h
      · exact .inr ⟨a, by simp, h⟩
      · exact .inl h
      · rcases ih h with h | ⟨x, hx, h⟩
        · exact .inl h
        · exact .inr ⟨x, by simp [hx], h⟩

theorem part_inj {c : Byte} {a b : List Bytes} (ha : ∀ x ∈ a, IsWord x) (hb : ∀ x ∈ b, IsWord x)
    (h : (if a.isEmpty then [] else [c]) ++ dotted a = (if b.isEmpty then [] else [c]) ++ dotted b) : a = b := by
  have hw : ∀ {l : List Bytes}, (∀ x ∈ l, IsWord x) → ∀ x ∈ l, x ≠ [] ∧ (46 : Byte) ∉ x :=
    fun hl x hx => ⟨(hl x hx).1, (hl x hx).not_mem (by decide)⟩
  cases a with
  | nil => cases b with
    | nil => rfl
    | cons y b => simp [dotted] at h
  | cons x a => cases b with
    | nil => simp [dotted] at h
    | cons y b =>
      simp only [List.isEmpty_cons, Bool.false_eq_true, if_false, List.cons_append, List.nil_append,
        List.cons.injEq, true_and] at h
      exact dotted_inj (hw ha) (hw hb) h

theorem fragments_inj {a b a' b' : List Bytes} (ha : ∀ x ∈ a, IsWord x) (hb : ∀ x ∈ b, IsWord x)
    (ha' : ∀ x ∈ a', IsWord x) (hb' : ∀ x ∈ b', IsWord x) (h : fragments a b = fragments a' b') :
    a = a' ∧ b = b' := by
  have hp : ∀ {l : List Bytes}, (∀ x ∈ l, IsWord x) →
      ∀ c ∈ (if l.isEmpty then [] else b!"-") ++ dotted l, (c != 43) = true := by
    intro l hl c hc
    simp only [bne_iff_ne, ne_eq]
    rintro rfl
    rw [List.mem_append] at hc
    rcases hc with hc | hc
    · split at hc
      · cases hc
      · simp at hc
    · rcases dotted_mem hc with hc | ⟨x, hx, hc⟩
      · simp at hc
      · exact (hl x hx).not_mem (by decide) hc
  have hq : ∀ (l : List Bytes), ∀ c ∈ ((if l.isEmpty then [] else b!"+") ++ dotted l).head?, (c != 43) = false := by
    intro l c hc
    cases l with
    | nil => simp [dotted] at hc
    | cons y l => simp at hc; simp [← hc]
  obtain ⟨h1, h2⟩ := append_span (hp ha) (hp ha') (hq b) (hq b') h
  exact ⟨part_inj ha ha' h1, part_inj hb hb' h2⟩

theorem fragments_head (a b : List Bytes) : ∀ c ∈ (fragments a b).head?, isDigit c = false := by
  intro c hc
  unfold fragments at hc
  cases a with
  | nil => cases b with
    | nil => simp [dotted] at hc
    | cons y b => simp [dotted] at hc; rw [← hc]; decide
  | cons x a => simp at hc; rw [← hc]; decide

/-- The three numbers of a version are recovered from its text. -/
theorem numbers_inj {a b c a' b' c' : Nat} {t t' : Bytes} (ht : ∀ x ∈ t.head?, isDigit x = false)
    (ht' : ∀ x ∈ t'.head?, isDigit x = false)
    (h : decimal a ++ b!"." ++ decimal b ++ b!"." ++ decimal c ++ t =
      decimal a' ++ b!"." ++ decimal b' ++ b!"." ++ decimal c' ++ t') :
    a = a' ∧ b = b' ∧ c = c' ∧ t = t' := by
  simp only [List.append_assoc] at h
  have hdot : ∀ r : Bytes, ∀ x ∈ (b!"." ++ r).head?, isDigit x = false := by
    intro r x hx; simp at hx; rw [← hx]; decide
  obtain ⟨h1, h⟩ := append_span decimal_digit decimal_digit (hdot _) (hdot _) h
  obtain ⟨h2, h⟩ := append_span decimal_digit decimal_digit (hdot _) (hdot _) (List.append_cancel_left h)
  obtain ⟨h3, h⟩ := append_span decimal_digit decimal_digit ht ht' (List.append_cancel_left h)
  exact ⟨decimal_inj h1, decimal_inj h2, decimal_inj h3, h⟩

theorem SemVer.display_eq (v : SemVer) : v.display =
    decimal v.major.toNat ++ b!"." ++ decimal v.minor.toNat ++ b!"." ++ decimal v.patch.toNat ++
    fragments (v.build.map BuildFragment.display) (v.pre.map PreFragment.display) := by
  simp only [display, fragments, List.isEmpty_map, List.append_assoc]

theorem SemVer.standardText_eq (v : SemVer) : v.standardText =
    decimal v.major.toNat ++ b!"." ++ decimal v.minor.toNat ++ b!"." ++ decimal v.patch.toNat ++
    fragments (v.pre.map PreFragment.display) (v.build.map BuildFragment.display) := by
  unfold standardText fragments
  rw [dotted_eq, dotted_eq]
  cases v.pre <;> cases v.build <;> simp [List.intercalate, List.intersperse]

end Verif
