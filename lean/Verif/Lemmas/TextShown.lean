import Verif.Lemmas.TextLib
import Verif.Lemmas.Ston

/-!
# The texts in the shipped files meet the requirements; the check for plain types
-/

namespace Verif

/-! ## Hexadecimal numbers -/

theorem hexRev_lt : ∀ {fuel n : Nat}, ∀ d ∈ hexRev fuel n, d < 16 := by
  intro fuel
  induction fuel with
  | zero => intro n d h; cases h
  | succ f ih =>
    intro n d h
    unfold hexRev at h
    split at h
    · rw [List.mem_singleton.1 h]; assumption
    · rcases List.mem_cons.1 h with rfl | h
      · omega
      · exact ih d h

theorem hexRev_value : ∀ {fuel n : Nat}, n < fuel → (hexRev fuel n).foldr (fun d acc => 16 * acc + d) 0 = n := by
  intro fuel
  induction fuel with
  | zero => intro n h; omega
  | succ f ih =>
    intro n h
    unfold hexRev
    split
    · simp
    · rw [List.foldr_cons, ih (by omega)]; omega

theorem hexDigit_lt_inj {a b : Nat} (ha : a < 16) (hb : b < 16) (h : hexDigit a = hexDigit b) : a = b := by
  have : ∀ a < 16, ∀ b < 16, hexDigit a = hexDigit b → a = b := by decide
  exact this a ha b hb h

theorem map_inj_on {α β : Type} {f : α → β} {p : α → Prop} (hf : ∀ a b, p a → p b → f a = f b → a = b) :
    ∀ {l m : List α}, (∀ a ∈ l, p a) → (∀ a ∈ m, p a) → l.map f = m.map f → l = m := by
  intro l
  induction l with
  | nil => intro m _ _ h; cases m with
    | nil => rfl
    | cons => simp at h
  | cons a l ih =>
    intro m hl hm h
    cases m with
    | nil => simp at h
    | cons b m =>
      simp only [List.map_cons, List.cons.injEq] at h
      rw [hf a b (hl a (by simp)) (hm b (by simp)) h.1,
        ih (fun x hx => hl x (List.mem_cons_of_mem _ hx)) (fun x hx => hm x (List.mem_cons_of_mem _ hx)) h.2]

theorem hexText_inj {m n : Nat} (h : hexText m = hexText n) : m = n := by
  have h := map_inj_on (p := (· < 16)) (fun a b => hexDigit_lt_inj)
    (fun a ha => hexRev_lt a (List.mem_reverse.1 ha)) (fun a ha => hexRev_lt a (List.mem_reverse.1 ha))
    (List.append_cancel_left h)
  have h := List.reverse_inj.1 h
  rw [← hexRev_value (Nat.lt_succ_self m), h, hexRev_value (Nat.lt_succ_self n)]

theorem hexText_mark (n : Nat) : ∀ c ∈ hexText n, markChar c = true := by
  intro c hc
  have hd : ∀ d < 16, markChar (hexDigit d) = true := by decide
  rcases List.mem_append.1 hc with hc | hc
  · exact (by decide : ∀ c ∈ b!"0x", markChar c = true) c hc
  · obtain ⟨d, h, rfl⟩ := List.mem_map.1 hc
    exact hd d (hexRev_lt d (List.mem_reverse.1 h))

theorem hexText_start (n : Nat) : (hexText n)[1]? = some 120 := rfl

/-! ## Bounds -/

theorem decimal_mark (n : Nat) : ∀ c ∈ decimal n, markChar c = true := by
  intro c hc
  have h := decimal_digit c hc
  revert h
  revert c
  have : ∀ c : Byte, isDigit c = true → markChar c = true := by decide
  exact fun c _ => this c

theorem dots_not_digit : ∀ c ∈ (b!"..").head?, isDigit c = false := by decide

/-- The lower bound is cut off by the dots. -/
theorem low_inj {a b : BitVec 64} {s t : Bytes}
    (h : (if a = 0 then [] else decimal a.toNat) ++ (b!".." ++ s) = (if b = 0 then [] else decimal b.toNat) ++ (b!".." ++ t)) :
    a = b ∧ s = t := by
  have hd : ∀ a : BitVec 64, ∀ c ∈ (if a = 0 then [] else decimal a.toNat), isDigit c = true := by
    intro a c hc
    split at hc
    · cases hc
    · exact decimal_digit c hc
  have hh : ∀ s : Bytes, ∀ c ∈ (b!".." ++ s).head?, isDigit c = false := by
    intro s c hc
    simp at hc
    subst hc; decide
  obtain ⟨h1, h2⟩ := append_span (hd a) (hd b) (hh s) (hh t) h
  refine ⟨?_, List.append_cancel_left h2⟩
  split at h1 <;> split at h1
  · simp_all
  · exact absurd h1.symm (decimal_ne_nil _)
  · exact absurd h1 (decimal_ne_nil _)
  · exact BitVec.eq_of_toNat_eq (decimal_inj h1)

/-- The bound in one form. -/
theorem boundText_eq (s : Sizing) : boundText s = [] ∧ s = ⟨0, 0xffff⟩ ∨ s ≠ ⟨0, 0xffff⟩ ∧
    boundText s = b!" ^ " ++ ((if s.min = 0 then [] else decimal s.min.toNat) ++
      (b!".." ++ if s.max = 0xffff then [] else hexText s.max.toNat)) := by
  obtain ⟨lo, hi⟩ := s
  unfold boundText
  by_cases h1 : hi = 0xffff <;> by_cases h2 : lo = 0
  · subst h1; subst h2; exact .inl ⟨rfl, rfl⟩
  · refine .inr ⟨fun h => h2 (by injection h), ?_⟩
    simp only [if_pos h1, if_neg h2, List.append_nil]
  · refine .inr ⟨fun h => h1 (by injection h), ?_⟩
    simp only [if_neg h1, if_pos h2]
  · refine .inr ⟨fun h => h1 (by injection h), ?_⟩
    simp only [if_neg h1, if_neg h2]

theorem boundText_inj {a b : Sizing} (h : boundText a = boundText b) : a = b := by
  rcases boundText_eq a with ⟨ha, rfl⟩ | ⟨-, ha⟩ <;> rcases boundText_eq b with ⟨hb, rfl⟩ | ⟨-, hb⟩
  · rfl
  · rw [ha, hb] at h; simp at h
  · rw [ha, hb] at h; simp at h
  · rw [ha, hb] at h
    obtain ⟨h1, h2⟩ := low_inj (List.append_cancel_left h)
    obtain ⟨amin, amax⟩ := a
    obtain ⟨bmin, bmax⟩ := b
    simp only at h1 h2
    subst h1
    congr 1
    split at h2 <;> split at h2
    · simp_all
    · exact absurd (congrArg (·[1]?) h2) (by simp [hexText_start])
    · exact absurd (congrArg (·[1]?) h2) (by simp [hexText_start])
    · exact BitVec.eq_of_toNat_eq (hexText_inj h2)

theorem boundText_form (s : Sizing) : boundText s = [] ∨
    ∃ w, boundText s = b!" ^ " ++ w ∧ w ≠ [] ∧ (∀ c ∈ w, markChar c = true) ∧ ∀ n, w ≠ decimal n := by
  rcases boundText_eq s with ⟨h, -⟩ | ⟨-, h⟩
  · exact .inl h
  · refine .inr ⟨_, h, by simp, ?_, ?_⟩
    · intro c hc
      rcases List.mem_append.1 hc with hc | hc
      · split at hc
        · cases hc
        · exact decimal_mark _ c hc
      · rcases List.mem_append.1 hc with hc | hc
        · exact (by decide : ∀ c ∈ b!"..", markChar c = true) c hc
        · split at hc
          · cases hc
          · exact hexText_mark _ c hc
    · intro n hn
      have : isDigit 46 = true := decimal_digit (n := n) 46 (by rw [← hn]; simp)
      exact absurd this (by decide)

theorem shownGlyphs_clear {id mnemo : Id32 → Bytes} (h : ∀ i, ∀ c ∈ mnemo i, markChar c = true) :
    (shownGlyphs id mnemo).Clear Shown where
  prim := by
    have : ∀ p ∈ shownPrims.map Prod.fst,
        ((shownGlyphs id mnemo).prim p ≠ [] ∧ ∀ c ∈ (shownGlyphs id mnemo).prim p, isAlphaNumLodash c = true) ∨
          (shownGlyphs id mnemo).prim p = b!"()" := by
      show ∀ p ∈ shownPrims.map Prod.fst,
        ((hmGet shownPrims p).getD (b!"Prim" ++ decimal p.toNat) ≠ [] ∧
          ∀ c ∈ (hmGet shownPrims p).getD (b!"Prim" ++ decimal p.toNat), isAlphaNumLodash c = true) ∨
          (hmGet shownPrims p).getD (b!"Prim" ++ decimal p.toNat) = b!"()"
      decide +kernel
    exact this
  prim_inj := by
    have : ∀ p ∈ shownPrims.map Prod.fst, ∀ q ∈ shownPrims.map Prod.fst,
        (hmGet shownPrims p).getD (b!"Prim" ++ decimal p.toNat) = (hmGet shownPrims q).getD (b!"Prim" ++ decimal q.toNat) →
          p = q := by decide +kernel
    exact fun p q hp hq => this p hp q hq
  prim_unicode := by
    have : ∀ p ∈ shownPrims.map Prod.fst, (hmGet shownPrims p).getD (b!"Prim" ++ decimal p.toNat) ≠ b!"Unicode" := by
      decide +kernel
    exact this
  sizing := boundText_form
  sizing_inj := fun _ _ => boundText_inj
  mnemo := h

/-! ## The check -/

theorem Sty.Plain.ofAtom {G : Glyphs} {P : Byte → Prop} {s : Sty} (h : s.Plain G P true) : ∀ {a : Bool}, s.Plain G P a
  | true => h
  | false => .atom h

mutual
theorem Sty.plain_of_plainB {G : Glyphs} {ps : List Byte} : ∀ {a : Bool} {s : Sty}, Sty.plainB G ps a s = true →
    s.Plain G (· ∈ ps) a
  | a, .prim p, h => .ofAtom (.prim (by simpa [Sty.plainB] using h))
  | a, .unicode, h => .ofAtom .unicode
  | a, .name n, h => by
    simp [Sty.plainB] at h
    exact .ofAtom (.name h.1 h.2)
  | a, .ext _ _, h => .ofAtom .ext
  | a, .mark _, h => .ofAtom (.mark h)
  | a, .link _ _, h => by
    simp [Sty.plainB] at h
    exact .ofAtom (.link h.1 h.2)
  | a, .opt s, h => .ofAtom (.opt (Sty.plain_of_plainB (by simpa [Sty.plainB] using h)))
  | a, .array s _, h => .ofAtom (.array (Sty.plain_of_plainB (by simpa [Sty.plainB] using h)))
  | a, .list s _, h => .ofAtom (.list (Sty.plain_of_plainB (by simpa [Sty.plainB] using h)))
  | a, .set s _, h => .ofAtom (.set (Sty.plain_of_plainB (by simpa [Sty.plainB] using h)))
  | a, .map k s _, h => by
    simp [Sty.plainB] at h
    exact .ofAtom (.map (Sty.plain_of_plainB h.1) (Sty.plain_of_plainB h.2))
  | a, .tuple l, h => by
    simp [Sty.plainB] at h
    obtain ⟨⟨rfl, h1⟩, h2⟩ := h
    exact .tuple h1 (Sty.plain_of_plainAll h2)
  | a, .struct l, h => by
    simp [Sty.plainB] at h
    obtain ⟨⟨rfl, h1⟩, h2⟩ := h
    exact .struct h1 (Sty.plain_of_plainFields h2)
  | a, .enum vs, h => by
    simp [Sty.plainB] at h
    obtain ⟨rfl, h1⟩ := h
    exact .enum h1
  | a, .union l, h => by
    simp [Sty.plainB] at h
    obtain ⟨⟨rfl, h1⟩, h2⟩ := h
    exact .union h1 (Sty.plain_of_plainVariants h2)
termination_by structural _ s => s
theorem Sty.plain_of_plainAll {G : Glyphs} {ps : List Byte} : ∀ {l : List Sty}, Sty.plainAll G ps l = true →
    ∀ s ∈ l, s.Plain G (· ∈ ps) true
  | [], _, s, hs => by cases hs
  | t :: l, h, s, hs => by
    simp [Sty.plainAll] at h
    rcases List.mem_cons.1 hs with hs | hs
    · rw [hs]; exact Sty.plain_of_plainB (s := t) h.1
    · exact Sty.plain_of_plainAll h.2 s hs
termination_by structural l => l
theorem Sty.plain_of_plainFields {G : Glyphs} {ps : List Byte} : ∀ {l : List (Name × Sty)},
    Sty.plainFields G ps l = true → ∀ f ∈ l, f.2.Plain G (· ∈ ps) true
  | [], _, s, hs => by cases hs
  | (n, t) :: l, h, s, hs => by
    simp [Sty.plainFields] at h
    rcases List.mem_cons.1 hs with hs | hs
    · rw [hs]; exact Sty.plain_of_plainB (s := t) h.1
    · exact Sty.plain_of_plainFields h.2 s hs
termination_by structural l => l
theorem Sty.plain_of_plainVariants {G : Glyphs} {ps : List Byte} : ∀ {l : List (Variant × Bool × Sty)},
    Sty.plainVariants G ps l = true → ∀ v ∈ l, v.2.2.Plain G (· ∈ ps) (!v.2.1)
  | [], _, s, hs => by cases hs
  | (n, c, t) :: l, h, s, hs => by
    simp [Sty.plainVariants] at h
    rcases List.mem_cons.1 hs with hs | hs
    · rw [hs]; exact Sty.plain_of_plainB (s := t) h.1
    · exact Sty.plain_of_plainVariants h.2 s hs
termination_by structural l => l
end

/-! ## Full names -/

theorem splitDot_append {a b : Bytes} (ha : (46 : Byte) ∉ a) : splitDot (a ++ b!"." ++ b) = some (a, b) := by
  induction a with
  | nil => simp [splitDot]
  | cons c a ih =>
    simp only [List.mem_cons, not_or] at ha
    simp only [List.cons_append, splitDot, if_neg (Ne.symm ha.1), ih ha.2, Option.map_some]

theorem splitDot_some : ∀ {s a b : Bytes}, splitDot s = some (a, b) → s = a ++ b!"." ++ b
  | [], a, b, h => by cases h
  | c :: s, a, b, h => by
    unfold splitDot at h
    split at h
    · rename_i hc
      cases h
      simp [hc]
    · cases hs : splitDot s with
      | none => rw [hs] at h; cases h
      | some p =>
        rw [hs] at h
        cases h
        rw [splitDot_some hs]; simp

end Verif
