import Verif.Spec.Ast
import Verif.Lemmas.PathText

/-!
# C71: text of paths
-/

namespace Verif

/-- **C71 is violated** by keys: a number and a string of its digits have the same text, and so have bytes and
a string of their hexadecimal form. -/
theorem C71_key_violated :
    vpathText [.key (.number 5)] = vpathText [.key (.string b!"5")] ∧
    vpathText [.key (.blob [0xAB])] = vpathText [.key (.string b!"0hAB")] := by
  decide

/-- **C71 is violated** by braces in keys: one key has the text of two. -/
theorem C71_brace_violated :
    vpathText [.key (.string b!"a}{b")] = vpathText [.key (.string b!"a"), .key (.string b!"b")] := by
  decide

/-- **C71 is violated** by type paths: a field and a variant of the same name have the same text. -/
theorem C71_variant_violated (n : Name) : tpathText [.namedField n] = tpathText [.variant n] := rfl

/-- String keys which are told from other keys: no closing brace, not the digits of a number, not hexadecimal
text with the prefix. -/
def VStep.Clear : VStep → Prop
  | .key (.string s) => 125 ∉ s ∧ (∀ n : BitVec 128, s ≠ decimal n.toNat) ∧ ∀ b, s ≠ (KeyStep.blob b).text
  | _ => True

theorem number_word (n : BitVec 128) : IsWord (KeyStep.number n).text := decimal_isWord _

/-- **C71, keys**: two keys have the same text only if they are equal, or one is a string spelling the other. -/
theorem C71_keys_partial (k l : KeyStep) : k.text = l.text ↔ k = l ∨
    (∃ n, (k = .number n ∧ l = .string (decimal n.toNat)) ∨ (l = .number n ∧ k = .string (decimal n.toNat))) ∨
    (∃ b, (k = .blob b ∧ l = .string (KeyStep.blob b).text) ∨ (l = .blob b ∧ k = .string (KeyStep.blob b).text)) := by
  have esc : ∀ {t : Bytes}, IsWord t → escapeQuotes t = t := fun h => escapeQuotes_id (h.not_mem (by decide))
  have back : ∀ {s t : Bytes}, IsWord t → t = escapeQuotes s → s = t := fun h e =>
    of_escapeQuotes e.symm (h.not_mem (by decide))
  constructor
  · intro h
    cases k with
    | number n =>
      cases l with
      | number m => exact .inl (by rw [toNat_inj h])
      | blob b => exact absurd h.symm (blob_ne_decimal b _)
      | string s => exact .inr (.inl ⟨n, .inl ⟨rfl, by rw [back (number_word n) h]; rfl⟩⟩)
    | blob a =>
      cases l with
      | number m => exact absurd h (blob_ne_decimal a _)
      | blob b => exact .inl (by rw [blob_inj h])
      | string s => exact .inr (.inr ⟨a, .inl ⟨rfl, by rw [back (blob_word a) h]⟩⟩)
    | string s =>
      cases l with
      | number m => exact .inr (.inl ⟨m, .inr ⟨rfl, by rw [back (number_word m) h.symm]; rfl⟩⟩)
      | blob b => exact .inr (.inr ⟨b, .inr ⟨rfl, by rw [back (blob_word b) h.symm]⟩⟩)
      | string t => exact .inl (by rw [escapeQuotes_inj h])
  · rintro (rfl | ⟨n, ⟨rfl, rfl⟩ | ⟨rfl, rfl⟩⟩ | ⟨b, ⟨rfl, rfl⟩ | ⟨rfl, rfl⟩⟩)
    · rfl
    · exact (esc (number_word n)).symm
    · exact esc (number_word n)
    · exact (esc (blob_word b)).symm
    · exact esc (blob_word b)

theorem clear_key {k : KeyStep} (h : (VStep.key k).Clear) : ∀ c ∈ k.text, (c != 125) = true := by
  intro c hc
  rw [bne_iff_ne]
  rintro rfl
  cases k with
  | number n => exact (number_word n).not_mem (by decide) hc
  | blob b => exact (blob_word b).not_mem (by decide) hc
  | string s =>
    rcases escapeQuotes_mem hc with h' | h'
    · revert h'; decide
    · exact h.1 h'

theorem vstep_fresh (a : VStep) : Fresh a.text ∧ a.text ≠ [] := by
  cases a <;> refine ⟨fun c hc => ?_, by simp [VStep.text]⟩ <;> cases hc <;> decide

theorem vstep_split (a b : VStep) (r s : Bytes) (ha : a.Clear) (hb : b.Clear) (hr : Fresh r) (hs : Fresh s)
    (h : a.text ++ r = b.text ++ s) : a.text = b.text ∧ r = s := by
  have dot : ∀ {v w : Bytes}, IsWord v → IsWord w → (b!"." ++ v) ++ r = (b!"." ++ w) ++ s →
      b!"." ++ v = b!"." ++ w ∧ r = s := by
    intro v w hv hw h
    obtain ⟨rfl, rfl⟩ := dot_split hv hw hr hs h
    exact ⟨rfl, rfl⟩
  cases a with
  | namedField n =>
    cases b with
    | namedField m => exact dot n.isWord m.isWord h
    | unnamedField j => exact dot n.isWord (decimal_isWord _) h
    | index j => simp [VStep.text] at h
    | key l => simp [VStep.text] at h
  | unnamedField i =>
    cases b with
    | namedField m => exact dot (decimal_isWord _) m.isWord h
    | unnamedField j => exact dot (decimal_isWord _) (decimal_isWord _) h
    | index j => simp [VStep.text] at h
    | key l => simp [VStep.text] at h
  | index i =>
    cases b with
    | namedField m => simp [VStep.text] at h
    | unnamedField j => simp [VStep.text] at h
    | index j =>
      simp only [VStep.text, List.append_assoc, List.append_cancel_left_eq] at h ⊢
      obtain ⟨h1, h2⟩ := append_span (p := isAlphaNumLodash) (decimal_isWord _).2 (decimal_isWord _).2
        (by intro c hc; cases hc; decide) (by intro c hc; cases hc; decide) h
      rw [h1]
      exact ⟨rfl, List.append_cancel_left h2⟩
    | key l => simp [VStep.text] at h
  | key k =>
    cases b with
    | namedField m => simp [VStep.text] at h
    | unnamedField j => simp [VStep.text] at h
    | index j => simp [VStep.text] at h
    | key l =>
      simp only [VStep.text, List.append_assoc, List.append_cancel_left_eq] at h ⊢
      obtain ⟨h1, h2⟩ := append_span (p := (· != 125)) (clear_key ha) (clear_key hb)
        (by intro c hc; cases hc; decide) (by intro c hc; cases hc; decide) h
      rw [h1]
      exact ⟨rfl, List.append_cancel_left h2⟩

theorem vstep_inj {a b : VStep} (ha : a.Clear) (hb : b.Clear) (h : a.text = b.text) : a = b := by
  cases a with
  | namedField n =>
    cases b with
    | namedField m =>
      simp only [VStep.text, List.append_cancel_left_eq] at h
      rw [Name.ext h]
    | unnamedField j =>
      simp only [VStep.text, List.append_cancel_left_eq] at h
      exact absurd h (name_ne_decimal _ _)
    | index j => simp [VStep.text] at h
    | key l => simp [VStep.text] at h
  | unnamedField i =>
    cases b with
    | namedField m =>
      simp only [VStep.text, List.append_cancel_left_eq] at h
      exact absurd h.symm (name_ne_decimal _ _)
    | unnamedField j =>
      simp only [VStep.text, List.append_cancel_left_eq] at h
      rw [toNat_inj h]
    | index j => simp [VStep.text] at h
    | key l => simp [VStep.text] at h
  | index i =>
    cases b with
    | namedField m => simp [VStep.text] at h
    | unnamedField j => simp [VStep.text] at h
    | index j =>
      simp only [VStep.text, List.append_assoc, List.append_cancel_left_eq, List.append_cancel_right_eq] at h
      rw [toNat_inj h]
    | key l => simp [VStep.text] at h
  | key k =>
    cases b with
    | namedField m => simp [VStep.text] at h
    | unnamedField j => simp [VStep.text] at h
    | index j => simp [VStep.text] at h
    | key l =>
      simp only [VStep.text, List.append_assoc, List.append_cancel_left_eq, List.append_cancel_right_eq] at h
      rcases (C71_keys_partial k l).1 h with rfl | ⟨n, ⟨rfl, rfl⟩ | ⟨rfl, rfl⟩⟩ | ⟨b, ⟨rfl, rfl⟩ | ⟨rfl, rfl⟩⟩
      · rfl
      · exact absurd rfl (hb.2.1 n)
      · exact absurd rfl (ha.2.1 n)
      · exact absurd rfl (hb.2.2 b)
      · exact absurd rfl (ha.2.2 b)

theorem map_inj_list {α β : Type} {f : α → β} : ∀ {l m : List α}, (∀ a ∈ l, ∀ b ∈ m, f a = f b → a = b) →
    l.map f = m.map f → l = m := by
  intro l
  induction l with
  | nil => intro m _ h; cases m with
    | nil => rfl
    | cons => cases h
  | cons a l ih =>
    intro m hi h
    cases m with
    | nil => cases h
    | cons b m =>
      obtain ⟨h1, h2⟩ := List.cons.inj h
      rw [hi a (by simp) b (by simp) h1, ih (fun a ha b hb => hi a (by simp [ha]) b (by simp [hb])) h2]

/-- **C71, value paths**: different value paths have different texts, if no string key has a closing brace or
spells a number or bytes. Missing: the other string keys, see above. -/
theorem C71_value_paths_partial (p q : List VStep) (hp : ∀ s ∈ p, s.Clear) (hq : ∀ s ∈ q, s.Clear)
    (h : vpathText p = vpathText q) : p = q := by
  have := flatMap_split VStep.text VStep.Clear (fun a _ => vstep_fresh a)
    (fun a b r s ha hb hr hs h => vstep_split a b r s ha hb hr hs h) p q hp hq h
  exact map_inj_list (fun a ha b hb h => vstep_inj (hp a ha) (hq b hb) h) this

/-- A path with a quote in a key. -/
example : let p : List VStep := [.namedField n!"a", .index 3, .key (.string b!"x\"y"), .unnamedField 0, .key (.number 5)]
    (∀ s ∈ p, s.Clear) ∧ vpathText p = b!".a[3]{x\\\"y}.0{5}" := by
  refine ⟨?_, by decide⟩
  intro s hs
  simp only [List.mem_cons, List.not_mem_nil, or_false] at hs
  rcases hs with rfl | rfl | rfl | rfl | rfl
  · trivial
  · trivial
  · refine ⟨by decide, fun n h => ?_, fun b h => ?_⟩
    · have := decimal_digit (n := n.toNat) 120 (by rw [← h]; simp)
      revert this; decide
    · simp [KeyStep.text] at h
  · trivial
  · trivial

/-- The number of a step in a text never is a name; a name is that of a field or of a variant. -/
theorem tstep_inj {a b : Ty.Step} (h : a.text = b.text) : a = b ∨
    ∃ n, (a = .namedField n ∧ b = .variant n) ∨ (a = .variant n ∧ b = .namedField n) := by
  cases a <;> cases b <;> simp only [Ty.Step.text, List.append_cancel_left_eq] at h <;>
    first
    | exact .inl rfl
    | exact absurd h (name_ne_decimal _ _)
    | exact absurd h.symm (name_ne_decimal _ _)
    | (simp at h; done)
    | (left; rw [Name.ext h]; done)
    | (left; rw [toNat_inj h]; done)
    | exact .inr ⟨_, .inl ⟨rfl, by rw [Name.ext h]⟩⟩
    | exact .inr ⟨_, .inr ⟨rfl, by rw [Name.ext h]⟩⟩

/-- **C71, type paths**: the text of a type path tells its steps, up to named fields and variants. -/
theorem C71_type_steps_partial (p q : List Ty.Step) (h : tpathText p = tpathText q) :
    p.length = q.length ∧ ∀ (i : Nat) (a b : Ty.Step), p[i]? = some a → q[i]? = some b → a = b ∨
      ∃ n, (a = .namedField n ∧ b = .variant n) ∨ (a = .variant n ∧ b = .namedField n) := by
  have := flatMap_split Ty.Step.text (fun _ => True) (fun a _ => tstep_fresh a)
    (fun a b r s _ _ hr hs h => tstep_split a b r s hr hs h) p q (fun _ _ => trivial) (fun _ _ => trivial) h
  refine ⟨by simpa using congrArg List.length this, fun i a b ha hb => tstep_inj ?_⟩
  have h1 : (p.map Ty.Step.text)[i]? = some a.text := by rw [List.getElem?_map, ha]; rfl
  rw [this, List.getElem?_map, hb] at h1
  exact (Option.some.inj h1).symm

/-- No two places of the type are reached by the same step. -/
def Ty.Definite {α : Type} (t : Ty α) : Prop := ∀ s r r', t.SpecStep s r → t.SpecStep s r' → r = r'

/-- **C71, paths in a type**: different paths which exist in a type have different texts, if the names and tags
in the types along the way are unique. Missing: paths which do not exist. -/
theorem C71_type_paths_partial {α : Type} (asTy : α → Option (Ty α)) (t u v : Ty α) (p q : List Ty.Step)
    (hd : ∀ p' t', Ty.Follows asTy t p' t' → t'.Definite)
    (hp : Ty.Follows asTy t p u) (hq : Ty.Follows asTy t q v) (h : tpathText p = tpathText q) : p = q ∧ u = v := by
  obtain ⟨hl, hs⟩ := C71_type_steps_partial p q h
  clear h
  induction p generalizing t q with
  | nil =>
    cases q with
    | nil => cases hp; cases hq; exact ⟨rfl, rfl⟩
    | cons => simp at hl
  | cons a p ih =>
    cases q with
    | nil => simp at hl
    | cons b q =>
      cases hp with
      | @cons _ t1 _ _ _ r hr1 hr2 hr3 =>
      cases hq with
      | @cons _ t2 _ _ _ w hw1 hw2 hw3 =>
      have hab : a = b := by
        rcases hs 0 a b rfl rfl with h | ⟨n, ⟨rfl, rfl⟩ | ⟨rfl, rfl⟩⟩
        · exact h
        · cases t <;> first | exact hr1.elim | exact hw1.elim
        · cases t <;> first | exact hr1.elim | exact hw1.elim
      subst hab
      have hrw := hd [] t (.nil t) a r w hr1 hw1
      subst hrw
      rw [hr2] at hw2
      cases hw2
      obtain ⟨h1, h2⟩ := ih t1 q (fun p' t' h => hd (a :: p') t' (.cons hr1 hr2 h)) hr3 hw3 (by simpa using hl)
        (fun i a b ha hb => hs (i + 1) a b (by simpa using ha) (by simpa using hb))
      exact ⟨by rw [h1], h2⟩

/-- A struct of a union. -/
def exPathTy : Ty TranspileRef := .struct [(n!"a", .embedded (.union [(⟨n!"b", 1⟩, .embedded .U8)]))]

theorem follows_exPathTy {p : List Ty.Step} {t : Ty TranspileRef} (h : Ty.Follows TranspileRef.asTy exPathTy p t) :
    t = exPathTy ∨ t = .union [(⟨n!"b", 1⟩, .embedded .U8)] ∨ t = .U8 := by
  have u8 : ∀ {p : List Ty.Step} {t : Ty TranspileRef}, Ty.Follows TranspileRef.asTy .U8 p t → t = .U8 := by
    intro p t h
    cases h with
    | nil => rfl
    | cons h1 => cases h1
  have un : ∀ {p : List Ty.Step} {t : Ty TranspileRef},
      Ty.Follows TranspileRef.asTy (.union [(⟨n!"b", 1⟩, .embedded .U8)]) p t →
        t = .union [(⟨n!"b", 1⟩, .embedded .U8)] ∨ t = .U8 := by
    intro p t h
    cases h with
    | nil => exact .inl rfl
    | @cons _ _ _ s _ r h1 h2 h3 =>
      cases s with
      | variant n =>
        obtain ⟨tag, h1⟩ := h1
        simp only [List.mem_singleton, Prod.mk.injEq] at h1
        obtain ⟨-, rfl⟩ := h1
        cases h2
        exact .inr (u8 h3)
      | unnamedField n =>
        obtain ⟨tag, h1⟩ := h1
        simp only [List.mem_singleton, Prod.mk.injEq] at h1
        obtain ⟨-, rfl⟩ := h1
        cases h2
        exact .inr (u8 h3)
      | _ => exact h1.elim
  cases h with
  | nil => exact .inl rfl
  | @cons _ _ _ s _ r h1 h2 h3 =>
    cases s with
    | namedField n =>
      simp only [exPathTy, Ty.SpecStep, List.mem_singleton, Prod.mk.injEq] at h1
      obtain ⟨-, rfl⟩ := h1
      cases h2
      exact .inr (un h3)
    | unnamedField n =>
      simp only [exPathTy, Ty.SpecStep, List.getElem?_singleton] at h1
      obtain ⟨m, h1⟩ := h1
      split at h1
      · cases h1
        cases h2
        exact .inr (un h3)
      · cases h1
    | _ => exact h1.elim

example : (∀ p' t', Ty.Follows TranspileRef.asTy exPathTy p' t' → t'.Definite) ∧
    Ty.Follows TranspileRef.asTy exPathTy [.namedField n!"a", .variant n!"b"] .U8 ∧
    tpathText [.namedField n!"a", .variant n!"b"] = b!".a.b" := by
  refine ⟨?_, ?_, by decide⟩
  · intro p t h s r r' h1 h2
    rcases follows_exPathTy h with rfl | rfl | rfl
    · cases s with
      | namedField n =>
        simp only [exPathTy, Ty.SpecStep, List.mem_singleton, Prod.mk.injEq] at h1 h2
        rw [h1.2, h2.2]
      | unnamedField n =>
        obtain ⟨m, h1⟩ := h1
        obtain ⟨m', h2⟩ := h2
        rw [h1] at h2; cases h2; rfl
      | _ => exact h1.elim
    · cases s with
      | variant n =>
        simp only [Ty.SpecStep, List.mem_singleton, Prod.mk.injEq] at h1 h2
        obtain ⟨_, -, rfl⟩ := h1
        obtain ⟨_, -, rfl⟩ := h2
        rfl
      | unnamedField n =>
        simp only [Ty.SpecStep, List.mem_singleton, Prod.mk.injEq] at h1 h2
        obtain ⟨_, -, rfl⟩ := h1
        obtain ⟨_, -, rfl⟩ := h2
        rfl
      | _ => exact h1.elim
    · exact h1.elim
  · refine .cons (r := .embedded (.union [(⟨n!"b", 1⟩, .embedded .U8)])) (by simp [exPathTy, Ty.SpecStep]) rfl
      (.cons (r := .embedded .U8) ⟨1, by simp⟩ rfl (.nil _))

end Verif
