import Verif.Model.Vesper
import Verif.Spec.Vesper
import Verif.Lemmas.PathText
import Verif.Lemmas.Layout

/-!
# Lemmas on the text of layouts
-/

namespace Verif

/-! ## Ranges -/

theorem dot_not_decimal (n : Nat) : (46 : Byte) ∉ decimal n := (decimal_isWord n).not_mem (by decide)

/-- The names of upper bounds start with a letter. -/
theorem max_ne_decimal (r : Bytes) (n : Nat) : (77 : Byte) :: r ≠ decimal n := by
  intro h
  have := decimal_digit (n := n) 77 (by rw [← h]; simp)
  revert this; decide

theorem upperText_inj {a b : BitVec 64} (h : upperText a = upperText b) : a = b := by
  have key : ∀ {r : Bytes} {n : Nat}, (77 : Byte) :: r = decimal n → False := fun h => max_ne_decimal _ _ h
  unfold upperText at h
  repeat' split at h
  all_goals first
    | (subst_vars; rfl)
    | (exact absurd h (by decide))
    | (exact (key h).elim)
    | (exact (key h.symm).elim)
    | (exact toNat_inj h)

theorem rangeText_inj {a b c d : BitVec 64} (h : rangeText a b = rangeText c d) : a = c ∧ b = d := by
  unfold rangeText at h
  rw [List.append_assoc, List.append_assoc] at h
  obtain ⟨h1, h2⟩ := append_span (p := isDigit) (fun c hc => decimal_digit c hc) (fun c hc => decimal_digit c hc)
    (by intro c hc; simp at hc; subst hc; decide) (by intro c hc; simp at hc; subst hc; decide) h
  exact ⟨toNat_inj h1, upperText_inj (List.append_cancel_left h2)⟩

theorem rangeText_ne_decimal (a b : BitVec 64) (n : Nat) : rangeText a b ≠ decimal n := by
  intro h
  exact dot_not_decimal n (by rw [← h]; simp [rangeText])

theorem rangeText_ne_word (a b : BitVec 64) {w : Bytes} (hw : IsWord w) : rangeText a b ≠ w := by
  intro h
  exact hw.not_mem (c := 46) (by decide) (by rw [← h]; simp [rangeText])

/-! ## Labels -/

theorem space_not_word {w : Bytes} (h : IsWord w) : (32 : Byte) ∉ w := h.not_mem (by decide)

theorem upperText_word (m : BitVec 64) : IsWord (upperText m) := by
  unfold upperText
  repeat' split
  all_goals first
    | exact decimal_isWord _
    | exact ⟨by simp, by decide⟩

/-- Characters of labels. -/
def labelChar (c : Byte) : Bool := isAlphaNumLodash c || c == 46

theorem IsWord.label {w : Bytes} (h : IsWord w) : ∀ c ∈ w, labelChar c = true := by
  intro c hc
  simp [labelChar, h.2 c hc]

theorem Attr.value_label {G : Glyphs} {P : Byte → Prop} (hG : G.Words P) {a : Attr} (ha : a.Clear G P) :
    ∀ c ∈ a.value G, labelChar c = true := by
  cases a with
  | prim p => exact IsWord.label (hG.word p ha)
  | lenRange lo hi =>
    intro c hc
    simp only [Attr.value, rangeText, List.mem_append] at hc
    rcases hc with (hc | hc) | hc
    · exact (decimal_isWord _).label c hc
    · simp at hc; subst hc; decide
    · exact (upperText_word _).label c hc
  | unit => simp only [Attr.value]; decide
  | option => simp only [Attr.value]; decide
  | _ => first
    | exact (Name.isWord _).label
    | exact (decimal_isWord _).label

/-- The name and the value are read off the text. -/
theorem Attr.text_split {G : Glyphs} {P : Byte → Prop} (hG : G.Words P) {a b : Attr} (ha : a.Clear G P)
    (hb : b.Clear G P) (h : a.text G = b.text G) : a.name = b.name ∧ a.value G = b.value G := by
  have va := Attr.value_label hG ha
  have vb := Attr.value_label hG hb
  have nv : ∀ {v : Bytes}, (∀ c ∈ v, labelChar c = true) → (32 : Byte) ∉ v := by
    intro v hv h; have := hv _ h; revert this; decide
  unfold Attr.text at h
  cases hn : a.name with
  | none =>
    cases hm : b.name with
    | none => rw [hn, hm] at h; exact ⟨rfl, h⟩
    | some m =>
      rw [hn, hm] at h
      simp only [List.nil_append] at h
      exact absurd (by rw [h]; simp) (nv va)
  | some n =>
    cases hm : b.name with
    | none =>
      rw [hn, hm] at h
      simp only [List.nil_append] at h
      exact absurd (by rw [← h]; simp) (nv vb)
    | some m =>
      rw [hn, hm] at h
      simp only [List.append_assoc] at h
      obtain ⟨h1, h2⟩ := append_span (p := isAlphaNumLodash) n.isWord.2 m.isWord.2
        (by intro c hc; simp at hc; subst hc; decide) (by intro c hc; simp at hc; subst hc; decide) h
      refine ⟨?_, List.append_cancel_left h2⟩
      cases n; cases m; simp_all

theorem decimal_ne_name (n : Name) (k : Nat) : decimal k ≠ n.bytes := fun h => name_ne_decimal n k h.symm

theorem Attr.ext_of {G : Glyphs} {P : Byte → Prop} (hG : G.Words P) {a b : Attr} (ha : a.Clear G P)
    (hb : b.Clear G P) (hn : a.name = b.name) (hv : a.value G = b.value G) : a = b := by
  have nb : ∀ {n m : Name}, n.bytes = m.bytes → n = m := Name.ext
  have lit : ∀ {n : Name} {s : Bytes} {hs : nameOk s = true}, n.bytes = s → n = ⟨s, hs⟩ := fun h => Name.ext h
  cases a <;> cases b
  case wrapped.wrapped m n =>
    cases m <;> cases n <;> simp only [Attr.name, reduceCtorEq] at hn
    · rfl
    · have hv' : (_ : Name).bytes = (_ : Name).bytes := hv
      simp only [Option.getD_some] at hv'
      rw [nb hv']
  case lenRange.lenRange => obtain ⟨rfl, rfl⟩ := rangeText_inj hv; rfl
  case lenRange.len => exact absurd hv (rangeText_ne_decimal _ _ _)
  case len.lenRange => exact absurd hv.symm (rangeText_ne_decimal _ _ _)
  case lenRange.enumVariant => exact absurd hv (rangeText_ne_decimal _ _ _)
  case enumVariant.lenRange => exact absurd hv.symm (rangeText_ne_decimal _ _ _)
  case prim.prim => rw [hG.inj _ _ ha hb hv]
  case enumVariant.enumVariant =>
    simp only [Attr.name, Option.some.injEq] at hn
    rw [toNat_inj hv, hn]
  case wrapped.typeName m n =>
    cases m
    · exact absurd (lit hv.symm) hb.2.2.1
    · cases hn
  case typeName.wrapped n m =>
    cases m
    · exact absurd (lit hv) ha.2.2.1
    · cases hn
  case wrapped.prim m n =>
    cases m
    · exact absurd hv.symm (hG.apart _ hb).2.2
    · cases hn
  case prim.wrapped n m =>
    cases m
    · exact absurd hv (hG.apart _ ha).2.2
    · cases hn
  case wrapped.enumVariant m t n =>
    cases m
    · cases hn
    · exact absurd hv (name_ne_decimal _ _)
  case enumVariant.wrapped t n m =>
    cases m
    · cases hn
    · exact absurd hv (decimal_ne_name _ _)
  case unit.wrapped m =>
    cases m
    · exact absurd (show b!"Unit" = b!"wrapped" from hv) (by decide)
    · cases hn
  case wrapped.unit m =>
    cases m
    · exact absurd (show b!"Unit" = b!"wrapped" from hv.symm) (by decide)
    · cases hn
  case option.wrapped m =>
    cases m
    · exact absurd (show b!"option" = b!"wrapped" from hv) (by decide)
    · cases hn
  case wrapped.option m =>
    cases m
    · exact absurd (show b!"option" = b!"wrapped" from hv.symm) (by decide)
    · cases hn
  case wrapped.lenRange m _ _ => cases m <;> first | cases hn | exact absurd hn (by decide)
  case lenRange.wrapped _ _ m => cases m <;> first | cases hn | exact absurd hn (by decide)
  case unit.option => exact absurd (show b!"Unit" = b!"option" from hv) (by decide)
  case option.unit => exact absurd (show b!"Unit" = b!"option" from hv.symm) (by decide)
  all_goals first
    | rfl
    | (exact absurd hn (by decide))
    | (exact absurd hv (by decide))
    | (cases hn; done)
    | (rw [toNat_inj hv]; done)
    | (rw [nb hv]; done)
    | (exact absurd hv (name_ne_decimal _ _))
    | (exact absurd hv (decimal_ne_name _ _))
    | (exact absurd (lit hv) ha.1)
    | (exact absurd (lit hv) ha.2.1)
    | (exact absurd (lit hv.symm) hb.1)
    | (exact absurd (lit hv.symm) hb.2.1)
    | (exact absurd hv (ha.2.2.2 _ hb))
    | (exact absurd hv.symm (hb.2.2.2 _ ha))
    | (exact absurd hv (hG.apart _ ha).1)
    | (exact absurd hv (hG.apart _ ha).2.1)
    | (exact absurd hv.symm (hG.apart _ hb).1)
    | (exact absurd hv.symm (hG.apart _ hb).2.1)
    | (simp only [Attr.name, Option.some.injEq] at hn; first | exact absurd hn ha.1 | exact absurd hn ha.2 | exact absurd hn.symm hb.1 | exact absurd hn.symm hb.2)
    | (rename_i x y; cases x <;> first | cases hn | exact absurd hn (by decide))
    | (rename_i x y; cases y <;> first | cases hn | exact absurd hn (by decide))

/-! ## Lines -/

theorem Attr.text_label {G : Glyphs} {P : Byte → Prop} (hG : G.Words P) {a : Attr} (ha : a.Clear G P) :
    ∀ c ∈ a.text G, (labelChar c || c == 32) = true := by
  intro c hc
  unfold Attr.text at hc
  rw [List.mem_append] at hc
  rcases hc with hc | hc
  · cases hn : a.name with
    | none => rw [hn] at hc; simp at hc
    | some n =>
      rw [hn] at hc
      simp only [List.mem_append, List.mem_singleton] at hc
      rcases hc with hc | rfl
      · simp [n.isWord.label c hc]
      · simp
  · simp [Attr.value_label hG ha c hc]

theorem Attr.text_inj {G : Glyphs} {P : Byte → Prop} (hG : G.Words P) {a b : Attr} (ha : a.Clear G P)
    (hb : b.Clear G P) (h : a.text G = b.text G) : a = b :=
  have h' := Attr.text_split hG ha hb h
  Attr.ext_of hG ha hb h'.1 h'.2

/-- Lists of labels are read off the text. -/
theorem attrs_inj {G : Glyphs} {P : Byte → Prop} (hG : G.Words P) : ∀ {l m : List Attr}, (∀ a ∈ l, a.Clear G P) →
    (∀ a ∈ m, a.Clear G P) → (l.flatMap fun a => b!", " ++ a.text G) = (m.flatMap fun a => b!", " ++ a.text G) → l = m
  | [], [], _, _, _ => rfl
  | [], b :: m, _, _, h => by simp at h
  | a :: l, [], _, _, h => by simp at h
  | a :: l, b :: m, hl, hm, h => by
    have hd : ∀ l : List Attr, ∀ c ∈ (l.flatMap fun a => b!", " ++ a.text G).head?, (labelChar c || c == 32) = false := by
      intro l c hc
      cases l with
      | nil => simp at hc
      | cons a l => simp at hc; subst hc; decide
    simp only [List.flatMap_cons, List.append_assoc] at h
    have h := List.append_cancel_left h
    obtain ⟨h1, h2⟩ := append_span (p := fun c => labelChar c || c == 32) (Attr.text_label hG (hl a (by simp)))
      (Attr.text_label hG (hm b (by simp))) (hd l) (hd m) h
    rw [Attr.text_inj hG (hl a (by simp)) (hm b (by simp)) h1,
      attrs_inj hG (fun a ha => hl a (by simp [ha])) (fun a ha => hm a (by simp [ha])) h2]

theorem Pred.text_word (p : Pred) : IsWord p.text := by
  cases p <;> exact ⟨by simp [Pred.text], by decide⟩

theorem Pred.text_inj {p q : Pred} (h : p.text = q.text) : p = q := by
  revert h; cases p <;> cases q <;> decide

theorem newline_not_line {G : Glyphs} {P : Byte → Prop} (hG : G.Words P) {h : VHead} (hh : ∀ a ∈ h.attributes, a.Clear G P) :
    ∀ c ∈ h.text G, (c != 10) = true := by
  intro c hc
  have hw : ∀ {w : Bytes}, IsWord w → c ∈ w → (c != 10) = true := by
    intro w hw hc
    have := hw.2 c hc
    clear hc hh
    revert this; generalize c = x; revert x; decide +kernel
  simp only [VHead.text, List.mem_append, List.mem_flatMap] at hc
  rcases hc with ((hc | hc) | hc) | ⟨a, ha, hc | hc⟩
  · exact hw (Pred.text_word _) hc
  · simp at hc; subst hc; decide
  · exact hw (Name.isWord _) hc
  · simp at hc; rcases hc with rfl | rfl <;> decide
  · have := Attr.text_label hG (hh a ha) c hc
    revert this; generalize c = x; revert x; decide +kernel

theorem VHead.text_inj {G : Glyphs} {P : Byte → Prop} (hG : G.Words P) {h k : VHead}
    (hh : h.comment = none ∧ ∀ a ∈ h.attributes, a.Clear G P) (hk : k.comment = none ∧ ∀ a ∈ k.attributes, a.Clear G P)
    (e : h.text G = k.text G) : h = k := by
  simp only [VHead.text, List.append_assoc] at e
  obtain ⟨h1, h2⟩ := append_span (p := isAlphaNumLodash) (Pred.text_word _).2 (Pred.text_word _).2
    (by intro c hc; simp at hc; subst hc; decide) (by intro c hc; simp at hc; subst hc; decide) e
  have h2 := List.append_cancel_left h2
  have hd : ∀ l : List Attr, ∀ c ∈ (l.flatMap fun a => b!", " ++ a.text G).head?, isAlphaNumLodash c = false := by
    intro l c hc
    cases l with
    | nil => simp at hc
    | cons a l => simp at hc; subst hc; decide
  obtain ⟨h3, h4⟩ := append_span (p := isAlphaNumLodash) (Name.isWord _).2 (Name.isWord _).2 (hd _) (hd _) h2
  have h5 := attrs_inj hG hh.2 hk.2 h4
  have h6 := Pred.text_inj h1
  have h7 := Name.ext h3
  obtain ⟨h8, -⟩ := hh
  obtain ⟨h9, -⟩ := hk
  cases h; cases k; simp_all

/-! ## Indentation -/

/-- The number of spaces at the start. -/
def lead : Bytes → Nat
  | [] => 0
  | c :: s => if c = 32 then lead s + 1 else 0

theorem lead_replicate (n : Nat) (s : Bytes) : lead (List.replicate n 32 ++ s) = n + lead s := by
  induction n with
  | zero => simp
  | succ n ih => simp only [List.replicate_succ, List.cons_append, lead, if_true, ih]; omega

/-- The rest of a text after an expression indented by `d` steps: the next line is no further to the right. -/
def Shallow (d : Nat) (r : Bytes) : Prop := r = [] ∨ lead r ≤ 2 * d

theorem line_lead {G : Glyphs} (d : Nat) (h : VHead) (r : Bytes) :
    lead (List.replicate (2 * d) 32 ++ (h.text G ++ r)) = 2 * d := by
  rw [lead_replicate]
  have h1 := Pred.text_word h.predicate
  have : lead (h.text G ++ r) = 0 := by
    simp only [VHead.text, List.append_assoc]
    cases hp : h.predicate.text with
    | nil => exact absurd hp h1.1
    | cons c w =>
      have := h1.2 c (by rw [hp]; simp)
      have hc : c ≠ 32 := by intro e; subst e; revert this; decide
      have hc' : ¬ c = 32#8 := hc
      simp [lead, hc']
  omega

theorem text_eq {G : Glyphs} (d : Nat) (h : VHead) (cs : List VExpr) (r : Bytes) : VExpr.text G d (.node h cs) ++ r =
    List.replicate (2 * d) 32 ++ (h.text G ++ (10 :: (VExpr.texts G (d + 1) cs ++ r))) := by
  simp [VExpr.text]

theorem text_lead {G : Glyphs} (d : Nat) (e : VExpr) (r : Bytes) : lead (e.text G d ++ r) = 2 * d := by
  cases e with
  | node h cs => rw [text_eq, line_lead]

theorem text_ne {G : Glyphs} (d : Nat) (e : VExpr) (r : Bytes) : e.text G d ++ r ≠ [] := by
  cases e with
  | node h cs => rw [text_eq]; simp

theorem texts_shallow {G : Glyphs} (d : Nat) (es : List VExpr) {r : Bytes} (hr : r = [] ∨ lead r < 2 * d) :
    Shallow d (VExpr.texts G d es ++ r) := by
  cases es with
  | nil => rcases hr with h | h
           · exact .inl (by simp [VExpr.texts, h])
           · exact .inr (by simp only [VExpr.texts, List.nil_append]; omega)
  | cons e es => exact .inr (by simp only [VExpr.texts, List.append_assoc, text_lead]; omega)

mutual
/-- An expression is read off the text which starts with it. -/
theorem text_split {G : Glyphs} {P : Byte → Prop} (hG : G.Words P) (d : Nat) : ∀ (e : VExpr) (f : VExpr) (r s : Bytes),
    e.Clear G P → f.Clear G P → Shallow d r → Shallow d s → e.text G d ++ r = f.text G d ++ s → e = f ∧ r = s
  | .node h cs, .node k ds, r, s, he, hf, hr, hs, heq => by
    rw [text_eq, text_eq] at heq
    have heq := List.append_cancel_left heq
    have ch := he h (by simp [VExpr.heads])
    have ck := hf k (by simp [VExpr.heads])
    obtain ⟨h1, h2⟩ := append_span (p := fun c => c != 10) (newline_not_line hG ch.2) (newline_not_line hG ck.2)
      (by intro c hc; simp at hc; subst hc; decide) (by intro c hc; simp at hc; subst hc; decide) heq
    have h2 := (List.cons.inj h2).2
    have h3 := VHead.text_inj hG ch ck h1
    subst h3
    obtain ⟨h4, h5⟩ := texts_split hG (d + 1) cs ds r s
      (fun x hx => he x (by simp [VExpr.heads, hx])) (fun x hx => hf x (by simp [VExpr.heads, hx]))
      (by exact hr.imp id fun h => by omega)
      (by exact hs.imp id fun h => by omega) h2
    exact ⟨by rw [h4], h5⟩
/-- Expressions are read off the text which starts with them, if what follows is further to the left. -/
theorem texts_split {G : Glyphs} {P : Byte → Prop} (hG : G.Words P) (d : Nat) : ∀ (es fs : List VExpr) (r s : Bytes),
    (∀ h ∈ VExpr.headsOf es, h.comment = none ∧ ∀ a ∈ h.attributes, a.Clear G P) →
    (∀ h ∈ VExpr.headsOf fs, h.comment = none ∧ ∀ a ∈ h.attributes, a.Clear G P) →
    (r = [] ∨ lead r < 2 * d) → (s = [] ∨ lead s < 2 * d) → VExpr.texts G d es ++ r = VExpr.texts G d fs ++ s →
    es = fs ∧ r = s
  | [], [], r, s, _, _, _, _, heq => by simpa [VExpr.texts] using heq
  | [], f :: fs, r, s, _, _, hr, _, heq => by
    simp only [VExpr.texts, List.nil_append, List.append_assoc] at heq
    rcases hr with h | h
    · exact absurd (heq.symm.trans h) (text_ne _ _ _)
    · rw [heq, text_lead] at h; omega
  | e :: es, [], r, s, _, _, _, hs, heq => by
    simp only [VExpr.texts, List.nil_append, List.append_assoc] at heq
    rcases hs with h | h
    · exact absurd (heq.trans h) (text_ne _ _ _)
    · rw [← heq, text_lead] at h; omega
  | e :: es, f :: fs, r, s, he, hf, hr, hs, heq => by
    simp only [VExpr.texts, List.append_assoc] at heq
    obtain ⟨h1, h2⟩ := text_split hG d e f _ _ (fun x hx => he x (by simp [VExpr.headsOf, hx]))
      (fun x hx => hf x (by simp [VExpr.headsOf, hx])) (texts_shallow d es hr) (texts_shallow d fs hs) heq
    obtain ⟨h3, h4⟩ := texts_split hG d es fs r s (fun x hx => he x (by simp [VExpr.headsOf, hx]))
      (fun x hx => hf x (by simp [VExpr.headsOf, hx])) hr hs h2
    exact ⟨by rw [h1, h3], h4⟩
end

/-! ## Labels of items -/

theorem subject_attrs {fqn : Option TypeFqn} {item : Option Ty.ItemCase} {n : Name} {attrs : List Attr}
    (h : subject fqn item = .ok (n, attrs)) : attrs = [] ∨ ∃ f, fqn = some f ∧ attrs = [.typeName f.name] := by
  cases fqn with
  | none =>
    left
    unfold subject at h
    simp only [Option.map_none, Option.getD_none, ne_eq, not_true_eq_false, if_false, ite_self] at h
    repeat' split at h
    all_goals simp_all
  | some f =>
    unfold subject at h
    simp only [Option.map_some, Option.getD_some, Option.isSome_some, if_true] at h
    repeat' split at h
    all_goals simp_all

/-- The parts of the line of an item. -/
theorem toVesper_parts {H : Hash} {m : Nat} {i : TypeInfo} {e : VHead} (h : i.toVesper H m = .ok e) :
    e.comment = none ∧ ∃ attrs, subject i.fqn i.item = .ok (e.subject, attrs) ∧
      e.attributes = attrs ++ tyAttrs i.ty ++ i.nested.flatMap nestedAttrs ++ enumAttrs i.ty ++ tagAttrs i.item := by
  unfold TypeInfo.toVesper at h
  rw [Out.bind_eq_ok] at h
  obtain ⟨⟨s, attrs⟩, hs, h⟩ := h
  dsimp only at h
  split at h
  · simp only [Out.pure_eq, Out.ok.injEq] at h
    subst h
    exact ⟨rfl, attrs, hs, rfl⟩
  · cases h

theorem nestedAttrs_clear {G : Glyphs} {P : Byte → Prop} {n : NestedCase} : ∀ a ∈ nestedAttrs n, a.Clear G P := by
  intro a ha
  cases n <;> simp only [nestedAttrs, List.mem_append, Option.mem_toList, Option.map_eq_some_iff, List.mem_singleton,
    List.not_mem_nil] at ha
  · subst ha; trivial
  · subst ha; trivial
  · obtain ⟨_, _, rfl⟩ := ha; trivial
  · rcases ha with (⟨_, _, rfl⟩ | ⟨_, _, rfl⟩) | rfl <;> trivial

theorem toVesper_clear {G : Glyphs} {P : Byte → Prop} {H : Hash} {m : Nat} {i : TypeInfo} {e : VHead}
    (hi : i.Clear G P) (h : i.toVesper H m = .ok e) : e.comment = none ∧ ∀ a ∈ e.attributes, a.Clear G P := by
  obtain ⟨hc, attrs, hs, ha⟩ := toVesper_parts h
  refine ⟨hc, fun a h => ?_⟩
  rw [ha] at h
  simp only [List.mem_append, List.mem_flatMap] at h
  rcases h with (((h | h) | ⟨n, _, h⟩) | h) | h
  · rcases subject_attrs hs with rfl | ⟨f, hf, rfl⟩
    · cases h
    · simp only [List.mem_singleton] at h
      subst h
      exact hi.named f hf
  · cases ht : i.ty <;> rw [ht] at h <;> simp only [tyAttrs, List.mem_singleton, List.not_mem_nil] at h
    · rename_i p
      split at h
      · simp only [List.mem_singleton] at h; subst h; trivial
      · simp only [List.mem_singleton] at h
        subst h
        rcases hi.prim p ht with h | h
        · contradiction
        · exact h
    all_goals subst h; trivial
  · exact nestedAttrs_clear a h
  · cases ht : i.ty <;> rw [ht] at h <;> simp only [enumAttrs, List.mem_map, List.not_mem_nil] at h
    obtain ⟨v, hv, rfl⟩ := h
    exact hi.values _ ht v hv
  · unfold tagAttrs at h
    split at h
    · simp only [List.mem_singleton] at h; subst h; trivial
    · cases h

/-- The value a label shows. -/
def Attr.value? : Attr → Option Variant
  | .enumVariant t n => some ⟨n, t⟩
  | _ => none

/-- The code of the primitive type a label shows. -/
def Attr.code? : Attr → Option Byte
  | .unit => some Ty.UNIT_CODE
  | .prim p => some p
  | _ => none

/-- The length a label shows. -/
def Attr.len? : Attr → Option (BitVec 16)
  | .len n => some n
  | _ => none

/-- The tag a label shows. -/
def Attr.tag? : Attr → Option Byte
  | .tag t => some t
  | _ => none

/-- The bounds a label shows. -/
def Attr.bounds? : Attr → Option Sizing
  | .lenRange lo hi => some ⟨lo, hi⟩
  | _ => none

theorem filterMap_none {α β : Type} {f : α → Option β} {l : List α} (h : ∀ a ∈ l, f a = none) : l.filterMap f = [] := by
  rw [List.filterMap_eq_nil_iff]
  exact h

theorem toVesper_reads {H : Hash} {m : Nat} {i : TypeInfo} {e : VHead} (h : i.toVesper H m = .ok e) :
    e.attributes.filterMap Attr.value? = i.ty.values ∧
    e.attributes.filterMap Attr.code? = i.ty.code.toList ∧
    e.attributes.filterMap Attr.len? = i.ty.arrayLen.toList ∧
    e.attributes.filterMap Attr.tag? = i.tag?.toList ∧
    ∀ sz, i.ty.bounds = some sz → (e.attributes.filterMap Attr.bounds?).head? = some sz := by
  obtain ⟨-, attrs, hs, ha⟩ := toVesper_parts h
  have h1 : ∀ a ∈ attrs, ∃ n, a = .typeName n := by
    rcases subject_attrs hs with rfl | ⟨f, -, rfl⟩ <;> simp
  have h2 : ∀ a ∈ i.nested.flatMap nestedAttrs, a.value? = none ∧ a.code? = none ∧ a.len? = none ∧ a.tag? = none := by
    intro a ha
    rw [List.mem_flatMap] at ha
    obtain ⟨n, -, ha⟩ := ha
    cases n <;> simp only [nestedAttrs, List.mem_append, Option.mem_toList, Option.map_eq_some_iff, List.mem_singleton,
      List.not_mem_nil] at ha
    · subst ha; simp [Attr.value?, Attr.code?, Attr.len?, Attr.tag?]
    · subst ha; simp [Attr.value?, Attr.code?, Attr.len?, Attr.tag?]
    · obtain ⟨_, _, rfl⟩ := ha; simp [Attr.value?, Attr.code?, Attr.len?, Attr.tag?]
    · rcases ha with (⟨_, _, rfl⟩ | ⟨_, _, rfl⟩) | rfl <;> simp [Attr.value?, Attr.code?, Attr.len?, Attr.tag?]
  have h3 : (enumAttrs i.ty).filterMap Attr.value? = i.ty.values ∧ (enumAttrs i.ty).filterMap Attr.code? = [] ∧
      (enumAttrs i.ty).filterMap Attr.len? = [] ∧ (enumAttrs i.ty).filterMap Attr.tag? = [] := by
    cases i.ty <;> simp [enumAttrs, Ty.values, List.filterMap_map, Function.comp_def, Attr.value?, Attr.code?, Attr.len?,
      Attr.tag?]
  have h4 : (tyAttrs i.ty).filterMap Attr.value? = [] ∧ (tyAttrs i.ty).filterMap Attr.code? = i.ty.code.toList ∧
      (tyAttrs i.ty).filterMap Attr.len? = i.ty.arrayLen.toList ∧ (tyAttrs i.ty).filterMap Attr.tag? = [] := by
    cases i.ty <;> simp only [tyAttrs, Ty.code, Ty.arrayLen]
    case primitive p =>
      split <;> simp_all [Attr.value?, Attr.code?, Attr.len?, Attr.tag?]
    all_goals simp [Attr.value?, Attr.code?, Attr.len?, Attr.tag?]
  have h5 : (tagAttrs i.item).filterMap Attr.value? = [] ∧ (tagAttrs i.item).filterMap Attr.code? = [] ∧
      (tagAttrs i.item).filterMap Attr.len? = [] ∧ (tagAttrs i.item).filterMap Attr.tag? = i.tag?.toList := by
    unfold tagAttrs TypeInfo.tag?
    split <;> simp_all [Attr.value?, Attr.code?, Attr.len?, Attr.tag?]
  have h6 : ∀ {β : Type} {f : Attr → Option β}, (∀ n, f (.typeName n) = none) → attrs.filterMap f = [] := by
    intro β f hf
    refine filterMap_none fun a ha => ?_
    obtain ⟨n, rfl⟩ := h1 a ha
    exact hf n
  rw [ha]
  simp only [List.filterMap_append]
  refine ⟨?_, ?_, ?_, ?_, ?_⟩
  · rw [h6 (fun _ => rfl), h4.1, filterMap_none fun a ha => (h2 a ha).1, h3.1, h5.1]; simp
  · rw [h6 (fun _ => rfl), h4.2.1, filterMap_none fun a ha => (h2 a ha).2.1, h3.2.1, h5.2.1]; simp
  · rw [h6 (fun _ => rfl), h4.2.2.1, filterMap_none fun a ha => (h2 a ha).2.2.1, h3.2.2.1, h5.2.2.1]; simp
  · rw [h6 (fun _ => rfl), h4.2.2.2, filterMap_none fun a ha => (h2 a ha).2.2.2, h3.2.2.2, h5.2.2.2]; simp
  · intro sz hz
    rw [h6 (fun _ => rfl)]
    cases ht : i.ty <;> rw [ht] at hz <;> simp only [Ty.bounds, reduceCtorEq, Option.some.injEq] at hz
    all_goals subst hz; simp [tyAttrs, Attr.bounds?]

end Verif
