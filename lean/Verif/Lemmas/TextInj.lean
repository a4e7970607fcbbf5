import Verif.Lemmas.Text

/-!
# The source form of a type determines its syntax tree: the induction
-/

namespace Verif

/-! ## Contents of brackets -/

/-- The signs that end the content of brackets. -/
def isSign (i : Bytes) : Bool := i == b!"^" || i == b!"->"

/-- The text after the content. -/
def suffixText (R : List (Bytes × Bytes)) : Bytes := if R.isEmpty then [] else 32 :: flat R

def withSuffix (L R : List (Bytes × Bytes)) : List (Bytes × Bytes) := if R.isEmpty then L else addGap [32] L ++ R

structure IsSuffix (R : List (Bytes × Bytes)) : Prop where
  lexed : Lexed R
  sign : ∀ p ∈ R.head?, isSign p.1 = true

theorem flat_withSuffix {L R : List (Bytes × Bytes)} (hL : L ≠ []) : flat (withSuffix L R) = flat L ++ suffixText R := by
  unfold withSuffix suffixText
  split
  · simp
  · rw [flat_append, flat_addGap hL]; simp

theorem lexed_withSuffix {L R : List (Bytes × Bytes)} (h : Lexed L) (hR : Lexed R) : Lexed (withSuffix L R) := by
  unfold withSuffix
  split
  · exact h
  · exact .append (by simp) (by decide) hR h

theorem items_not_sign {L : List (Bytes × Bytes)} (h : ∀ i ∈ L.map Prod.fst, isSign i = false) :
    ∀ p ∈ L, (!isSign p.1) = true := by
  intro p hp
  rw [h p.1 (List.mem_map_of_mem hp)]; rfl

theorem cut {L M R S : List (Bytes × Bytes)} (hL : Lexed L) (hM : Lexed M) (hl : L ≠ []) (hm : M ≠ [])
    (hL' : ∀ i ∈ L.map Prod.fst, isSign i = false) (hM' : ∀ i ∈ M.map Prod.fst, isSign i = false)
    (hR : IsSuffix R) (hS : IsSuffix S) (h : flat L ++ suffixText R = flat M ++ suffixText S) : L = M ∧ R = S := by
  rw [← flat_withSuffix hl, ← flat_withSuffix hm] at h
  have h := (lexed_withSuffix hL hR.lexed).unique (lexed_withSuffix hM hS.lexed) h
  have key : ∀ {L M R S : List (Bytes × Bytes)}, (∀ i ∈ L.map Prod.fst, isSign i = false) →
      (∀ i ∈ M.map Prod.fst, isSign i = false) → IsSuffix R → IsSuffix S → L ++ R = M ++ S → L = M ∧ R = S := by
    intro L M R S hL hM hR hS h
    refine append_span (p := fun p => !isSign p.1) (items_not_sign hL) (items_not_sign hM) ?_ ?_ h
    · intro p hp; rw [hR.sign p hp]; rfl
    · intro p hp; rw [hS.sign p hp]; rfl
  unfold withSuffix at h
  cases hr : R with
  | nil =>
    cases hs : S with
    | nil => subst hr; subst hs; exact ⟨by simpa using h, rfl⟩
    | cons q S' =>
      rw [hr, hs] at h
      simp only [List.isEmpty_nil, List.isEmpty_cons, if_true, Bool.false_eq_true, if_false] at h
      rw [← hs] at h
      obtain ⟨-, h2⟩ := key (R := []) (M := addGap [32] M) hL' (by rwa [items_addGap]) ⟨.nil, by simp⟩ hS (by simpa using h)
      rw [hs] at h2; cases h2
  | cons p R' =>
    cases hs : S with
    | nil =>
      rw [hr, hs] at h
      simp only [List.isEmpty_nil, List.isEmpty_cons, if_true, Bool.false_eq_true, if_false] at h
      rw [← hr] at h
      obtain ⟨-, h2⟩ := key (S := []) (L := addGap [32] L) (by rwa [items_addGap]) hM' hR ⟨.nil, by simp⟩ (by simpa using h)
      rw [hr] at h2; cases h2
    | cons q S' =>
      rw [hr, hs] at h
      simp only [List.isEmpty_cons, Bool.false_eq_true, if_false] at h
      rw [← hr, ← hs] at h
      obtain ⟨h1, h2⟩ := key (by rwa [items_addGap]) (by rwa [items_addGap]) hR hS h
      exact ⟨addGap_inj h1, by rw [← hr, ← hs, h2]⟩

/-- The length of an array. -/
def lengthToks (n : Nat) : List (Bytes × Bytes) := [(b!"^", b!" "), (decimal n, [])]

theorem lengthToks_suffix (n : Nat) : IsSuffix (lengthToks n) := by
  refine ⟨.cons ⟨by decide, .inert (by decide)⟩ (by decide) (by decide) (lexed_single (.word (decimal_isWord n))), ?_⟩
  simp [lengthToks, isSign]

theorem lengthToks_text (n : Nat) : suffixText (lengthToks n) = b!" ^ " ++ decimal n := by
  simp [suffixText, lengthToks, flat]

/-- The bound of a collection. -/
def boundToks (G : Glyphs) (sz : Sizing) : List (Bytes × Bytes) :=
  if G.sizing sz = [] then [] else [(b!"^", b!" "), ((G.sizing sz).drop 3, [])]

section
variable {G : Glyphs} {P : Byte → Prop} (hG : G.Clear P)
include hG

theorem boundToks_cases (sz : Sizing) : (G.sizing sz = [] ∧ boundToks G sz = []) ∨
    ∃ w, G.sizing sz = b!" ^ " ++ w ∧ Item w ∧ (∀ n, w ≠ decimal n) ∧ boundToks G sz = [(b!"^", b!" "), (w, [])] := by
  rcases hG.sizing sz with h | ⟨w, h, h1, h2, h3⟩
  · exact .inl ⟨h, by simp [boundToks, h]⟩
  · exact .inr ⟨w, h, ⟨h1, .inert fun c hc => inert_mark (h2 c hc)⟩, h3, by simp [boundToks, h]⟩

theorem boundToks_suffix (sz : Sizing) : IsSuffix (boundToks G sz) := by
  rcases boundToks_cases hG sz with ⟨_, h⟩ | ⟨w, _, h1, _, h⟩
  · rw [h]; exact ⟨.nil, by simp⟩
  · rw [h]
    exact ⟨.cons ⟨by decide, .inert (by decide)⟩ (by decide) (by decide) (.last h1 (by simp)), by simp [isSign]⟩

theorem boundToks_text (sz : Sizing) : suffixText (boundToks G sz) = G.sizing sz := by
  rcases boundToks_cases hG sz with ⟨h1, h⟩ | ⟨w, h1, _, _, h⟩
  · rw [h, h1]; rfl
  · rw [h, h1]; simp [suffixText, flat]

theorem boundToks_inj {a b : Sizing} (h : boundToks G a = boundToks G b) : a = b := by
  apply hG.sizing_inj
  rw [← boundToks_text hG, h, boundToks_text hG]

theorem boundToks_length (sz : Sizing) (n : Nat) : boundToks G sz ≠ lengthToks n := by
  rcases boundToks_cases hG sz with ⟨_, h⟩ | ⟨w, _, _, h3, h⟩
  · rw [h]; simp [lengthToks]
  · rw [h]; simp [lengthToks, h3]

/-- The rest of a map after the key. -/
def mapToks (G : Glyphs) (sz : Sizing) (L : List (Bytes × Bytes)) : List (Bytes × Bytes) :=
  (b!"->", b!" ") :: (addGap b!" " (boundToks G sz) ++ L)

theorem mapToks_suffix (sz : Sizing) {L : List (Bytes × Bytes)} (hL : Lexed L) : IsSuffix (mapToks G sz L) := by
  refine ⟨.cons ⟨by decide, .inert (by decide)⟩ (by decide) (by decide) ?_, by simp [mapToks, isSign]⟩
  exact .append (by decide) (by decide) hL (boundToks_suffix hG sz).lexed

theorem mapToks_text (sz : Sizing) (L : List (Bytes × Bytes)) :
    suffixText (mapToks G sz L) = b!" ->" ++ G.sizing sz ++ b!" " ++ flat L := by
  rcases boundToks_cases hG sz with ⟨h1, h⟩ | ⟨w, h1, _, _, h⟩
  · simp [suffixText, mapToks, h, h1, addGap, flat_cons]
  · simp [suffixText, mapToks, h, h1, addGap, flat_cons]

theorem mapToks_inj {a b : Sizing} {L M : List (Bytes × Bytes)} (hL' : ∀ i ∈ L.map Prod.fst, isSign i = false)
    (hM' : ∀ i ∈ M.map Prod.fst, isSign i = false) (h : mapToks G a L = mapToks G b M) : a = b ∧ L = M := by
  simp only [mapToks, List.cons.injEq, true_and] at h
  have no : ∀ {w : Bytes} {L M : List (Bytes × Bytes)}, (∀ i ∈ L.map Prod.fst, isSign i = false) →
      L ≠ (b!"^", w) :: M := by
    rintro w L M h rfl
    have := h b!"^" (by simp)
    simp [isSign] at this
  rcases boundToks_cases hG a with ⟨_, ha⟩ | ⟨w, _, _, _, ha⟩ <;>
    rcases boundToks_cases hG b with ⟨_, hb⟩ | ⟨x, _, _, _, hb⟩
  · rw [ha, hb] at h
    exact ⟨boundToks_inj hG (by rw [ha, hb]), by simpa [addGap] using h⟩
  · rw [ha, hb] at h
    simp only [addGap, List.nil_append, List.cons_append] at h
    exact absurd h (no hL')
  · rw [ha, hb] at h
    simp only [addGap, List.nil_append, List.cons_append] at h
    exact absurd h.symm (no hM')
  · rw [ha, hb] at h
    simp only [addGap, List.nil_append, List.cons_append, List.cons.injEq, Prod.mk.injEq] at h
    exact ⟨boundToks_inj hG (by rw [ha, hb, h.2.1.1]), h.2.2⟩

/-! ## All types -/

/-- What is known of the text of a plain type. -/
structure Good (G : Glyphs) (b : Bool) (s : Sty) : Prop where
  atom : b = true → Atom (s.render G) ∧ s.toks G = [s.render G] ∧ s.firstGap = []
  lex : ∃ L, LexOf G s L
  sign : ∀ i ∈ s.toks G, isSign i = false
  ne : s.toks G ≠ []

omit hG in
theorem Atom.not_sign {i : Bytes} (h : Atom i) : isSign i = false := by
  have h1 := h.ne (c := 94) (t := []) (by decide)
  have h2 := h.ne (c := 45) (t := [62]) (by decide)
  simp only [isSign, Bool.or_eq_false_iff, beq_eq_false_iff_ne, ne_eq]
  exact ⟨h1, h2⟩

omit hG in
theorem Good.of_atom {s : Sty} {b : Bool} (h : Atom (s.render G)) (h1 : s.toks G = [s.render G]) (h2 : s.firstGap = []) :
    Good G b s :=
  ⟨fun _ => ⟨h, h1, h2⟩, ⟨_, lexOf_atom h h1 h2⟩, by rw [h1]; simpa using h.not_sign, by simp [h1]⟩

omit hG in
theorem LexOf.ne {s : Sty} {L : List (Bytes × Bytes)} (h : LexOf G s L) (hs : s.toks G ≠ []) : L ≠ [] := by
  rintro rfl
  exact hs h.toks.symm

omit hG in
/-- A content with what follows it in brackets. -/
theorem Good.bracket {s : Sty} {c : Bool} (h : Good G c s) {R : List (Bytes × Bytes)} (hR : IsSuffix R) {a b : Byte}
    (ha : openChar a = true) (hb : closeChar b = true) : Atom ([a] ++ (s.render G ++ suffixText R) ++ [b]) := by
  obtain ⟨L, hL⟩ := h.lex
  refine .bracket ha hb ?_
  rw [← hL.text, ← flat_withSuffix (hL.ne h.ne)]
  exact (lexed_withSuffix hL.lexed hR.lexed).balanced

omit hG in
theorem Good.balanced {s : Sty} {c : Bool} (h : Good G c s) : Balanced 1 (s.render G) := by
  obtain ⟨L, hL⟩ := h.lex
  rw [← hL.text]
  exact hL.lexed.balanced

omit hG in
theorem array_text (s : Sty) (len : BitVec 16) : (Sty.array s len).render G =
    [91] ++ (s.render G ++ suffixText (lengthToks len.toNat)) ++ [93] := by
  rw [Sty.render, lengthToks_text]; simp

theorem list_text (s : Sty) (sz : Sizing) : (Sty.list s sz).render G =
    [91] ++ (s.render G ++ suffixText (boundToks G sz)) ++ [93] := by
  rw [Sty.render, boundToks_text hG]; simp

theorem set_text (s : Sty) (sz : Sizing) : (Sty.set s sz).render G =
    [123] ++ (s.render G ++ suffixText (boundToks G sz)) ++ [125] := by
  rw [Sty.render, boundToks_text hG]; simp

theorem map_text (k s : Sty) (sz : Sizing) {L : List (Bytes × Bytes)} (hL : LexOf G s L) : (Sty.map k s sz).render G =
    [123] ++ (k.render G ++ suffixText (mapToks G sz L)) ++ [125] := by
  rw [Sty.render, mapToks_text hG, hL.text]; simp

omit hG in
theorem bar_not_sign : isSign b!"|" = false ∧ isSign b!"(|)" = false := by decide

omit hG in
theorem variantToks_sign {l : List (List Bytes)} (h : ∀ g ∈ l, ∀ i ∈ g, isSign i = false) :
    ∀ i ∈ variantToks l, isSign i = false := by
  match l with
  | [] => simp [variantToks]
  | [a] =>
    intro i hi
    simp only [variantToks, List.mem_append, List.mem_cons, List.not_mem_nil, or_false] at hi
    rcases hi with hi | rfl | rfl
    · exact h a (by simp) i hi
    · exact bar_not_sign.1
    · exact bar_not_sign.2
  | a :: b :: l =>
    intro i hi
    simp only [variantToks, List.mem_append, barred, List.mem_flatMap, List.mem_cons] at hi
    rcases hi with hi | ⟨g, hg, rfl | hi⟩
    · exact h a (by simp) i hi
    · exact bar_not_sign.1
    · exact h g (List.mem_cons_of_mem _ (by simpa using hg)) i hi

omit hG in
theorem variantToks_ne {l : List (List Bytes)} (hl : l ≠ []) (h : ∀ g ∈ l, g ≠ []) : variantToks l ≠ [] := by
  match l, hl with
  | [a], _ => simp [variantToks]
  | a :: b :: l, _ => simp [variantToks, h a (by simp)]

omit hG in
theorem unionPairs_atoms : ∀ (last : Byte) (l : List (Variant × Bytes × Bool)),
    (∀ v ∈ l, Atom (parens v.2.2 v.2.1)) → ∀ p ∈ unionPairs last l, Atom p.1 ∧ Atom p.2
  | _, [], _, _, h => by cases h
  | last, (v, t, c) :: l, h, p, hp => by
    rcases List.mem_cons.1 hp with rfl | hp
    · exact ⟨variantMark_atom _ _, h (v, t, c) (by simp)⟩
    · exact unionPairs_atoms _ l (fun v hv => h v (List.mem_cons_of_mem _ hv)) p hp

theorem Sty.Plain.good {b : Bool} {s : Sty} (h : s.Plain G P b) : Good G b s := by
  induction h with
  | prim hp =>
    refine .of_atom ?_ rfl rfl
    rw [Sty.render]
    rcases hG.prim _ hp with h | h
    · exact .word h
    · rw [h]; exact ⟨Balanced.bracket (s := []) (by decide) (by decide) .nil, 40, by simp, by decide⟩
  | unicode =>
    refine .of_atom ?_ rfl rfl
    rw [Sty.render]
    exact .word ⟨by decide, by decide⟩
  | name => exact .of_atom (.word (Name.isWord _)) rfl rfl
  | ext =>
    refine .of_atom ?_ rfl rfl
    rw [Sty.render]
    exact ((Atom.word (Name.isWord _)).append (.inert (by decide))).append (Atom.word (Name.isWord _)).bal
  | mark h => exact .of_atom (.mark h) rfl rfl
  | link h1 h2 =>
    refine .of_atom ?_ rfl rfl
    rw [Sty.render]
    exact ((Atom.mark h1).append (.inert (by decide))).append (Atom.mark h2).bal
  | opt _ ih =>
    refine .of_atom ?_ rfl rfl
    rw [Sty.render]
    exact (ih.atom rfl).1.append (.inert (by decide))
  | array _ ih =>
    refine .of_atom ?_ rfl rfl
    rw [array_text]
    exact ih.bracket (lengthToks_suffix _) (by decide) (by decide)
  | list _ ih =>
    refine .of_atom ?_ rfl rfl
    rw [list_text hG]
    exact ih.bracket (boundToks_suffix hG _) (by decide) (by decide)
  | set _ ih =>
    refine .of_atom ?_ rfl rfl
    rw [set_text hG]
    exact ih.bracket (boundToks_suffix hG _) (by decide) (by decide)
  | map _ _ ih1 ih2 =>
    refine .of_atom ?_ rfl rfl
    obtain ⟨L, hL⟩ := ih2.lex
    rw [map_text hG _ _ _ hL]
    exact ih1.bracket (mapToks_suffix hG _ hL.lexed) (by decide) (by decide)
  | atom _ ih => exact ⟨fun h => (by cases h), ih.lex, ih.sign, ih.ne⟩
  | @tuple l hl _ ih =>
    refine ⟨fun h => (by cases h), lexOf_tuple hl fun s hs => ((ih s hs).atom rfl).1, ?_, ?_⟩
    · intro i hi
      obtain ⟨s, hs, rfl⟩ := List.mem_map.1 hi
      exact ((ih s hs).atom rfl).1.not_sign
    · simp only [Sty.toks, ne_eq, List.map_eq_nil_iff]; rintro rfl; simp at hl
  | @struct l hl _ ih =>
    refine ⟨fun h => (by cases h), lexOf_struct hl fun s hs => ((ih s hs).atom rfl).1, ?_, ?_⟩
    · intro i hi
      simp only [Sty.toks, List.mem_flatMap, List.mem_cons, List.not_mem_nil, or_false] at hi
      obtain ⟨f, hf, rfl | rfl⟩ := hi
      · exact (Atom.word f.1.isWord).not_sign
      · exact ((ih f hf).atom rfl).1.not_sign
    · cases l with
      | nil => exact absurd rfl hl
      | cons f l => simp [Sty.toks]
  | @enum vs hv =>
    refine ⟨fun h => (by cases h), lexOf_enum hv, ?_, ?_⟩
    · refine variantToks_sign ?_
      intro g hg i hi
      obtain ⟨a, ha, rfl⟩ := List.mem_map.1 hg
      rw [List.mem_singleton.1 hi]
      exact (enumItems_atoms _ _ a ha).not_sign
    · refine variantToks_ne ?_ ?_
      · cases vs with
        | nil => exact absurd rfl hv
        | cons v vs => simp [enumItems]
      · intro g hg
        obtain ⟨a, ha, rfl⟩ := List.mem_map.1 hg
        simp
  | @union l hl _ ih =>
    have hp : ∀ v ∈ Sty.renderVariants G l, Atom (parens v.2.2 v.2.1) := by
      rw [Sty.renderVariants_eq]
      intro v hv
      obtain ⟨⟨w, c, s⟩, hw, rfl⟩ := List.mem_map.1 hv
      have := ih _ hw
      cases c with
      | false => simpa [parens] using (this.atom rfl).1
      | true => exact .bracket (by decide) (by decide) this.balanced
    refine ⟨fun h => (by cases h), lexOf_union hl (unionPairs_atoms _ _ hp), ?_, ?_⟩
    · refine variantToks_sign ?_
      intro g hg i hi
      obtain ⟨a, ha, rfl⟩ := List.mem_map.1 hg
      obtain ⟨h1, h2⟩ := unionPairs_atoms _ _ hp a ha
      simp only [List.mem_cons, List.not_mem_nil, or_false] at hi
      rcases hi with rfl | rfl
      · exact h1.not_sign
      · exact h2.not_sign
    · refine variantToks_ne ?_ ?_
      · cases l with
        | nil => exact absurd rfl hl
        | cons v vs => simp [Sty.renderVariants, unionPairs]
      · intro g hg
        obtain ⟨a, ha, rfl⟩ := List.mem_map.1 hg
        simp


/-! ## Injectivity -/

omit hG in
theorem bracket_inj {a b : Byte} {s t : Bytes} (h : [a] ++ s ++ [b] = [a] ++ t ++ [b]) : s = t :=
  List.append_cancel_left (List.append_cancel_right h)

/-- Contents of brackets. -/
theorem content_inj {s t : Sty} {b c : Bool} (hs : s.Plain G P b) (ht : t.Plain G P c) {R S : List (Bytes × Bytes)}
    (hR : IsSuffix R) (hS : IsSuffix S) (h : s.render G ++ suffixText R = t.render G ++ suffixText S) :
    s.render G = t.render G ∧ R = S := by
  have gs := hs.good hG
  have gt := ht.good hG
  obtain ⟨L, hL⟩ := gs.lex
  obtain ⟨M, hM⟩ := gt.lex
  rw [← hL.text, ← hM.text] at h
  obtain ⟨h1, h2⟩ := cut hL.lexed hM.lexed (hL.ne gs.ne) (hM.ne gt.ne) (hL.toks ▸ gs.sign) (hM.toks ▸ gt.sign) hR hS h
  exact ⟨by rw [← hL.text, ← hM.text, h1], h2⟩

/-- The items and the first gap are determined by the text. -/
theorem toks_inj {s t : Sty} {b c : Bool} (hs : s.Plain G P b) (ht : t.Plain G P c) (h : s.render G = t.render G) :
    s.toks G = t.toks G ∧ s.firstGap = t.firstGap := by
  have gs := hs.good hG
  have gt := ht.good hG
  obtain ⟨L, hL⟩ := gs.lex
  obtain ⟨M, hM⟩ := gt.lex
  have h1 := hL.lexed.unique hM.lexed (by rw [hL.text, hM.text, h])
  subst h1
  refine ⟨by rw [← hL.toks, ← hM.toks], ?_⟩
  match L, hL.ne gs.ne with
  | p :: L, _ => rw [← hL.gap p (by simp), ← hM.gap p (by simp)]

/-- The kinds of items. -/
inductive AtomKind
  | word | dotted | mark | link | opt | square | curly
  deriving DecidableEq

def atomKind (i : Bytes) : AtomKind :=
  if i.getLast? = some 63 then .opt
  else if i.head? = some 91 then .square
  else if i.head? = some 123 then .curly
  else if (46 : Byte) ∈ i then if (45 : Byte) ∈ i then .link else .dotted
  else if (45 : Byte) ∈ i then .mark
  else .word

def Sty.atomKind : Sty → AtomKind
  | .opt _ => .opt
  | .array _ _ => .square
  | .list _ _ => .square
  | .set _ _ => .curly
  | .map _ _ _ => .curly
  | .ext _ _ => .dotted
  | .mark _ => .mark
  | .link _ _ => .link
  | _ => .word

omit hG in
theorem word_kind {i : Bytes} (h : IsWord i) : Verif.atomKind i = .word := by
  have h1 : i.getLast? ≠ some 63 := fun e => h.not_mem (by decide) (List.mem_of_getLast? e)
  have h2 : i.head? ≠ some 91 := fun e => h.not_mem (by decide) (List.mem_of_head? e)
  have h3 : i.head? ≠ some 123 := fun e => h.not_mem (by decide) (List.mem_of_head? e)
  have h4 : (46 : Byte) ∉ i := h.not_mem (by decide)
  have h5 : (45 : Byte) ∉ i := h.not_mem (by decide)
  simp only [Verif.atomKind, h1, h2, h3, h4, h5, if_false]

omit hG in
theorem square_kind (s : Bytes) : Verif.atomKind ([91] ++ s ++ [93]) = .square := by
  have h : ([91] ++ s ++ [93] : Bytes).getLast? ≠ some 63 := by rw [List.getLast?_concat]; decide
  simp only [Verif.atomKind, h, if_false]
  simp

omit hG in
theorem curly_kind (s : Bytes) : Verif.atomKind ([123] ++ s ++ [125]) = .curly := by
  have h : ([123] ++ s ++ [125] : Bytes).getLast? ≠ some 63 := by rw [List.getLast?_concat]; decide
  simp only [Verif.atomKind, h, if_false]
  simp

theorem atomKind_eq {s : Sty} (h : s.Plain G P true) : Verif.atomKind (s.render G) = s.atomKind := by
  cases h with
  | prim hp =>
    rcases hG.prim _ hp with h | h
    · exact word_kind h
    · simp only [Sty.render, h, Sty.atomKind]; decide
  | unicode => simp only [Sty.render]; decide
  | name => exact word_kind (Name.isWord _)
  | @ext l n =>
    obtain ⟨c, r, hl, -, hc⟩ := l.chars_first
    have hn := n.isWord
    have h1 : (l.bytes ++ b!"." ++ n.bytes).getLast? ≠ some 63 := by
      have : n.bytes.getLast? = some (n.bytes.getLast hn.1) := List.getLast?_eq_some_getLast hn.1
      rw [List.getLast?_append, this, Option.some_or, ← this]
      exact fun e => hn.not_mem (by decide) (List.mem_of_getLast? e)
    have h2 : isAlphaNumLodash c = true := hc c (by simp)
    have h3 : c ≠ 91 := by rintro rfl; revert h2; decide
    have h4 : c ≠ 123 := by rintro rfl; revert h2; decide
    have h5 : (l.bytes ++ b!"." ++ n.bytes).head? = some c := by simp [hl]
    have h6 : (46 : Byte) ∈ l.bytes ++ b!"." ++ n.bytes := by simp
    have h7 : (45 : Byte) ∉ l.bytes ++ b!"." ++ n.bytes := by
      simp only [List.mem_append, not_or]
      exact ⟨⟨l.isWord.not_mem (by decide), by decide⟩, hn.not_mem (by decide)⟩
    simp only [Sty.render, Verif.atomKind, h1, h5, h6, h7, Option.some.injEq, h3, h4, if_false, if_true, Sty.atomKind]
  | mark h =>
    have h1 := idText_ne (c := 63) h (by decide)
    have h2 := idText_ne (c := 91) h (by decide)
    have h3 := idText_ne (c := 123) h (by decide)
    have h4 := idText_ne (c := 46) h (by decide)
    simp only [Sty.render, Verif.atomKind, mt List.mem_of_getLast? h1, mt List.mem_of_head? h2, mt List.mem_of_head? h3,
      h4, idText_dash h, if_false, if_true, Sty.atomKind]
  | @link a b ha hb =>
    have no : ∀ {c : Byte}, idChar c = false → c ≠ 46 → c ∉ a ++ b!"." ++ b := by
      intro c hc hd
      simp only [List.mem_append, not_or]
      exact ⟨⟨idText_ne ha hc, by simpa using hd⟩, idText_ne hb hc⟩
    have h1 := no (c := 63) (by decide) (by decide)
    have h2 := no (c := 91) (by decide) (by decide)
    have h3 := no (c := 123) (by decide) (by decide)
    have h4 : (46 : Byte) ∈ a ++ b!"." ++ b := by simp
    have h5 : (45 : Byte) ∈ a ++ b!"." ++ b := List.mem_append_left _ (List.mem_append_left _ (idText_dash ha))
    simp only [Sty.render, Verif.atomKind, mt List.mem_of_getLast? h1, mt List.mem_of_head? h2, mt List.mem_of_head? h3,
      h4, h5, if_false, if_true, Sty.atomKind]
  | opt => simp [Sty.render, Verif.atomKind, Sty.atomKind]
  | array => rw [array_text]; exact square_kind _
  | list => rw [list_text hG]; exact square_kind _
  | set => rw [set_text hG]; exact curly_kind _
  | map _ h2 =>
    obtain ⟨L, hL⟩ := (h2.good hG).lex
    rw [map_text hG _ _ _ hL]; exact curly_kind _


omit hG in
theorem Sty.Plain.atom_of {c : Bool} {t : Sty} (h : t.Plain G P c) (hg : t.firstGap = []) : t.Plain G P true := by
  cases h with
  | atom h => exact h
  | tuple => simp [Sty.firstGap] at hg
  | struct => simp [Sty.firstGap] at hg
  | enum => simp [Sty.firstGap] at hg
  | union => simp [Sty.firstGap] at hg
  | prim h => exact .prim h
  | unicode => exact .unicode
  | name h1 h2 => exact .name h1 h2
  | ext => exact .ext
  | mark h => exact .mark h
  | link h1 h2 => exact .link h1 h2
  | opt h => exact .opt h
  | array h => exact .array h
  | list h => exact .list h
  | set h => exact .set h
  | map h1 h2 => exact .map h1 h2

omit hG in
theorem tagMark_inj {last t u : Byte} (h : tagMark last t = tagMark last u) : t = u := by
  unfold tagMark at h
  split at h <;> split at h
  · rename_i h1 h2; rw [← h1, ← h2]
  · simp at h
  · simp at h
  · exact BitVec.eq_of_toNat_eq (decimal_inj (List.append_cancel_left h))

omit hG in
theorem variantMark_inj {last : Byte} {v w : Variant} (h : variantMark last v = variantMark last w) : v = w := by
  have hm : ∀ t, ∀ x ∈ (tagMark last t).head?, isAlphaNumLodash x = false := by
    intro t x hx
    unfold tagMark at hx
    split at hx
    · simp at hx
    · simp at hx; subst hx; decide
  obtain ⟨h1, h2⟩ := append_span v.name.isWord.2 w.name.isWord.2 (hm _) (hm _) h
  obtain ⟨n, t⟩ := v
  obtain ⟨m, u⟩ := w
  exact Variant.mk.injEq .. ▸ ⟨Name.ext h1, tagMark_inj h2⟩

omit hG in
theorem enumItems_inj : ∀ {last : Byte} {l m : List Variant}, enumItems last l = enumItems last m → l = m
  | _, [], [], _ => rfl
  | _, [], _ :: _, h => by simp [enumItems] at h
  | _, _ :: _, [], h => by simp [enumItems] at h
  | last, v :: l, w :: m, h => by
    simp only [enumItems, List.cons.injEq] at h
    obtain rfl := variantMark_inj h.1
    rw [enumItems_inj h.2]

omit hG in
/-- Groups of the same size are determined by their items. -/
theorem barred_inj {n : Nat} : ∀ {l m : List (List Bytes)}, (∀ g ∈ l, g.length = n) → (∀ g ∈ m, g.length = n) →
    barred l = barred m → l = m
  | [], [], _, _, _ => rfl
  | [], _ :: _, _, _, h => by simp [barred] at h
  | _ :: _, [], _, _, h => by simp [barred] at h
  | a :: l, b :: m, hl, hm, h => by
    simp only [barred, List.flatMap_cons, List.cons_append, List.cons.injEq, true_and] at h
    obtain ⟨h1, h2⟩ := List.append_inj h ((hl a (by simp)).trans (hm b (by simp)).symm)
    rw [h1, barred_inj (fun g hg => hl g (List.mem_cons_of_mem _ hg)) (fun g hg => hm g (List.mem_cons_of_mem _ hg)) h2]

omit hG in
theorem variantToks_inj {n : Nat} {l m : List (List Bytes)} (hl : ∀ g ∈ l, g.length = n) (hm : ∀ g ∈ m, g.length = n)
    (hn : n = 1 ∨ n = 2) (hl0 : l ≠ []) (hm0 : m ≠ []) (hx : ∀ g ∈ l ++ m, g.head? ≠ some b!"(|)")
    (h : variantToks l = variantToks m) : l = m := by
  have key : ∀ {a b c : List Bytes} {m : List (List Bytes)}, a.length = n → b.length = n → (∀ g ∈ c :: m, g.length = n) →
      c.head? ≠ some b!"(|)" → a ++ [b!"|", b!"(|)"] ≠ b ++ barred (c :: m) := by
    intro a b c m ha hb hc hx h
    obtain ⟨-, h2⟩ := List.append_inj h (ha.trans hb.symm)
    simp only [barred, List.flatMap_cons, List.cons_append, List.cons.injEq, true_and] at h2
    have hc' := hc c (by simp)
    match c, hc', hx with
    | [], hc', _ => simp at hc'; omega
    | x :: c, _, hx =>
      simp only [List.cons_append, List.cons.injEq] at h2
      exact hx (by rw [← h2.1]; rfl)
  match l, m, hl0, hm0, hl, hm, hx, h with
  | [a], [b], _, _, hl, hm, _, h =>
    simp only [variantToks] at h
    rw [List.append_cancel_right h]
  | [a], b :: c :: m, _, _, hl, hm, hx, h =>
    simp only [variantToks] at h
    exact absurd h (key (hl a (by simp)) (hm b (by simp)) (fun g hg => hm g (List.mem_cons_of_mem _ hg))
      (hx c (by simp)))
  | a :: c :: l, [b], _, _, hl, hm, hx, h =>
    simp only [variantToks] at h
    exact absurd h.symm (key (hm b (by simp)) (hl a (by simp)) (fun g hg => hl g (List.mem_cons_of_mem _ hg))
      (hx c (by simp)))
  | a :: c :: l, b :: d :: m, _, _, hl, hm, _, h =>
    simp only [variantToks] at h
    obtain ⟨h1, h2⟩ := List.append_inj h ((hl a (by simp)).trans (hm b (by simp)).symm)
    rw [h1, barred_inj (fun g hg => hl g (List.mem_cons_of_mem _ hg)) (fun g hg => hm g (List.mem_cons_of_mem _ hg)) h2]


/-! ### The induction -/

/-- The text of `s` is that of no other plain type. -/
def Told (G : Glyphs) (P : Byte → Prop) (s : Sty) : Prop :=
  ∀ c t, t.Plain G P c → s.render G = t.render G → s = t

omit hG in
theorem tuple_inj : ∀ {l m : List Sty}, (∀ s ∈ l, Told G P s) → (∀ s ∈ m, s.Plain G P true) →
    l.map (Sty.render G) = m.map (Sty.render G) → l = m
  | [], [], _, _, _ => rfl
  | [], _ :: _, _, _, h => by simp at h
  | _ :: _, [], _, _, h => by simp at h
  | s :: l, t :: m, hl, hm, h => by
    simp only [List.map_cons, List.cons.injEq] at h
    rw [hl s (by simp) true t (hm t (by simp)) h.1,
      tuple_inj (fun s hs => hl s (List.mem_cons_of_mem _ hs)) (fun s hs => hm s (List.mem_cons_of_mem _ hs)) h.2]

omit hG in
theorem struct_inj : ∀ {l m : List (Name × Sty)}, (∀ s ∈ l, Told G P s.2) → (∀ s ∈ m, s.2.Plain G P true) →
    (l.flatMap fun f => [f.1.bytes, f.2.render G]) = (m.flatMap fun f => [f.1.bytes, f.2.render G]) → l = m
  | [], [], _, _, _ => rfl
  | [], _ :: _, _, _, h => by simp at h
  | _ :: _, [], _, _, h => by simp at h
  | (n, s) :: l, (k, t) :: m, hl, hm, h => by
    simp only [List.flatMap_cons, List.cons_append, List.nil_append, List.cons.injEq] at h
    have h1 : s = t := hl (n, s) (by simp) true t (hm (k, t) (by simp)) h.2.1
    rw [h1, Name.ext h.1,
      struct_inj (fun s hs => hl s (List.mem_cons_of_mem _ hs)) (fun s hs => hm s (List.mem_cons_of_mem _ hs)) h.2.2]

/-- An item in parentheses is not an item of a plain type. -/
theorem not_parens {s t : Sty} (hs : s.Plain G P true) (ht : t.Plain G P false) :
    s.render G ≠ parens true (t.render G) := by
  intro h
  have hne : t.render G ≠ [] := by
    have gt := ht.good hG
    obtain ⟨L, hL⟩ := gt.lex
    intro e
    have : flat L = [] := by rw [hL.text, e]
    exact hL.ne gt.ne (hL.lexed.unique .nil this)
  have hh : (s.render G).head? = some 40 := by rw [h]; simp [parens]
  have hl : (s.render G).getLast? = some 41 := by rw [h]; simp only [parens, if_true]; rw [List.getLast?_concat]; rfl
  have word : ∀ {i : Bytes}, IsWord i → i.head? ≠ some 40 := fun hi e => hi.not_mem (by decide) (List.mem_of_head? e)
  cases hs with
  | prim hp =>
    rcases hG.prim _ hp with h1 | h1
    · exact word h1 hh
    · rw [Sty.render, h1] at h
      simp only [parens, if_true] at h
      exact hne (bracket_inj (a := 40) (b := 41) (s := []) h).symm
  | unicode => simp [Sty.render] at hh
  | name => exact word (Name.isWord _) hh
  | @ext l n =>
    obtain ⟨c, r, hb, -, hc⟩ := l.chars_first
    simp only [Sty.render, hb, List.cons_append, List.head?_cons, Option.some.injEq] at hh
    subst hh
    exact absurd (hc 40 (by simp)) (by decide)
  | mark hm => exact idText_ne (c := 40) hm (by decide) (List.mem_of_head? hh)
  | link h1 h2 =>
    have := List.mem_of_head? hh
    simp only [Sty.render, List.mem_append] at this
    rcases this with (h | h) | h
    · exact idText_ne h1 (by decide) h
    · exact absurd h (by decide)
    · exact idText_ne h2 (by decide) h
  | opt =>
    rw [Sty.render, List.getLast?_concat] at hl
    exact absurd hl (by decide)
  | array => rw [array_text] at hh; simp at hh
  | list => rw [list_text hG] at hh; simp at hh
  | set => rw [set_text hG] at hh; simp at hh
  | map _ h2 =>
    obtain ⟨L, hL⟩ := (h2.good hG).lex
    rw [map_text hG _ _ _ hL] at hh; simp at hh

theorem union_inj : ∀ {last : Byte} {l m : List (Variant × Bool × Sty)},
    (∀ v ∈ l, v.2.2.Plain G P (!v.2.1)) → (∀ v ∈ l, Told G P v.2.2) → (∀ v ∈ m, v.2.2.Plain G P (!v.2.1)) →
    unionPairs last (Sty.renderVariants G l) = unionPairs last (Sty.renderVariants G m) → l = m
  | _, [], [], _, _, _, _ => rfl
  | _, [], _ :: _, _, _, _, h => by simp [Sty.renderVariants, unionPairs] at h
  | _, _ :: _, [], _, _, _, h => by simp [Sty.renderVariants, unionPairs] at h
  | last, (v, b, s) :: l, (w, c, t) :: m, hp, hl, hm, h => by
    simp only [Sty.renderVariants, unionPairs, List.cons.injEq, Prod.mk.injEq] at h
    obtain ⟨⟨h1, h2⟩, h3⟩ := h
    obtain rfl := variantMark_inj h1
    have hs := hp (v, b, s) (by simp)
    have ht := hm (v, c, t) (by simp)
    have hst : b = c ∧ s.render G = t.render G := by
      cases b <;> cases c
      · exact ⟨rfl, by simpa [parens] using h2⟩
      · exact absurd (by simpa [parens] using h2) (not_parens hG hs ht)
      · exact absurd (by simpa [parens] using h2.symm) (not_parens hG ht hs)
      · exact ⟨rfl, bracket_inj h2⟩
    obtain ⟨rfl, h4⟩ := hst
    have h5 : s = t := hl (v, b, s) (by simp) _ t ht h4
    rw [h5, union_inj (fun s hs => hp s (List.mem_cons_of_mem _ hs))
      (fun s hs => hl s (List.mem_cons_of_mem _ hs)) (fun s hs => hm s (List.mem_cons_of_mem _ hs)) h3]


/-- The second item of a struct or union is an item of its own, and the third of a struct too. -/
theorem struct_not_bar {l : List (Name × Sty)} (h : ∀ f ∈ l, f.2.Plain G P true) :
    (Sty.struct l).toks G ≠ [] → ((Sty.struct l).toks G)[1]? ≠ some b!"|" ∧ ((Sty.struct l).toks G)[2]? ≠ some b!"|" := by
  intro _
  have hb : ∀ {i : Bytes}, Atom i → some i ≠ some b!"|" := fun hi e => hi.ne (by decide) (Option.some.inj e)
  match l, h with
  | [], _ => simp [Sty.toks]
  | [f], h =>
    simp only [Sty.toks, List.flatMap_cons, List.flatMap_nil, List.append_nil]
    exact ⟨hb (((h f (by simp)).good hG).atom rfl).1, by simp⟩
  | f :: g :: l, h =>
    simp only [Sty.toks, List.flatMap_cons]
    exact ⟨hb (((h f (by simp)).good hG).atom rfl).1, hb (.word g.1.isWord)⟩

omit hG in
theorem enum_bar {vs : List Variant} (h : vs ≠ []) : ((Sty.enum vs).toks G)[1]? = some b!"|" := by
  match vs, h with
  | [v], _ => rfl
  | v :: w :: vs, _ => rfl

omit hG in
theorem union_bar {l : List (Variant × Bool × Sty)} (h : l ≠ []) : ((Sty.union l).toks G)[2]? = some b!"|" := by
  match l, h with
  | [v], _ => rfl
  | v :: w :: l, _ => rfl

theorem parens_atom {v : Variant × Bool × Sty} (h : v.2.2.Plain G P (!v.2.1)) : Atom (parens v.2.1 (v.2.2.render G)) := by
  obtain ⟨v, b, s⟩ := v
  cases b with
  | false => simpa [parens] using ((h.good hG).atom rfl).1
  | true => exact .bracket (by decide) (by decide) (h.good hG).balanced

theorem union_not_bar {l : List (Variant × Bool × Sty)} (h : ∀ v ∈ l, v.2.2.Plain G P (!v.2.1)) :
    ((Sty.union l).toks G)[1]? ≠ some b!"|" := by
  have hb : ∀ {i : Bytes}, Atom i → some i ≠ some b!"|" := fun hi e => hi.ne (by decide) (Option.some.inj e)
  match l, h with
  | [], _ => simp [Sty.toks, Sty.renderVariants, unionPairs, variantToks]
  | [v], h => exact hb (parens_atom hG (h v (by simp)))
  | v :: w :: l, h => exact hb (parens_atom hG (h v (by simp)))

omit hG in
theorem variantMark_ne (last : Byte) (v : Variant) : variantMark last v ≠ b!"(|)" := by
  intro h
  obtain ⟨c, r, hb, -, hc⟩ := v.name.chars_first
  simp only [variantMark, hb, List.cons_append, List.cons.injEq] at h
  exact absurd (h.1 ▸ hc c (by simp)) (by decide)

omit hG in
theorem enumItems_ne : ∀ (last : Byte) (l : List Variant), b!"(|)" ∉ enumItems last l
  | _, [], h => by cases h
  | last, v :: l, h => by
    rcases List.mem_cons.1 h with h | h
    · exact variantMark_ne last v h.symm
    · exact enumItems_ne _ l h

omit hG in
theorem unionPairs_ne : ∀ (last : Byte) (l : List (Variant × Bytes × Bool)), ∀ p ∈ unionPairs last l, p.1 ≠ b!"(|)"
  | _, [], _, h => by cases h
  | last, (v, t, c) :: l, p, h => by
    rcases List.mem_cons.1 h with rfl | h
    · exact variantMark_ne last v
    · exact unionPairs_ne _ l p h

/-- The text of a plain type is that of no other plain type. -/
theorem Sty.Plain.told {b : Bool} {s : Sty} (hs : s.Plain G P b) : Told G P s := by
  -- an item is told from items of its kind
  have atomCase : ∀ {s : Sty}, s.Plain G P true → (∀ t, t.Plain G P true → s.atomKind = t.atomKind →
      s.render G = t.render G → s = t) → Told G P s := by
    intro s hs h c t ht e
    have hg : t.firstGap = [] := by
      rw [← (toks_inj hG hs ht e).2]
      exact ((hs.good hG).atom rfl).2.2
    have ht := ht.atom_of hg
    exact h t ht (by rw [← atomKind_eq hG hs, ← atomKind_eq hG ht, e]) e
  induction hs with
  | @prim p hp =>
    refine atomCase (.prim hp) ?_
    intro t ht hk e
    cases ht with
    | prim hq => rw [hG.prim_inj _ _ hp hq e]
    | unicode => exact absurd e (hG.prim_unicode _ hp)
    | name h1 => exact absurd e.symm (h1 _ hp)
    | _ => cases hk
  | unicode =>
    refine atomCase .unicode ?_
    intro t ht hk e
    cases ht with
    | prim hq => exact absurd e.symm (hG.prim_unicode _ hq)
    | unicode => rfl
    | name _ h2 => exact absurd e.symm h2
    | _ => cases hk
  | name h1 h2 =>
    refine atomCase (.name h1 h2) ?_
    intro t ht hk e
    cases ht with
    | prim hq => exact absurd e (h1 _ hq)
    | unicode => exact absurd e h2
    | name => rw [Name.ext e]
    | _ => cases hk
  | @ext l n =>
    refine atomCase .ext ?_
    intro t ht hk e
    cases ht with
    | @ext l' n' =>
      simp only [Sty.render, List.append_assoc] at e
      have hd : ∀ m : Bytes, ∀ x ∈ (b!"." ++ m).head?, isAlphaNumLodash x = false := by
        intro m x hx; simp at hx; subst hx; decide
      obtain ⟨h1, h2⟩ := append_span l.isWord.2 l'.isWord.2 (hd _) (hd _) e
      rw [Name.ext h1, Name.ext (List.append_cancel_left h2)]
    | _ => cases hk
  | mark h =>
    refine atomCase (.mark h) ?_
    intro t ht hk e
    cases ht with
    | mark => rw [Sty.render, Sty.render] at e; rw [e]
    | _ => cases hk
  | @link a b ha hb =>
    refine atomCase (.link ha hb) ?_
    intro t ht hk e
    cases ht with
    | @link a' b' ha' hb' =>
      simp only [Sty.render, List.append_assoc] at e
      have hd : ∀ m : Bytes, ∀ x ∈ (b!"." ++ m).head?, idChar x = false := by
        intro m x hx; simp at hx; subst hx; decide
      obtain ⟨h1, h2⟩ := append_span (idText_chars ha) (idText_chars ha') (hd _) (hd _) e
      rw [h1, List.append_cancel_left h2]
    | _ => cases hk
  | opt h ih =>
    refine atomCase (.opt h) ?_
    intro t ht hk e
    cases ht with
    | opt ht =>
      rw [Sty.render, Sty.render] at e
      rw [ih true _ ht (List.append_cancel_right e)]
    | _ => cases hk
  | array h ih =>
    refine atomCase (.array h) ?_
    intro t ht hk e
    cases ht with
    | array ht =>
      rw [array_text, array_text] at e
      obtain ⟨h1, h2⟩ := content_inj hG h ht (lengthToks_suffix _) (lengthToks_suffix _) (bracket_inj e)
      simp only [lengthToks, List.cons.injEq, Prod.mk.injEq, and_true, true_and] at h2
      rw [ih _ _ ht h1, BitVec.eq_of_toNat_eq (decimal_inj h2)]
    | list ht =>
      rw [array_text, list_text hG] at e
      obtain ⟨-, h2⟩ := content_inj hG h ht (lengthToks_suffix _) (boundToks_suffix hG _) (bracket_inj e)
      exact absurd h2.symm (boundToks_length hG _ _)
    | _ => cases hk
  | list h ih =>
    refine atomCase (.list h) ?_
    intro t ht hk e
    cases ht with
    | array ht =>
      rw [array_text, list_text hG] at e
      obtain ⟨-, h2⟩ := content_inj hG h ht (boundToks_suffix hG _) (lengthToks_suffix _) (bracket_inj e)
      exact absurd h2 (boundToks_length hG _ _)
    | list ht =>
      rw [list_text hG, list_text hG] at e
      obtain ⟨h1, h2⟩ := content_inj hG h ht (boundToks_suffix hG _) (boundToks_suffix hG _) (bracket_inj e)
      rw [ih _ _ ht h1, boundToks_inj hG h2]
    | _ => cases hk
  | set h ih =>
    refine atomCase (.set h) ?_
    intro t ht hk e
    cases ht with
    | set ht =>
      rw [set_text hG, set_text hG] at e
      obtain ⟨h1, h2⟩ := content_inj hG h ht (boundToks_suffix hG _) (boundToks_suffix hG _) (bracket_inj e)
      rw [ih _ _ ht h1, boundToks_inj hG h2]
    | map hk' ht =>
      obtain ⟨M, hM⟩ := (ht.good hG).lex
      rw [set_text hG, map_text hG _ _ _ hM] at e
      obtain ⟨-, h2⟩ := content_inj hG h hk' (boundToks_suffix hG _) (mapToks_suffix hG _ hM.lexed) (bracket_inj e)
      rcases boundToks_cases hG _ with ⟨_, hb⟩ | ⟨w, _, _, _, hb⟩ <;> rw [hb] at h2 <;> simp [mapToks] at h2
    | _ => cases hk
  | map hk1 hs1 ih1 ih2 =>
    refine atomCase (.map hk1 hs1) ?_
    intro t ht hk e
    obtain ⟨L, hL⟩ := (hs1.good hG).lex
    cases ht with
    | set ht =>
      rw [set_text hG, map_text hG _ _ _ hL] at e
      obtain ⟨-, h2⟩ := content_inj hG hk1 ht (mapToks_suffix hG _ hL.lexed) (boundToks_suffix hG _) (bracket_inj e)
      rcases boundToks_cases hG _ with ⟨_, hb⟩ | ⟨w, _, _, _, hb⟩ <;> rw [hb] at h2 <;> simp [mapToks] at h2
    | map hk' ht =>
      obtain ⟨M, hM⟩ := (ht.good hG).lex
      rw [map_text hG _ _ _ hL, map_text hG _ _ _ hM] at e
      obtain ⟨h1, h2⟩ := content_inj hG hk1 hk' (mapToks_suffix hG _ hL.lexed) (mapToks_suffix hG _ hM.lexed)
        (bracket_inj e)
      obtain ⟨h3, h4⟩ := mapToks_inj hG (hL.toks ▸ (hs1.good hG).sign) (hM.toks ▸ (ht.good hG).sign) h2
      rw [ih1 _ _ hk' h1, ih2 _ _ ht (by rw [← hL.text, ← hM.text, h4]), h3]
    | _ => cases hk
  | atom _ ih => exact ih
  | @tuple l hl h ih =>
    intro c t ht e
    obtain ⟨h1, h2⟩ := toks_inj hG (.tuple hl h) ht e
    cases ht with
    | tuple _ hm => rw [tuple_inj ih hm h1]
    | struct => simp [Sty.firstGap] at h2
    | enum => simp [Sty.firstGap] at h2
    | union => simp [Sty.firstGap] at h2
    | atom ht => rw [((ht.good hG).atom rfl).2.2] at h2; simp [Sty.firstGap] at h2
    | _ => simp [Sty.firstGap] at h2
  | @struct l hl h ih =>
    intro c t ht e
    obtain ⟨h1, h2⟩ := toks_inj hG (.struct hl h) ht e
    have hn := struct_not_bar hG h (((Sty.Plain.struct hl h).good hG).ne)
    cases ht with
    | tuple _ hm => simp [Sty.firstGap] at h2
    | struct _ hm => rw [struct_inj ih hm h1]
    | enum hv => exact absurd (h1 ▸ enum_bar hv) hn.1
    | union hv => exact absurd (h1 ▸ union_bar hv) hn.2
    | atom ht => rw [((ht.good hG).atom rfl).2.2] at h2; simp [Sty.firstGap] at h2
    | _ => simp [Sty.firstGap] at h2
  | @enum vs hv =>
    intro c t ht e
    obtain ⟨h1, h2⟩ := toks_inj hG (.enum hv) ht e
    cases ht with
    | tuple _ hm => simp [Sty.firstGap] at h2
    | struct hm h =>
      exact absurd (h1 ▸ enum_bar hv) (struct_not_bar hG h (((Sty.Plain.struct hm h).good hG).ne)).1
    | @enum ws hw =>
      have hne : ∀ {vs : List Variant}, vs ≠ [] → (enumItems 0 vs).map (fun a => [a]) ≠ [] := by
        intro vs hv
        cases vs with
        | nil => exact absurd rfl hv
        | cons v vs => simp [enumItems]
      have hlen : ∀ {vs : List Variant}, ∀ g ∈ (enumItems 0 vs).map (fun a => [a]), g.length = 1 := by
        intro vs g hg
        obtain ⟨a, -, rfl⟩ := List.mem_map.1 hg
        rfl
      have := variantToks_inj (n := 1) hlen hlen (.inl rfl) (hne hv) (hne hw) ?_ h1
      · have := enumItems_inj (List.map_inj_right (by simp) |>.1 this)
        rw [this]
      · intro g hg
        have : ∀ {vs : List Variant}, g ∈ (enumItems 0 vs).map (fun a => [a]) → g.head? ≠ some b!"(|)" := by
          intro vs hg
          obtain ⟨a, ha, rfl⟩ := List.mem_map.1 hg
          intro e
          exact enumItems_ne _ _ (Option.some.inj e ▸ ha)
        rcases List.mem_append.1 hg with hg | hg
        · exact this hg
        · exact this hg
    | union hw h => exact absurd (h1 ▸ enum_bar hv) (union_not_bar hG h)
    | atom ht => rw [((ht.good hG).atom rfl).2.2] at h2; simp [Sty.firstGap] at h2
    | _ => simp [Sty.firstGap] at h2
  | @union l hl h ih =>
    intro c t ht e
    obtain ⟨h1, h2⟩ := toks_inj hG (.union hl h) ht e
    cases ht with
    | tuple _ hm => simp [Sty.firstGap] at h2
    | struct hm h' =>
      exact absurd (h1 ▸ union_bar hl) (struct_not_bar hG h' (((Sty.Plain.struct hm h').good hG).ne)).2
    | enum hw => exact absurd (h1 ▸ enum_bar hw) (union_not_bar hG h)
    | @union m hm h' =>
      have hne : ∀ {l : List (Variant × Bool × Sty)}, l ≠ [] →
          (unionPairs 0 (Sty.renderVariants G l)).map (fun p => [p.1, p.2]) ≠ [] := by
        intro vs hv
        cases vs with
        | nil => exact absurd rfl hv
        | cons v vs => simp [Sty.renderVariants, unionPairs]
      have hlen : ∀ {l : List (Variant × Bool × Sty)},
          ∀ g ∈ (unionPairs 0 (Sty.renderVariants G l)).map (fun p => [p.1, p.2]), g.length = 2 := by
        intro vs g hg
        obtain ⟨a, -, rfl⟩ := List.mem_map.1 hg
        rfl
      have := variantToks_inj (n := 2) hlen hlen (.inr rfl) (hne hl) (hne hm) ?_ h1
      · have := List.map_inj_right (fun p q h => by
          obtain ⟨a, b⟩ := p
          obtain ⟨c, d⟩ := q
          simpa using h) |>.1 this
        rw [union_inj hG h ih h' this]
      · intro g hg
        have : ∀ {l : List (Variant × Bool × Sty)},
            g ∈ (unionPairs 0 (Sty.renderVariants G l)).map (fun p => [p.1, p.2]) → g.head? ≠ some b!"(|)" := by
          intro vs hg
          obtain ⟨a, ha, rfl⟩ := List.mem_map.1 hg
          intro e
          exact unionPairs_ne _ _ a ha (Option.some.inj e)
        rcases List.mem_append.1 hg with hg | hg
        · exact this hg
        · exact this hg
    | atom ht => rw [((ht.good hG).atom rfl).2.2] at h2; simp [Sty.firstGap] at h2
    | _ => simp [Sty.firstGap] at h2

end

end Verif
