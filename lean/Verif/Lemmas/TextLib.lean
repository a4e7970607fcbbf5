import Verif.Lemmas.TextInj

/-!
# The source form of a library determines what it shows
-/

namespace Verif

/-! ## Texts that end with a gap -/

/-- Items with gaps after each of them. -/
def Spaced (L : List (Bytes × Bytes)) : Prop := ∀ p ∈ L, Item p.1 ∧ p.2 ≠ [] ∧ ∀ c ∈ p.2, gapChar c = true

theorem Spaced.lexed : ∀ {L : List (Bytes × Bytes)}, Spaced L → Lexed L
  | [], _ => .nil
  | p :: L, h => .cons (h p (by simp)).1 (h p (by simp)).2.1 (h p (by simp)).2.2
      (Spaced.lexed fun q hq => h q (List.mem_cons_of_mem _ hq))

theorem Spaced.append {L M : List (Bytes × Bytes)} (hL : Spaced L) (hM : Spaced M) : Spaced (L ++ M) := by
  intro p hp
  rcases List.mem_append.1 hp with hp | hp
  · exact hL p hp
  · exact hM p hp

theorem Spaced.addGap {g : Bytes} (hg : ∀ c ∈ g, gapChar c = true) : ∀ {L : List (Bytes × Bytes)}, Spaced L →
    Spaced (Verif.addGap g L)
  | [], h => h
  | [p], h => by
    obtain ⟨h1, h2, h3⟩ := h p (by simp)
    intro q hq
    simp only [Verif.addGap, List.mem_singleton] at hq
    subst hq
    refine ⟨h1, by simp [h2], ?_⟩
    intro c hc
    rcases List.mem_append.1 hc with hc | hc
    · exact h3 c hc
    · exact hg c hc
  | p :: q :: L, h => by
    have h2 := Spaced.addGap (L := q :: L) hg fun x hx => h x (List.mem_cons_of_mem _ hx)
    intro x hx
    rcases List.mem_cons.1 hx with rfl | hx
    · exact h x (by simp)
    · exact h2 x hx

/-- A lexed text becomes a text that ends with a gap. -/
theorem Lexed.spaced {g : Bytes} (hn : g ≠ []) (hg : ∀ c ∈ g, gapChar c = true) :
    ∀ {L : List (Bytes × Bytes)}, Lexed L → Spaced (Verif.addGap g L)
  | [], _ => by intro p hp; cases hp
  | [p], h => by
    obtain ⟨h1, h2, -, -⟩ := h.inv
    intro q hq
    simp only [Verif.addGap, List.mem_singleton] at hq
    subst hq
    refine ⟨h1, by simp [hn], ?_⟩
    intro c hc
    rcases List.mem_append.1 hc with hc | hc
    · exact h2 c hc
    · exact hg c hc
  | p :: q :: L, h => by
    obtain ⟨h1, h2, h3, h4⟩ := h.inv
    have h5 := Lexed.spaced hn hg h4
    intro x hx
    rcases List.mem_cons.1 hx with rfl | hx
    · exact ⟨h1, h3 (by simp), h2⟩
    · exact h5 x hx

/-- The text has the items, perhaps after a gap, and ends with a gap. -/
def Lexes (t : Bytes) (I : List Bytes) : Prop :=
  ∃ g L, t = g ++ flat L ∧ (∀ c ∈ g, gapChar c = true) ∧ Spaced L ∧ L.map Prod.fst = I

theorem Lexes.gap {g : Bytes} (hg : ∀ c ∈ g, gapChar c = true) : Lexes g [] :=
  ⟨g, [], by simp [flat], hg, fun p hp => (by cases hp), rfl⟩

theorem Lexes.item {i g : Bytes} (hi : Item i) (hn : g ≠ []) (hg : ∀ c ∈ g, gapChar c = true) : Lexes (i ++ g) [i] :=
  ⟨[], [(i, g)], by simp [flat], by simp,
    (by intro p hp; simp at hp; subst hp; exact ⟨hi, hn, hg⟩), rfl⟩

theorem Lexes.append {t u : Bytes} {I J : List Bytes} (ht : Lexes t I) (hu : Lexes u J) : Lexes (t ++ u) (I ++ J) := by
  obtain ⟨g, L, rfl, hg, hL, rfl⟩ := ht
  obtain ⟨h, M, rfl, hh, hM, rfl⟩ := hu
  by_cases hl : L = []
  · subst hl
    refine ⟨g ++ h, M, by simp [flat], ?_, hM, by simp⟩
    intro c hc
    rcases List.mem_append.1 hc with hc | hc
    · exact hg c hc
    · exact hh c hc
  · refine ⟨g, addGap h L ++ M, ?_, hg, (hL.addGap hh).append hM, ?_⟩
    · rw [flat_append, flat_addGap hl]; simp
    · rw [List.map_append, items_addGap]

theorem Lexes.flatMap {α : Type} {f : α → Bytes} {I : α → List Bytes} : ∀ {l : List α}, (∀ a ∈ l, Lexes (f a) (I a)) →
    Lexes (l.flatMap f) (l.flatMap I)
  | [], _ => .gap (by simp)
  | a :: l, h => by
    rw [List.flatMap_cons, List.flatMap_cons]
    exact (h a (by simp)).append (Lexes.flatMap fun b hb => h b (List.mem_cons_of_mem _ hb))

/-- Groups that start with a marked item. -/
theorem marked_inj {α β : Type} {p : β → Bool} {h : α → β} {b : α → List β} :
    ∀ {l m : List α}, (∀ a ∈ l ++ m, p (h a) = true ∧ ∀ x ∈ b a, p x = false) →
    (l.flatMap fun a => h a :: b a) = (m.flatMap fun a => h a :: b a) →
    (l.map fun a => (h a, b a)) = m.map fun a => (h a, b a)
  | [], [], _, _ => rfl
  | [], _ :: _, _, e => by simp at e
  | _ :: _, [], _, e => by simp at e
  | a :: l, c :: m, hp, e => by
    have start : ∀ {l : List α}, (∀ a ∈ l, p (h a) = true) →
        ∀ x ∈ (l.flatMap fun a => h a :: b a).head?, (!p x) = false := by
      intro l hl x hx
      cases l with
      | nil => simp at hx
      | cons a l =>
        simp at hx
        rw [← hx, hl a (by simp)]; rfl
    simp only [List.flatMap_cons, List.cons_append, List.cons.injEq] at e
    obtain ⟨h1, h2⟩ := append_span (p := fun x => !p x)
      (by intro x hx; rw [(hp a (by simp)).2 x hx]; rfl) (by intro x hx; rw [(hp c (by simp)).2 x hx]; rfl)
      (start fun a ha => (hp a (by simp [ha])).1) (start fun a ha => (hp a (by simp [ha])).1) e.2
    rw [List.map_cons, List.map_cons, e.1, h1, marked_inj (fun a ha => hp a (by
      simp only [List.mem_append, List.mem_cons] at ha ⊢
      rcases ha with ha | ha
      · exact .inl (.inr ha)
      · exact .inr (.inr ha))) h2]

/-! ## The parts of a library -/

/-- A name with a mnemonic. -/
def marked (n : Name) (m : Bytes) : Bytes := n.bytes ++ b!"#" ++ m

theorem marked_inj_name {n k : Name} {m w : Bytes} (h : marked n m = marked k w) : n = k ∧ m = w := by
  simp only [marked, List.append_assoc] at h
  have hd : ∀ m : Bytes, ∀ x ∈ (b!"#" ++ m).head?, isAlphaNumLodash x = false := by
    intro m x hx; simp at hx; subst hx; decide
  obtain ⟨h1, h2⟩ := append_span n.isWord.2 k.isWord.2 (hd _) (hd _) h
  exact ⟨Name.ext h1, List.append_cancel_left h2⟩

section
variable {G : Glyphs} {P : Byte → Prop} (hG : G.Clear P)
include hG

theorem mnemo_balanced (id : Id32) : Balanced 0 (G.mnemo id) := .inert fun c hc => inert_mark (hG.mnemo id c hc)

theorem marked_item (n : Name) (id : Id32) : Item (marked n (G.mnemo id)) :=
  ⟨by simp [marked], ((Atom.word n.isWord).bal.append (.inert (by decide))).append (mnemo_balanced hG id)⟩

omit hG in
theorem marked_hash (n : Name) (m : Bytes) : (35 : Byte) ∈ marked n m := by simp [marked]

def useToks (G : Glyphs) (e : SemId × Name) : List Bytes := [b!"use", marked e.2 (G.mnemo e.1)]

theorem use_lexes (e : SemId × Name) : Lexes (useText G e) (useToks G e) := by
  have h : useText G e = b!"  " ++ ((b!"use" ++ b!" ") ++ (marked e.2 (G.mnemo e.1) ++ [10])) := by
    simp [useText, marked]
  rw [h]
  exact (Lexes.gap (by decide)).append ((Lexes.item ⟨by decide, .inert (by decide)⟩ (by decide) (by decide)).append
    (.item (marked_item hG _ _) (by decide) (by decide)))

def importToks (G : Glyphs) (ext : ExternTypes) (d : Dependency) : List Bytes :=
  b!"import" :: marked d.name (G.mnemo d.id) :: ((OMap.get ext d.name).getD []).flatMap (useToks G)

theorem import_lexes (ext : ExternTypes) (d : Dependency) : Lexes (importText G ext d) (importToks G ext d) := by
  have h : importText G ext d = ((b!"import" ++ b!" ") ++ (marked d.name (G.mnemo d.id) ++ [10])) ++
      match OMap.get ext d.name with
      | some index => index.flatMap (useText G) ++ [10]
      | none => [] := by
    simp only [importText, Dependency.text, marked]
    cases OMap.get ext d.name <;> simp
  have h1 := (Lexes.item (i := b!"import") ⟨by decide, .inert (by decide)⟩ (g := b!" ") (by decide) (by decide)).append
    (Lexes.item (marked_item hG d.name d.id) (g := [10]) (by decide) (by decide))
  rw [h]
  refine h1.append ?_
  cases OMap.get ext d.name with
  | none => exact .gap (by simp)
  | some index =>
    have := (Lexes.flatMap fun e _ => use_lexes hG e).append (Lexes.gap (g := [10]) (by decide)) (t := index.flatMap (useText G))
    rw [List.append_nil] at this
    exact this

/-- Where a definition starts. -/
def mnemoItem (m : Bytes) : Bytes := b!"@mnemonic" ++ ([40] ++ m ++ [41])

omit hG in
theorem mnemoItem_inj {m w : Bytes} (h : mnemoItem m = mnemoItem w) : m = w :=
  bracket_inj (List.append_cancel_left h)

theorem mnemoItem_item (id : Id32) : Item (mnemoItem (G.mnemo id)) :=
  ⟨by simp [mnemoItem], .append (.inert (by decide))
    (.bracket (by decide) (by decide) ((mnemo_balanced hG id).deeper (by omega)))⟩

/-- The items of a definition after the first. -/
def bodyToks (n : Name) (L : List (Bytes × Bytes)) : List (Bytes × Bytes) :=
  (b!"data", b!" ") :: (n.bytes, List.replicate (17 - n.bytes.length) 32 ++ b!" ") :: (b!":", b!" ") :: addGap [10, 10] L

omit hG in
theorem data_text {H : Hash} {e : Name × Ty TranspileRef} {L : List (Bytes × Bytes)}
    (hL : LexOf G (TranspileRef.surfaceTy e.2) L) (hn : L ≠ []) :
    dataText G H e = flat ((mnemoItem (G.mnemo (TranspileRef.semIdNamed H e.2 e.1)), [10]) :: bodyToks e.1 L) := by
  simp only [bodyToks, flat_cons, flat_addGap hn, hL.text, dataText, padded, TranspileRef.textTy_render, mnemoItem]
  simp

omit hG in
theorem body_inj {n k : Name} {L M : List (Bytes × Bytes)} (h : bodyToks n L = bodyToks k M) : n = k ∧ L = M := by
  simp only [bodyToks, List.cons.injEq, Prod.mk.injEq, true_and] at h
  exact ⟨Name.ext h.1.1, addGap_inj h.2⟩

theorem def_spaced {H : Hash} {e : Name × Ty TranspileRef} {L : List (Bytes × Bytes)}
    (hL : LexOf G (TranspileRef.surfaceTy e.2) L) :
    Spaced ((mnemoItem (G.mnemo (TranspileRef.semIdNamed H e.2 e.1)), [10]) :: bodyToks e.1 L) := by
  have h := hL.lexed.spaced (g := [10, 10]) (by simp) (by decide)
  intro p hp
  simp only [bodyToks, List.mem_cons] at hp
  rcases hp with rfl | rfl | rfl | rfl | hp
  · exact ⟨mnemoItem_item hG _, by simp, by simp; decide⟩
  · exact ⟨⟨by decide, .inert (by decide)⟩, by decide, by decide⟩
  · refine ⟨(Atom.word e.1.isWord).item, by simp, ?_⟩
    intro c hc
    rcases List.mem_append.1 hc with hc | hc
    · rw [List.eq_of_mem_replicate hc]; decide
    · rw [List.mem_singleton.1 hc]; decide
  · exact ⟨⟨by decide, .inert (by decide)⟩, by decide, by decide⟩
  · exact h p hp

/-- Whether an item starts a definition. -/
def isMnemo (i : Bytes) : Bool := i.head? == some 64 && i[1]? == some 109

omit hG in
theorem mnemoItem_isMnemo (m : Bytes) : isMnemo (mnemoItem m) = true := by simp [isMnemo, mnemoItem]

omit hG in
theorem isMnemo_start {i : Bytes} {c : Byte} {s : Bytes} (h : i = c :: s) (hc : c ≠ 64) : isMnemo i = false := by
  subst h
  have : ¬ c = 64#8 := hc
  simp [isMnemo, this]

omit hG in
theorem Atom.not_mnemo {i : Bytes} (h : Atom i) : isMnemo i = false := by
  obtain ⟨c, hc, h2⟩ := h.start
  match i, hc with
  | d :: i, hc =>
    simp at hc
    subst hc
    refine isMnemo_start rfl ?_
    rintro rfl
    exact absurd h2 (by decide)

theorem Sty.Plain.toks_not_mnemo {b : Bool} {s : Sty} (h : s.Plain G P b) : ∀ i ∈ s.toks G, isMnemo i = false := by
  have vt : ∀ {l : List (List Bytes)}, (∀ g ∈ l, ∀ i ∈ g, isMnemo i = false) → ∀ i ∈ variantToks l, isMnemo i = false := by
    intro l h
    match l with
    | [] => simp [variantToks]
    | [a] =>
      intro i hi
      simp only [variantToks, List.mem_append, List.mem_cons, List.not_mem_nil, or_false] at hi
      rcases hi with hi | rfl | rfl
      · exact h a (by simp) i hi
      · decide
      · decide
    | a :: b :: l =>
      intro i hi
      simp only [variantToks, List.mem_append, barred, List.mem_flatMap, List.mem_cons] at hi
      rcases hi with hi | ⟨g, hg, rfl | hi⟩
      · exact h a (by simp) i hi
      · decide
      · exact h g (List.mem_cons_of_mem _ (by simpa using hg)) i hi
  have atomic : ∀ {s : Sty}, s.Plain G P true → ∀ i ∈ s.toks G, isMnemo i = false := by
    intro s h i hi
    obtain ⟨h1, h2, -⟩ := (h.good hG).atom rfl
    rw [h2, List.mem_singleton] at hi
    rw [hi]
    exact h1.not_mnemo
  by_cases hg : s.firstGap = []
  · exact atomic (h.atom_of hg)
  cases h with
  | atom h => exact atomic h
  | tuple _ h =>
    intro i hi
    obtain ⟨s, hs, rfl⟩ := List.mem_map.1 hi
    exact (((h s hs).good hG).atom rfl).1.not_mnemo
  | struct _ h =>
    intro i hi
    simp only [Sty.toks, List.mem_flatMap, List.mem_cons, List.not_mem_nil, or_false] at hi
    obtain ⟨f, hf, rfl | rfl⟩ := hi
    · exact (Atom.word f.1.isWord).not_mnemo
    · exact (((h f hf).good hG).atom rfl).1.not_mnemo
  | enum =>
    refine vt ?_
    intro g hg i hi
    obtain ⟨a, ha, rfl⟩ := List.mem_map.1 hg
    rw [List.mem_singleton.1 hi]
    exact (enumItems_atoms _ _ a ha).not_mnemo
  | @union l _ h =>
    refine vt ?_
    intro g hg i hi
    obtain ⟨a, ha, rfl⟩ := List.mem_map.1 hg
    have hp : ∀ v ∈ Sty.renderVariants G l, Atom (parens v.2.2 v.2.1) := by
      rw [Sty.renderVariants_eq]
      intro v hv
      obtain ⟨w, hw, rfl⟩ := List.mem_map.1 hv
      exact parens_atom hG (h w hw)
    obtain ⟨h1, h2⟩ := unionPairs_atoms _ _ hp a ha
    simp only [List.mem_cons, List.not_mem_nil, or_false] at hi
    rcases hi with rfl | rfl
    · exact h1.not_mnemo
    · exact h2.not_mnemo
  | _ => exact absurd rfl hg

/-! ## Libraries -/

/-- The items and gaps of the text of a type. -/
noncomputable def Sty.lexing (G : Glyphs) (s : Sty) : List (Bytes × Bytes) :=
  open Classical in if h : ∃ L, LexOf G s L then h.choose else []

omit hG in
theorem Good.lexing {b : Bool} {s : Sty} (h : Good G b s) : LexOf G s (s.lexing G) := by
  unfold Sty.lexing
  rw [dif_pos h.lex]
  exact h.lex.choose_spec

/-- The items before the definitions. -/
def headToks (G : Glyphs) (l : SymbolicLib) : List Bytes :=
  [b!"@context", b!"typelib", l.name.bytes] ++ (l.dependencies.flatMap (importToks G l.externTypes) ++
    if l.dependencies.isEmpty then [b!"--", b!"no", b!"dependencies"] else [])

def headText (G : Glyphs) (l : SymbolicLib) : Bytes :=
  ((b!"@context" ++ [10]) ++ ((b!"typelib" ++ b!" ") ++ (l.name.bytes ++ [10, 10]))) ++
    ((l.dependencies.flatMap (importText G l.externTypes) ++
    (if l.dependencies.isEmpty then (b!"--" ++ b!" ") ++ ((b!"no" ++ b!" ") ++ (b!"dependencies" ++ [10])) else [])) ++ [10])

theorem head_lexes (l : SymbolicLib) : Lexes (headText G l) (headToks G l) := by
  have word : ∀ {i g : Bytes}, Item i → g ≠ [] → (∀ c ∈ g, gapChar c = true) → Lexes (i ++ g) [i] := Lexes.item
  refine ((word ⟨by decide, .inert (by decide)⟩ (by decide) (by decide)).append
    ((word ⟨by decide, .inert (by decide)⟩ (by decide) (by decide)).append
    (word (Atom.word l.name.isWord).item (by decide) (by decide)))).append ?_
  have h := ((Lexes.flatMap (l := l.dependencies) fun d _ => import_lexes hG l.externTypes d).append
    (show Lexes (if l.dependencies.isEmpty then (b!"--" ++ b!" ") ++ ((b!"no" ++ b!" ") ++ (b!"dependencies" ++ [10]))
      else []) (if l.dependencies.isEmpty then [b!"--", b!"no", b!"dependencies"] else []) from ?_)).append
    (Lexes.gap (g := [10]) (by decide))
  · rw [List.append_nil] at h
    exact h
  · split
    · exact (word ⟨by decide, .inert (by decide)⟩ (by decide) (by decide)).append
        ((word ⟨by decide, .inert (by decide)⟩ (by decide) (by decide)).append
        (word ⟨by decide, .inert (by decide)⟩ (by decide) (by decide)))
    · exact .gap (by simp)

noncomputable def defToks (G : Glyphs) (H : Hash) (e : Name × Ty TranspileRef) : List (Bytes × Bytes) :=
  (mnemoItem (G.mnemo (TranspileRef.semIdNamed H e.2 e.1)), [10]) ::
    bodyToks e.1 ((TranspileRef.surfaceTy e.2).lexing G)

omit hG in
theorem symbolic_text (H : Hash) (l : SymbolicLib) : l.text G H = headText G l ++ l.types.flatMap (dataText G H) := by
  unfold SymbolicLib.text headText
  cases l.dependencies.isEmpty <;> simp

omit hG in
theorem importToks_not_mnemo (ext : ExternTypes) (d : Dependency) : ∀ i ∈ importToks G ext d, isMnemo i = false := by
  have hm : ∀ (n : Name) (m : Bytes), isMnemo (marked n m) = false := by
    intro n m
    obtain ⟨c, r, hb, -, hc⟩ := n.chars_first
    refine isMnemo_start (c := c) (s := r ++ b!"#" ++ m) (by simp [marked, hb]) ?_
    rintro rfl
    exact absurd (hc 64 (by simp)) (by decide)
  intro i hi
  simp only [importToks, List.mem_cons, List.mem_flatMap, useToks, List.not_mem_nil, or_false] at hi
  rcases hi with rfl | rfl | ⟨e, -, rfl | rfl⟩
  · decide
  · exact hm _ _
  · decide
  · exact hm _ _

omit hG in
theorem headToks_not_mnemo (l : SymbolicLib) : ∀ i ∈ headToks G l, isMnemo i = false := by
  intro i hi
  simp only [headToks, List.mem_append, List.mem_cons, List.not_mem_nil, or_false, List.mem_flatMap] at hi
  rcases hi with (rfl | rfl | rfl) | ⟨d, -, hi⟩ | hi
  · decide
  · decide
  · exact (Atom.word l.name.isWord).not_mnemo
  · exact importToks_not_mnemo _ d i hi
  · split at hi
    · revert i; decide
    · cases hi

theorem def_not_mnemo {n : Name} {s : Sty} {b : Bool} (h : s.Plain G P b) :
    ∀ p ∈ bodyToks n (s.lexing G), isMnemo p.1 = false := by
  intro p hp
  simp only [bodyToks, List.mem_cons] at hp
  rcases hp with rfl | rfl | rfl | hp
  · simp only; decide
  · exact (Atom.word n.isWord).not_mnemo
  · simp only; decide
  · refine h.toks_not_mnemo hG p.1 ?_
    rw [← (h.good hG).lexing.toks, ← items_addGap]
    exact List.mem_map_of_mem hp

omit hG in
theorem importToks_inj {ext ext' : ExternTypes} {d d' : Dependency}
    (h : importToks G ext d = importToks G ext' d') :
    ((d.name, G.mnemo d.id), ((OMap.get ext d.name).getD []).map fun e => (e.2, G.mnemo e.1)) =
    ((d'.name, G.mnemo d'.id), ((OMap.get ext' d'.name).getD []).map fun e => (e.2, G.mnemo e.1)) := by
  simp only [importToks, List.cons.injEq, true_and] at h
  obtain ⟨h1, h2⟩ := marked_inj_name h.1
  have key : ∀ {l m : OMap SemId Name}, l.flatMap (useToks G) = m.flatMap (useToks G) →
      (l.map fun e => (e.2, G.mnemo e.1)) = m.map fun e => (e.2, G.mnemo e.1) := by
    intro l
    induction l with
    | nil =>
      intro m h
      cases m with
      | nil => rfl
      | cons e m => simp [useToks] at h
    | cons e l ih =>
      intro m h
      cases m with
      | nil => simp [useToks] at h
      | cons f m =>
        simp only [List.flatMap_cons, useToks, List.cons_append, List.nil_append, List.cons.injEq, true_and] at h
        obtain ⟨h1, h2⟩ := marked_inj_name h.1
        rw [List.map_cons, List.map_cons, ih h.2, h1, h2]
  rw [key h.2, h1, h2]

omit hG in
theorem marked_not_word {n : Name} {m w : Bytes} (h : (35 : Byte) ∉ w) : marked n m ≠ w := by
  rintro rfl
  exact h (marked_hash n m)

omit hG in
theorem headToks_inj {l m : SymbolicLib} (h : headToks G l = headToks G m) :
    l.name = m.name ∧ l.dependencies.map (importToks G l.externTypes) = m.dependencies.map (importToks G m.externTypes) := by
  simp only [headToks, List.cons_append, List.nil_append, List.cons.injEq, true_and] at h
  refine ⟨Name.ext h.1, ?_⟩
  have h2 := h.2
  cases hl : l.dependencies with
  | nil =>
    cases hm : m.dependencies with
    | nil => rfl
    | cons d ds => rw [hl, hm] at h2; simp [importToks] at h2
  | cons d ds =>
    cases hm : m.dependencies with
    | nil => rw [hl, hm] at h2; simp [importToks] at h2
    | cons d' ds' =>
      rw [hl, hm] at h2
      simp only [List.isEmpty_cons, Bool.false_eq_true, if_false, List.append_nil] at h2
      -- the dependencies, tagged with the library they come from
      have tagged : ∀ (ext : ExternTypes) (ds : List Dependency),
          ds.flatMap (importToks G ext) = (ds.map fun d => (ext, d)).flatMap fun x => b!"import" ::
            (marked x.2.name (G.mnemo x.2.id) :: ((OMap.get x.1 x.2.name).getD []).flatMap (useToks G)) := by
        intro ext ds
        rw [List.flatMap_map]
        rfl
      rw [tagged, tagged] at h2
      have := marked_inj (p := fun i : Bytes => i == b!"import") ?_ h2
      · rw [List.map_map, List.map_map] at this
        have h3 := congrArg (List.map fun p : Bytes × List Bytes => p.1 :: p.2) this
        rw [List.map_map, List.map_map] at h3
        exact h3
      · intro x _
        refine ⟨by simp, ?_⟩
        intro i hi
        simp only [List.mem_cons, List.mem_flatMap, useToks, List.not_mem_nil, or_false] at hi
        simp only [beq_eq_false_iff_ne, ne_eq]
        rcases hi with rfl | ⟨e, -, rfl | rfl⟩
        · exact marked_not_word (by decide)
        · decide
        · exact marked_not_word (by decide)

/-- The source form determines what it shows of the library. -/
theorem view_inj (H : Hash) {l m : SymbolicLib} (hl : ∀ e ∈ l.types, (TranspileRef.surfaceTy e.2).Plain G P false)
    (hm : ∀ e ∈ m.types, (TranspileRef.surfaceTy e.2).Plain G P false) (h : l.text G H = m.text G H) :
    l.view G H = m.view G H := by
  have defs : ∀ {l : List (Name × Ty TranspileRef)}, (∀ e ∈ l, (TranspileRef.surfaceTy e.2).Plain G P false) →
      l.flatMap (dataText G H) = flat (l.flatMap (defToks G H)) ∧ Spaced (l.flatMap (defToks G H)) := by
    intro l hl
    induction l with
    | nil => exact ⟨rfl, fun p hp => by cases hp⟩
    | cons e l ih =>
      obtain ⟨h1, h2⟩ := ih fun e he => hl e (List.mem_cons_of_mem _ he)
      have he := (hl e (by simp)).good hG
      rw [List.flatMap_cons, List.flatMap_cons, flat_append, h1, data_text he.lexing (he.lexing.ne he.ne)]
      exact ⟨rfl, (def_spaced hG he.lexing).append h2⟩
  obtain ⟨d1, s1⟩ := defs hl
  obtain ⟨d2, s2⟩ := defs hm
  obtain ⟨g, L, t1, g1, sL, i1⟩ := head_lexes hG l
  obtain ⟨k, M, t2, g2, sM, i2⟩ := head_lexes hG m
  rw [symbolic_text, symbolic_text, t1, t2, d1, d2, List.append_assoc, List.append_assoc, ← flat_append,
    ← flat_append] at h
  have e1 := (sL.append s1).lexed
  have e2 := (sM.append s2).lexed
  obtain ⟨-, h⟩ := append_span g1 g2 e1.head e2.head h
  have h := e1.unique e2 h
  have start : ∀ {l : List (Name × Ty TranspileRef)}, ∀ p ∈ (l.flatMap (defToks G H)).head?, (!isMnemo p.1) = false := by
    intro l p hp
    cases l with
    | nil => simp at hp
    | cons e l =>
      simp [defToks] at hp
      rw [← hp]
      simp only [mnemoItem_isMnemo]; rfl
  have quiet : ∀ {L : List (Bytes × Bytes)} {l : SymbolicLib}, L.map Prod.fst = headToks G l →
      ∀ p ∈ L, (!isMnemo p.1) = true := by
    intro L l hL p hp
    rw [headToks_not_mnemo l p.1 (by rw [← hL]; exact List.mem_map_of_mem hp)]; rfl
  obtain ⟨hLM, hd⟩ := append_span (p := fun p => !isMnemo p.1) (quiet i1) (quiet i2) start start h
  obtain ⟨hn, hdeps⟩ := headToks_inj (i1.symm.trans (hLM ▸ i2))
  have hd := marked_inj (p := fun p : Bytes × Bytes => isMnemo p.1) (by
    intro e he
    refine ⟨mnemoItem_isMnemo _, ?_⟩
    rcases List.mem_append.1 he with he | he
    · exact def_not_mnemo hG (hl e he)
    · exact def_not_mnemo hG (hm e he)) hd
  unfold SymbolicLib.view
  rw [LibView.mk.injEq]
  refine ⟨hn, ?_, ?_⟩
  · have hi : ∀ {a b : List Dependency}, a.map (importToks G l.externTypes) = b.map (importToks G m.externTypes) →
        (a.map fun d => ((d.name, G.mnemo d.id), ((OMap.get l.externTypes d.name).getD []).map fun e => (e.2, G.mnemo e.1))) =
        b.map fun d => ((d.name, G.mnemo d.id), ((OMap.get m.externTypes d.name).getD []).map fun e => (e.2, G.mnemo e.1)) := by
      intro a
      induction a with
      | nil =>
        intro b h
        cases b with
        | nil => rfl
        | cons d b => simp at h
      | cons d a ih =>
        intro b h
        cases b with
        | nil => simp at h
        | cons d' b =>
          simp only [List.map_cons, List.cons.injEq] at h
          rw [List.map_cons, List.map_cons, ih h.2, importToks_inj h.1]
    exact hi hdeps
  · have hi : ∀ {a b : List (Name × Ty TranspileRef)}, (∀ e ∈ a, (TranspileRef.surfaceTy e.2).Plain G P false) →
        (∀ e ∈ b, (TranspileRef.surfaceTy e.2).Plain G P false) →
        (a.map fun e => ((mnemoItem (G.mnemo (TranspileRef.semIdNamed H e.2 e.1)), [10]),
          bodyToks e.1 ((TranspileRef.surfaceTy e.2).lexing G))) =
        (b.map fun e => ((mnemoItem (G.mnemo (TranspileRef.semIdNamed H e.2 e.1)), ([10] : Bytes)),
          bodyToks e.1 ((TranspileRef.surfaceTy e.2).lexing G))) →
        (a.map fun e => ((e.1, G.mnemo (TranspileRef.semIdNamed H e.2 e.1)), TranspileRef.surfaceTy e.2)) =
        b.map fun e => ((e.1, G.mnemo (TranspileRef.semIdNamed H e.2 e.1)), TranspileRef.surfaceTy e.2) := by
      intro a
      induction a with
      | nil =>
        intro b _ _ h
        cases b with
        | nil => rfl
        | cons d b => simp at h
      | cons e a ih =>
        intro b ha hb h
        cases b with
        | nil => simp at h
        | cons f b =>
          simp only [List.map_cons, List.cons.injEq, Prod.mk.injEq, and_true] at h
          obtain ⟨⟨h1, h2⟩, h3⟩ := h
          obtain ⟨h4, h5⟩ := body_inj h2
          have pe := ha e (by simp)
          have pf := hb f (by simp)
          have h6 : (TranspileRef.surfaceTy e.2).render G = (TranspileRef.surfaceTy f.2).render G := by
            rw [← (pe.good hG).lexing.text, ← (pf.good hG).lexing.text, h5]
          rw [List.map_cons, List.map_cons, ih (fun e he => ha e (List.mem_cons_of_mem _ he))
            (fun e he => hb e (List.mem_cons_of_mem _ he)) h3, mnemoItem_inj h1, h4, pe.told hG _ _ pf h6]
    exact hi hl hm hd

end

end Verif
