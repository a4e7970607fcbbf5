import Verif.Lemmas.Lex

/-!
# The source form of a type determines its syntax tree
-/

namespace Verif

/-! ## The text of syntax trees -/

mutual
def Sty.render (G : Glyphs) : Sty → Bytes
  | .prim p => G.prim p
  | .unicode => b!"Unicode"
  | .name n => n.bytes
  | .ext l n => l.bytes ++ b!"." ++ n.bytes
  | .mark t => t
  | .link a b => a ++ b!"." ++ b
  | .opt s => Sty.render G s ++ b!"?"
  | .array s len => b!"[" ++ Sty.render G s ++ b!" ^ " ++ decimal len.toNat ++ b!"]"
  | .list s sz => b!"[" ++ Sty.render G s ++ G.sizing sz ++ b!"]"
  | .set s sz => b!"{" ++ Sty.render G s ++ G.sizing sz ++ b!"}"
  | .map k s sz => b!"{" ++ Sty.render G k ++ b!" ->" ++ G.sizing sz ++ b!" " ++ Sty.render G s ++ b!"}"
  | .tuple l => sepBy b!", " (Sty.renders G l)
  | .struct l => sepBy (fieldSep l.length) (Sty.renderFields G l)
  | .enum vs => enumText vs
  | .union l => unionText (Sty.renderVariants G l)
termination_by structural s => s
def Sty.renders (G : Glyphs) : List Sty → List Bytes
  | [] => []
  | s :: l => Sty.render G s :: Sty.renders G l
termination_by structural l => l
def Sty.renderFields (G : Glyphs) : List (Name × Sty) → List Bytes
  | [] => []
  | (n, s) :: l => fieldText n (Sty.render G s) :: Sty.renderFields G l
termination_by structural l => l
def Sty.renderVariants (G : Glyphs) : List (Variant × Bool × Sty) → List (Variant × Bytes × Bool)
  | [] => []
  | (v, b, s) :: l => (v, Sty.render G s, b) :: Sty.renderVariants G l
termination_by structural l => l
end

theorem Sty.renders_eq (G : Glyphs) : ∀ l, Sty.renders G l = l.map (Sty.render G)
  | [] => rfl
  | s :: l => by rw [Sty.renders, Sty.renders_eq G l, List.map_cons]

theorem Sty.renderFields_eq (G : Glyphs) : ∀ l, Sty.renderFields G l = l.map fun f => fieldText f.1 (Sty.render G f.2)
  | [] => rfl
  | s :: l => by rw [Sty.renderFields, Sty.renderFields_eq G l, List.map_cons]

theorem Sty.renderVariants_eq (G : Glyphs) : ∀ l, Sty.renderVariants G l = l.map fun v => (v.1, Sty.render G v.2.2, v.2.1)
  | [] => rfl
  | s :: l => by rw [Sty.renderVariants, Sty.renderVariants_eq G l, List.map_cons]

theorem asSome_map_pairs {α β : Type} (f : α → β) (l : List (Variant × α)) :
    (Ty.union (l.map fun v => (v.1, f v.2))).asSome = (Ty.union l).asSome.map f := by
  match l with
  | [] => rfl
  | [_] => rfl
  | [a, b] => simp only [Ty.asSome, List.map_cons, List.map_nil]; simp
  | _ :: _ :: _ :: _ => simp [Ty.asSome]

theorem surfaceFields_length : ∀ l, (TranspileRef.surfaceFields l).length = l.length
  | [] => rfl
  | (n, r) :: l => by simp [TranspileRef.surfaceFields, surfaceFields_length l]

theorem isCompound_eq (r : TranspileRef) : r.isCompound = r.inParens := by
  cases r with
  | embedded t =>
    cases t with
    | tuple fs => match fs with
      | [] => rfl
      | [_] => rfl
      | _ :: _ :: _ => simp [TranspileRef.isCompound, TranspileRef.inParens, Ty.isCompound]
    | struct fs => match fs with
      | [] => rfl
      | [_] => rfl
      | _ :: _ :: _ => simp [TranspileRef.isCompound, TranspileRef.inParens, Ty.isCompound]
    | _ => rfl
  | named => rfl
  | extern => rfl

mutual
theorem TranspileRef.text_eq (G : Glyphs) : (r : TranspileRef) → r.text G = r.surface.render G
  | .embedded ty => by
    rw [TranspileRef.text, TranspileRef.surface]
    exact TranspileRef.textTy_render G ty
  | .named name => by rw [TranspileRef.text, TranspileRef.surface, Sty.render]
  | .extern sym => by rw [TranspileRef.text, TranspileRef.surface, Sty.render, SymbolRef.text]
termination_by structural r => r
theorem TranspileRef.textTy_render (G : Glyphs) :
    (t : Ty TranspileRef) → TranspileRef.textTy G t = (TranspileRef.surfaceTy t).render G
  | .primitive p => by rw [TranspileRef.textTy, TranspileRef.surfaceTy, Sty.render]
  | .unicodeChar => by rw [TranspileRef.textTy, TranspileRef.surfaceTy, Sty.render]
  | .enum vs => by rw [TranspileRef.textTy, TranspileRef.surfaceTy, Sty.render]
  | .union vs => by
    rw [TranspileRef.textTy, TranspileRef.surfaceTy, TranspileRef.textVariants_eq G vs]
    have h := asSome_map_pairs (fun p : Bool × Sty => (p.2.render G, p.1)) (TranspileRef.surfaceVariants vs)
    rw [Sty.renderVariants_eq, h]
    cases (Ty.union (TranspileRef.surfaceVariants vs)).asSome with
    | none => simp only [Option.map_none, Sty.render, Sty.renderVariants_eq]
    | some s => simp only [Option.map_some, Sty.render]
  | .tuple fs => by
    rw [TranspileRef.textTy, TranspileRef.surfaceTy, TranspileRef.textRefs_eq G fs]
    match TranspileRef.surfaceRefs fs with
    | [] => simp only [Sty.render]
    | [s] => simp only [Sty.renders, sepBy]
    | _ :: _ :: _ => simp only [Sty.render]
  | .struct fs => by
    rw [TranspileRef.textTy, TranspileRef.surfaceTy, TranspileRef.textFields_eq G fs]
    simp only [Sty.render, surfaceFields_length]
  | .array r len => by rw [TranspileRef.textTy, TranspileRef.surfaceTy, Sty.render, TranspileRef.text_eq G r]
  | .list r sz => by rw [TranspileRef.textTy, TranspileRef.surfaceTy, Sty.render, TranspileRef.text_eq G r]
  | .set r sz => by rw [TranspileRef.textTy, TranspileRef.surfaceTy, Sty.render, TranspileRef.text_eq G r]
  | .map k r sz => by
    rw [TranspileRef.textTy, TranspileRef.surfaceTy, Sty.render, TranspileRef.text_eq G k, TranspileRef.text_eq G r]
termination_by structural t => t
theorem TranspileRef.textRefs_eq (G : Glyphs) :
    (l : List TranspileRef) → TranspileRef.textRefs G l = Sty.renders G (TranspileRef.surfaceRefs l)
  | [] => by rw [TranspileRef.textRefs, TranspileRef.surfaceRefs, Sty.renders]
  | r :: rs => by
    rw [TranspileRef.textRefs, TranspileRef.surfaceRefs, Sty.renders, TranspileRef.text_eq G r,
      TranspileRef.textRefs_eq G rs]
termination_by structural l => l
theorem TranspileRef.textVariants_eq (G : Glyphs) : (l : List (Variant × TranspileRef)) →
    TranspileRef.textVariants G l = Sty.renderVariants G (TranspileRef.surfaceVariants l)
  | [] => by rw [TranspileRef.textVariants, TranspileRef.surfaceVariants, Sty.renderVariants]
  | (v, r) :: rs => by
    rw [TranspileRef.textVariants, TranspileRef.surfaceVariants, Sty.renderVariants, TranspileRef.text_eq G r,
      TranspileRef.textVariants_eq G rs, isCompound_eq]
termination_by structural l => l
theorem TranspileRef.textFields_eq (G : Glyphs) : (l : List (Name × TranspileRef)) →
    TranspileRef.textFields G l = Sty.renderFields G (TranspileRef.surfaceFields l)
  | [] => by rw [TranspileRef.textFields, TranspileRef.surfaceFields, Sty.renderFields]
  | (n, r) :: rs => by
    rw [TranspileRef.textFields, TranspileRef.surfaceFields, Sty.renderFields, TranspileRef.text_eq G r,
      TranspileRef.textFields_eq G rs]
termination_by structural l => l
end

/-- The text of types spelled out for references is the generic one. -/
theorem TranspileRef.textTy_eq (G : Glyphs) (t : Ty TranspileRef) :
    TranspileRef.textTy G t = t.text G (TranspileRef.text G) TranspileRef.isCompound := by
  have hr : ∀ l, TranspileRef.textRefs G l = l.map (TranspileRef.text G) := by
    intro l
    induction l with
    | nil => rfl
    | cons r l ih => rw [TranspileRef.textRefs, ih, List.map_cons]
  have hf : ∀ l, TranspileRef.textFields G l = l.map fun f => fieldText f.1 (TranspileRef.text G f.2) := by
    intro l
    induction l with
    | nil => rfl
    | cons r l ih => rw [TranspileRef.textFields, ih, List.map_cons]
  have hv : ∀ l, TranspileRef.textVariants G l = l.map fun v => (v.1, TranspileRef.text G v.2, v.2.isCompound) := by
    intro l
    induction l with
    | nil => rfl
    | cons r l ih => rw [TranspileRef.textVariants, ih, List.map_cons]
  cases t with
  | union vs =>
    rw [TranspileRef.textTy, Ty.text, hv,
      asSome_map_pairs (fun r : TranspileRef => (TranspileRef.text G r, r.isCompound)) vs]
    cases (Ty.union vs).asSome <;> rfl
  | tuple fs => rw [TranspileRef.textTy, Ty.text, hr]
  | struct fs => rw [TranspileRef.textTy, Ty.text, hf]
  | _ => simp only [TranspileRef.textTy, Ty.text]

/-! ## The items of a text -/

/-- The first character of an item. -/
def startChar (c : Byte) : Bool := idStart c || openChar c

/-- An item that is not one of the signs `|`, `^`, `->`. -/
structure Atom (s : Bytes) : Prop where
  bal : Balanced 0 s
  start : ∃ c ∈ s.head?, startChar c = true

theorem Atom.item {s : Bytes} (h : Atom s) : Item s := by
  refine ⟨?_, h.bal⟩
  rintro rfl
  obtain ⟨c, hc, -⟩ := h.start
  simp at hc

theorem Atom.ne {s : Bytes} (h : Atom s) {c : Byte} {t : Bytes} (hc : startChar c = false) : s ≠ c :: t := by
  rintro rfl
  obtain ⟨d, hd, h2⟩ := h.start
  simp at hd
  subst hd
  rw [hc] at h2; cases h2

theorem Atom.word {s : Bytes} (h : IsWord s) : Atom s := by
  refine ⟨.inert fun c hc => inert_word (h.2 c hc), ?_⟩
  match s, h with
  | [], h => exact absurd rfl h.1
  | c :: s, h => exact ⟨c, by simp, by simp [startChar, idStart, h.2 c (by simp)]⟩

theorem idText_chars {t : Bytes} (h : idText t = true) : ∀ c ∈ t, idChar c = true := by
  simp only [idText, Bool.and_eq_true, List.all_eq_true] at h
  exact h.1.1.1

theorem idText_ne {t : Bytes} {c : Byte} (h : idText t = true) (hc : idChar c = false) : c ∉ t := by
  intro hm
  simp only [idText, Bool.and_eq_true, List.all_eq_true] at h
  rw [h.1.1.1 c hm] at hc
  cases hc

theorem idText_dash {t : Bytes} (h : idText t = true) : (45 : Byte) ∈ t := by
  simp only [idText, Bool.and_eq_true, List.contains_iff_mem] at h
  exact h.1.1.2

theorem inert_idChar {c : Byte} (h : idChar c = true) : inert c = true := by
  revert c; decide +kernel

theorem Atom.mark {t : Bytes} (h : idText t = true) : Atom t := by
  simp only [idText, Bool.and_eq_true, List.all_eq_true] at h
  refine ⟨.inert fun c hc => inert_idChar (h.1.1.1 c hc), ?_⟩
  match t, h.1.2 with
  | c :: t, h => exact ⟨c, by simp, by simp only [List.head?_cons, Option.any_some] at h; simp [startChar, h]⟩

theorem Atom.append {s t : Bytes} (h : Atom s) (ht : Balanced 0 t) : Atom (s ++ t) := by
  refine ⟨h.bal.append ht, ?_⟩
  obtain ⟨c, hc, h2⟩ := h.start
  match s, hc with
  | c' :: s, hc => exact ⟨c, by simpa using hc, h2⟩

theorem Atom.bracket {a b : Byte} {s : Bytes} (ha : openChar a = true) (hb : closeChar b = true)
    (h : Balanced 1 s) : Atom ([a] ++ s ++ [b]) :=
  ⟨.bracket ha hb h, a, by simp, by simp [startChar, ha]⟩

theorem decimal_balanced (n : Nat) : Balanced 0 (decimal n) :=
  .inert fun c hc => inert_word ((decimal_isWord n).2 c hc)

theorem tagMark_balanced (l t : Byte) : Balanced 0 (tagMark l t) := by
  unfold tagMark
  split
  · exact .nil
  · exact .append (.inert (by decide)) (decimal_balanced _)

/-- The name of a variant with its tag. -/
def variantMark (last : Byte) (v : Variant) : Bytes := v.name.bytes ++ tagMark last v.tag

theorem variantMark_atom (last : Byte) (v : Variant) : Atom (variantMark last v) :=
  (Atom.word v.name.isWord).append (tagMark_balanced _ _)

/-- The names and payloads of a union. -/
def unionPairs : Byte → List (Variant × Bytes × Bool) → List (Bytes × Bytes)
  | _, [] => []
  | last, (v, t, c) :: l => (variantMark last v, parens c t) :: unionPairs (satSucc v.tag) l

theorem unionItems_eq : ∀ (last : Byte) (l : List (Variant × Bytes × Bool)),
    unionItems last l = (unionPairs last l).map fun p => p.1 ++ b!" " ++ p.2
  | _, [] => rfl
  | last, (v, t, c) :: l => by rw [unionItems, unionPairs, List.map_cons, unionItems_eq _ l]; rfl

theorem unionPairs_length : ∀ (last : Byte) (l : List (Variant × Bytes × Bool)), (unionPairs last l).length = l.length
  | _, [] => rfl
  | last, (v, t, c) :: l => by rw [unionPairs, List.length_cons, List.length_cons, unionPairs_length]

theorem enumItems_length : ∀ (last : Byte) (l : List Variant), (enumItems last l).length = l.length
  | _, [] => rfl
  | last, v :: l => by rw [enumItems, List.length_cons, List.length_cons, enumItems_length]

theorem enumItems_atoms : ∀ (last : Byte) (l : List Variant), ∀ x ∈ enumItems last l, Atom x
  | _, [], _, h => by cases h
  | last, v :: l, x, h => by
    rcases List.mem_cons.1 h with rfl | h
    · exact variantMark_atom last v
    · exact enumItems_atoms _ l x h

/-- The items of an enum with more than one variant after the first. -/
def barred (l : List (List Bytes)) : List Bytes := l.flatMap (b!"|" :: ·)

/-- Items, with `| (|)` after a single variant. -/
def variantToks : List (List Bytes) → List Bytes
  | [] => []
  | [a] => a ++ [b!"|", b!"(|)"]
  | a :: l => a ++ barred l

/-- The items of the text of a type. -/
def Sty.toks (G : Glyphs) : Sty → List Bytes
  | .tuple l => l.map (Sty.render G)
  | .struct l => l.flatMap fun f => [f.1.bytes, f.2.render G]
  | .enum vs => variantToks ((enumItems 0 vs).map fun a => [a])
  | .union l => variantToks ((unionPairs 0 (Sty.renderVariants G l)).map fun p => [p.1, p.2])
  | s => [s.render G]

/-- The gap after the first item. -/
def Sty.firstGap : Sty → Bytes
  | .tuple _ => b!", "
  | .struct _ => b!" "
  | .enum _ => b!" "
  | .union _ => b!" "
  | _ => []

structure LexOf (G : Glyphs) (s : Sty) (L : List (Bytes × Bytes)) : Prop where
  lexed : Lexed L
  text : flat L = s.render G
  toks : L.map Prod.fst = s.toks G
  gap : ∀ p ∈ L.head?, p.2 = s.firstGap

/-! ## Groups with separators -/

def groups (g : Bytes) (S : List (Bytes × Bytes)) : List (List (Bytes × Bytes)) → List (Bytes × Bytes)
  | [] => []
  | [L] => L
  | L :: M :: r => addGap g L ++ S ++ groups g S (M :: r)

theorem flat_groups {g : Bytes} {S : List (Bytes × Bytes)} : ∀ {l : List (List (Bytes × Bytes))},
    (∀ L ∈ l, L ≠ []) → flat (groups g S l) = sepBy (g ++ flat S) (l.map flat)
  | [], _ => rfl
  | [L], _ => by simp [groups, sepBy]
  | L :: M :: r, h => by
    rw [groups, flat_append, flat_append, flat_addGap (h L (by simp)),
      flat_groups fun L hL => h L (List.mem_cons_of_mem _ hL)]
    simp only [List.map_cons, sepBy, List.append_assoc]

theorem lexed_groups {g : Bytes} {S : List (Bytes × Bytes)} (hn : g ≠ []) (hg : ∀ c ∈ g, gapChar c = true)
    (hS : ∀ {M}, Lexed M → Lexed (S ++ M)) : ∀ {l : List (List (Bytes × Bytes))},
    (∀ L ∈ l, Lexed L) → Lexed (groups g S l)
  | [], _ => .nil
  | [L], h => h L (by simp)
  | L :: M :: r, h => by
    rw [groups, List.append_assoc]
    exact Lexed.append hn hg (hS (lexed_groups hn hg hS fun L hL => h L (List.mem_cons_of_mem _ hL))) (h L (by simp))

theorem items_groups {g : Bytes} : ∀ {l : List (List (Bytes × Bytes))},
    (groups g [] l).map Prod.fst = l.flatMap fun L => L.map Prod.fst
  | [] => rfl
  | [L] => by simp [groups]
  | L :: M :: r => by
    rw [groups, List.append_nil, List.map_append, items_addGap, items_groups]
    rfl

theorem items_groups_bar {g : Bytes} : ∀ {L : List (Bytes × Bytes)} {l : List (List (Bytes × Bytes))},
    (groups g [(b!"|", b!" ")] (L :: l)).map Prod.fst = L.map Prod.fst ++ barred (l.map fun L => L.map Prod.fst)
  | L, [] => by simp [groups, barred]
  | L, M :: r => by
    rw [groups, List.map_append, List.map_append, items_addGap, items_groups_bar]
    simp [barred]

/-! ## The items of each kind of type -/

theorem mem_singleton_of {P : Bytes → Prop} {a : Bytes} (h : P a) : ∀ x ∈ [a], P x := by simpa using h

theorem lexed_single {i : Bytes} (h : Atom i) : Lexed [(i, [])] := .last h.item (by simp)

theorem lexed_bar {M : List (Bytes × Bytes)} (h : Lexed M) : Lexed ([(b!"|", b!" ")] ++ M) :=
  .cons ⟨by decide, .inert (by decide)⟩ (by decide) (by decide) h

theorem lexOf_atom {G : Glyphs} {s : Sty} (h : Atom (s.render G)) (ht : s.toks G = [s.render G]) (hg : s.firstGap = []) :
    LexOf G s [(s.render G, [])] := ⟨lexed_single h, by simp [flat], by simp [ht], by simp [hg]⟩

theorem lexOf_tuple {G : Glyphs} {l : List Sty} (hl : 2 ≤ l.length) (h : ∀ s ∈ l, Atom (s.render G)) :
    ∃ L, LexOf G (.tuple l) L := by
  refine ⟨groups b!", " [] (l.map fun s => [(s.render G, [])]), ⟨?_, ?_, ?_, ?_⟩⟩
  · refine lexed_groups (by decide) (by decide) (S := []) (fun h => h) ?_
    intro L hL
    obtain ⟨s, hs, rfl⟩ := List.mem_map.1 hL
    exact lexed_single (h s hs)
  · rw [flat_groups (by simp), Sty.render, Sty.renders_eq]
    simp [flat, Function.comp_def]
  · rw [items_groups]
    simp only [Sty.toks, List.flatMap_map]
    clear h hl
    induction l with
    | nil => rfl
    | cons a l ih => rw [List.flatMap_cons, ih]; rfl
  · match l, hl with
    | a :: b :: l, _ => simp [groups, addGap, Sty.firstGap]

theorem fieldSep_gap (n : Nat) : fieldSep n ≠ [] ∧ ∀ c ∈ fieldSep n, gapChar c = true := by
  unfold fieldSep
  split <;> decide

theorem lexOf_struct {G : Glyphs} {l : List (Name × Sty)} (hl : l ≠ []) (h : ∀ s ∈ l, Atom (s.2.render G)) :
    ∃ L, LexOf G (.struct l) L := by
  obtain ⟨g1, g2⟩ := fieldSep_gap l.length
  refine ⟨groups (fieldSep l.length) [] (l.map fun f => [(f.1.bytes, b!" "), (f.2.render G, [])]), ⟨?_, ?_, ?_, ?_⟩⟩
  · refine lexed_groups g1 g2 (S := []) (fun h => h) ?_
    intro L hL
    obtain ⟨s, hs, rfl⟩ := List.mem_map.1 hL
    exact .cons (Atom.word s.1.isWord).item (by decide) (by decide) (lexed_single (h s hs))
  · rw [flat_groups (by intro L hL; obtain ⟨_, -, rfl⟩ := List.mem_map.1 hL; simp), Sty.render, Sty.renderFields_eq]
    simp [flat, Function.comp_def, fieldText]
  · rw [items_groups]
    simp [Sty.toks, List.flatMap_map]
  · match l, hl with
    | [a], _ => simp [groups, Sty.firstGap]
    | a :: b :: l, _ => simp [groups, addGap, Sty.firstGap]

/-- Items of a line of an enum, with the gap after the line. -/
def chunk (g : Bytes) : Bytes → List Bytes → List (Bytes × Bytes)
  | x, [] => [(b!"|", b!" "), (x, g)]
  | x, y :: l => (b!"|", b!" ") :: (x, b!" ") :: chunk g y l

theorem flat_chunk (g : Bytes) : ∀ (x : Bytes) (l : List Bytes),
    32 :: flat (chunk g x l) = (x :: l).flatMap (b!" | " ++ ·) ++ g
  | x, [] => by simp [chunk, flat]
  | x, y :: l => by
    have := flat_chunk g y l
    simp only [chunk, flat_cons, List.flatMap_cons, List.append_assoc]
    simp only [List.flatMap_cons, List.append_assoc] at this
    rw [← this]; rfl

theorem items_chunk (g : Bytes) : ∀ (x : Bytes) (l : List Bytes),
    (chunk g x l).map Prod.fst = barred ((x :: l).map fun a => [a])
  | x, [] => rfl
  | x, y :: l => by
    simp only [chunk, List.map_cons, items_chunk g y l]
    rfl

theorem lexed_chunk {g : Bytes} (hg : ∀ c ∈ g, gapChar c = true) {M : List (Bytes × Bytes)} (hM : Lexed M)
    (hn : M ≠ [] → g ≠ []) : ∀ (x : Bytes) (l : List Bytes), (∀ y ∈ x :: l, Atom y) → Lexed (chunk g x l ++ M)
  | x, [], h => by
    refine lexed_bar ?_
    cases M with
    | nil => exact .last (h x (by simp)).item hg
    | cons p M => exact .cons (h x (by simp)).item (hn (by simp)) hg hM
  | x, y :: l, h => lexed_bar (.cons (h x (by simp)).item (by decide) (by decide)
      (lexed_chunk hg hM hn y l fun z hz => h z (List.mem_cons_of_mem _ hz)))

theorem enumLines_lex : ∀ (fuel k : Nat) (x : Bytes) (l : List Bytes), 1 ≤ k → l.length < fuel →
    (∀ y ∈ x :: l, Atom y) → ∃ L, enumLines fuel k (x :: l) = 32 :: flat L ∧ Lexed L ∧ L ≠ [] ∧
      L.map Prod.fst = barred ((x :: l).map fun a => [a])
  | 0, _, _, _, _, h, _ => by omega
  | fuel + 1, k, x, l, hk, hl, ha => by
    obtain ⟨k, rfl⟩ : ∃ j, k = j + 1 := ⟨k - 1, by omega⟩
    have hne : ∀ (g x : Bytes) (l : List Bytes), chunk g x l ≠ [] := by
      intro g x l; cases l <;> simp [chunk]
    have ht : ∀ y ∈ x :: l.take k, Atom y := by
      intro y hy
      rcases List.mem_cons.1 hy with rfl | hy
      · exact ha _ (by simp)
      · exact ha _ (List.mem_cons_of_mem _ (List.mem_of_mem_take hy))
    simp only [enumLines, List.take_succ_cons, List.drop_succ_cons]
    cases hd : l.drop k with
    | nil =>
      have hlk : l.take k = l := by
        have := List.take_append_drop k l
        rwa [hd, List.append_nil] at this
      refine ⟨chunk [10] x l, ?_, ?_, hne _ _ _, items_chunk _ _ _⟩
      · rw [flat_chunk, hlk]; rfl
      · have := lexed_chunk (g := [10]) (by decide) .nil (by simp) x l (hlk ▸ ht)
        simpa using this
    | cons y m =>
      have hl2 : l = l.take k ++ y :: m := by rw [← hd, List.take_append_drop]
      have hm : m.length < fuel := by
        have : (l.drop k).length ≤ l.length := by simp
        rw [hd, List.length_cons] at this; omega
      obtain ⟨M, h1, h2, h3, h4⟩ := enumLines_lex fuel 4 y m (by omega) hm fun z hz =>
        ha z (List.mem_cons_of_mem _ (by rw [hl2]; exact List.mem_append_right _ hz))
      refine ⟨chunk (10 :: List.replicate 22 32 ++ [32]) x (l.take k) ++ M, ?_, ?_, by simp [h3], ?_⟩
      · rw [flat_append]
        have := flat_chunk (10 :: List.replicate 22 32 ++ [32]) x (l.take k)
        rw [← List.cons_append, this, List.isEmpty_cons, h1]
        simp only [Bool.false_eq_true, if_false, List.append_assoc, List.cons_append, List.nil_append]
      · exact lexed_chunk (by decide) h2 (fun _ => by simp) x _ ht
      · rw [List.map_append, items_chunk, h4]
        conv => rhs; rw [hl2]
        simp [barred]

theorem lexOf_enum {G : Glyphs} {vs : List Variant} (hv : vs ≠ []) : ∃ L, LexOf G (.enum vs) L := by
  have ha := enumItems_atoms 0 vs
  have hlen := enumItems_length 0 vs
  match hi : enumItems 0 vs with
  | [] => rw [hi] at hlen; exact absurd (List.length_eq_zero_iff.1 hlen.symm) hv
  | [a] =>
    rw [hi] at hlen ha
    refine ⟨[(a, b!" "), (b!"|", b!" "), (b!"(|)", [10])], ⟨?_, ?_, ?_, ?_⟩⟩
    · refine .cons (ha a (by simp)).item (by decide) (by decide) (.cons ⟨by decide, .inert (by decide)⟩
        (by decide) (by decide) (.last ⟨by decide, ?_⟩ (by decide)))
      exact Balanced.bracket (s := b!"|") (by decide) (by decide) (.deeper (.inert (by decide)) (by omega))
    · simp only [List.length_cons, List.length_nil] at hlen
      simp only [Sty.render, enumText, hi, ← hlen]
      simp [flat, enumLines]
    · simp only [Sty.toks, hi, variantToks, List.map_cons, List.map_nil]; rfl
    · simp [Sty.firstGap]
  | a :: x :: l =>
    rw [hi] at hlen ha
    obtain ⟨L, h1, h2, h3, h4⟩ := enumLines_lex vs.length 3 x l (by omega) (by simp at hlen; omega) fun y hy =>
      ha y (List.mem_cons_of_mem _ hy)
    refine ⟨(a, b!" ") :: L, ⟨?_, ?_, ?_, ?_⟩⟩
    · exact .cons (ha a (by simp)).item (by decide) (by decide) h2
    · have : vs.length ≠ 1 := by simp at hlen; omega
      simp only [Sty.render, enumText, hi, this, if_false, h1, flat_cons]
      simp
    · simp only [Sty.toks, hi, variantToks, List.map_cons, h4]; rfl
    · simp [Sty.firstGap]

theorem newLine_gap : newLine ≠ [] ∧ ∀ c ∈ newLine, gapChar c = true := by decide

theorem lexOf_union {G : Glyphs} {l : List (Variant × Bool × Sty)} (hl : l ≠ [])
    (h : ∀ p ∈ unionPairs 0 (Sty.renderVariants G l), Atom p.1 ∧ Atom p.2) : ∃ L, LexOf G (.union l) L := by
  obtain ⟨g1, g2⟩ := newLine_gap
  have hlen := unionPairs_length 0 (Sty.renderVariants G l)
  have hne : (Sty.renderVariants G l).isEmpty = false := by
    rw [Sty.renderVariants_eq]; cases l <;> simp_all
  match hi : unionPairs 0 (Sty.renderVariants G l) with
  | [] =>
    rw [hi] at hlen
    rw [List.length_eq_zero_iff.1 hlen.symm] at hne; cases hne
  | [(a, p)] =>
    rw [hi] at hlen h
    obtain ⟨h1, h2⟩ := h (a, p) (by simp)
    refine ⟨[(a, b!" "), (p, b!" "), (b!"|", b!" "), (b!"(|)", [])], ⟨?_, ?_, ?_, ?_⟩⟩
    · refine .cons h1.item (by decide) (by decide) (.cons h2.item (by decide) (by decide)
        (.cons ⟨by decide, .inert (by decide)⟩ (by decide) (by decide) (.last ⟨by decide, ?_⟩ (by decide))))
      exact Balanced.bracket (s := b!"|") (by decide) (by decide) (.deeper (.inert (by decide)) (by omega))
    · simp only [List.length_cons, List.length_nil] at hlen
      simp only [Sty.render, unionText, hne, unionItems_eq, hi, ← hlen]
      simp [flat, sepBy]
    · simp only [Sty.toks, hi, variantToks, List.map_cons, List.map_nil]; rfl
    · simp [Sty.firstGap]
  | q :: r :: m =>
    rw [hi] at hlen h
    refine ⟨groups newLine [(b!"|", b!" ")] ((q :: r :: m).map fun p => [(p.1, b!" "), (p.2, [])]), ⟨?_, ?_, ?_, ?_⟩⟩
    · refine lexed_groups g1 g2 lexed_bar ?_
      intro L hL
      obtain ⟨s, hs, rfl⟩ := List.mem_map.1 hL
      exact .cons (h s hs).1.item (by decide) (by decide) (lexed_single (h s hs).2)
    · have : (Sty.renderVariants G l).length ≠ 1 := by simp at hlen; omega
      rw [flat_groups (by intro L hL; obtain ⟨_, -, rfl⟩ := List.mem_map.1 hL; simp), Sty.render, unionText, hne,
        unionItems_eq, hi]
      simp only [Bool.false_eq_true, if_false, this, List.append_nil, List.map_map]
      have hf : (flat ∘ fun p : Bytes × Bytes => [(p.1, b!" "), (p.2, [])]) = fun p => p.1 ++ b!" " ++ p.2 := by
        funext p; simp [flat]
      rw [hf]
      rfl
    · rw [List.map_cons, items_groups_bar]
      simp only [Sty.toks, hi, List.map_cons, variantToks, List.map_map, List.map_nil]
      rfl
    · simp [Sty.firstGap, groups, addGap]

end Verif
