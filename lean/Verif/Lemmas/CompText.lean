import Verif.Lemmas.SysText
import Verif.Lemmas.TextLib
import Verif.Spec.CompText

/-!
# The text of a compiled library determines what it shows of the library
-/

namespace Verif

theorem Ty.isCompound_eq {Ref : Type} (t : Ty Ref) : t.isCompound = t.inParens := by
  cases t with
  | tuple fs => match fs with
    | [] => rfl
    | [_] => rfl
    | _ :: _ :: _ => simp [Ty.isCompound, Ty.inParens]
  | struct fs => match fs with
    | [] => rfl
    | [_] => rfl
    | _ :: _ :: _ => simp [Ty.isCompound, Ty.inParens]
  | _ => rfl

theorem Ty.surface_union {Ref : Type} (f : Ref → Sty) (c : Ref → Bool) (vs : List (Variant × Ref)) :
    (Ty.union vs).surface f c = match (Ty.union vs).asSome with
      | some r => .opt (f r)
      | none => .union (vs.map fun v => (v.1, c v.2, f v.2)) := by
  cases h : (Ty.union vs).asSome with
  | some r =>
    obtain ⟨u, rfl⟩ := asSome_inv h
    simp [Ty.surface]
  | none =>
    unfold Ty.surface
    split <;> try (rename_i heq; cases heq) <;> try rfl
    rename_i m u n r
    split
    · rename_i hc
      obtain ⟨rfl, rfl⟩ := hc
      simp [Ty.asSome, Ty.noneName, Ty.someName] at h
    · rfl

theorem Ty.text_surface {Ref : Type} (G : Glyphs) {f : Ref → Bytes} {c : Ref → Bool} {f' : Ref → Sty}
    {c' : Ref → Bool} (hf : ∀ r, f r = (f' r).render G) (hc : ∀ r, c r = c' r) (t : Ty Ref) :
    t.text G f c = (t.surface f' c').render G := by
  cases t with
  | union vs =>
    rw [Ty.surface_union]
    simp only [Ty.text]
    cases (Ty.union vs).asSome with
    | none => simp [Sty.render, Sty.renderVariants_eq, Function.comp_def, hf, hc]
    | some r => simp [Sty.render, hf]
  | tuple fs =>
    match fs with
    | [] => simp [Ty.text, Ty.surface, Sty.render, Sty.renders_eq]
    | [r] => simp [Ty.text, Ty.surface, sepBy, hf]
    | r :: r' :: fs =>
      obtain rfl : f = fun r => (f' r).render G := funext hf
      simp [Ty.text, Ty.surface, Sty.render, Sty.renders_eq, Function.comp_def]
  | struct fs => simp [Ty.text, Ty.surface, Sty.render, Sty.renderFields_eq, hf, Function.comp_def]
  | _ => simp [Ty.text, Ty.surface, Sty.render, hf]

theorem ExternRef.text_surface (G : Glyphs) (e : ExternRef) : e.text G = (e.surface G).render G := rfl

theorem InlineRef2.text_surface (G : Glyphs) (r : InlineRef2) : r.text G = (r.surface G).render G := by
  cases r <;> rfl

theorem InlineRef1.text_surface (G : Glyphs) (r : InlineRef1) : r.text G = (r.surface G).render G := by
  cases r with
  | inline t => exact t.text_surface G (c' := fun _ => false) (InlineRef2.text_surface G) fun _ => rfl
  | _ => rfl

theorem InlineRef1.isCompound_eq (r : InlineRef1) : r.isCompound = r.inParens := by
  cases r with
  | inline t => exact t.isCompound_eq
  | _ => rfl

theorem InlineRef.text_surface (G : Glyphs) (r : InlineRef) : r.text G = (r.surface G).render G := by
  cases r with
  | inline t => exact t.text_surface G (InlineRef1.text_surface G) InlineRef1.isCompound_eq
  | _ => rfl

theorem InlineRef.isCompound_eq (r : InlineRef) : r.isCompound = r.inParens := by
  cases r with
  | inline t => exact t.isCompound_eq
  | _ => rfl

theorem LibRef.text_surface (G : Glyphs) (r : LibRef) : r.text G = (r.surface G).render G := by
  cases r with
  | inline t => exact t.text_surface G (InlineRef.text_surface G) InlineRef.isCompound_eq
  | _ => rfl

theorem LibRef.isCompound_eq (r : LibRef) : r.isCompound = r.inParens := by
  cases r with
  | inline t => exact t.isCompound_eq
  | _ => rfl

theorem LibRef.textTy_surface (G : Glyphs) (t : Ty LibRef) :
    t.text G (LibRef.text G) LibRef.isCompound = (LibRef.surfaceTy G t).render G :=
  t.text_surface G (LibRef.text_surface G) LibRef.isCompound_eq

section
variable {G : Glyphs} {P : Byte → Prop} (hG : G.Clear P)

/-- The items between the id and the definitions. -/
def depToks (G : Glyphs) (l : TypeLib) : List Bytes :=
  if l.dependencies.isEmpty then [b!"--", b!"no", b!"dependencies"]
  else l.dependencies.flatMap fun d => [b!"import", marked d.name (G.mnemo d.id)]

def depText (G : Glyphs) (l : TypeLib) : Bytes :=
  if l.dependencies.isEmpty then (b!"--" ++ b!" ") ++ ((b!"no" ++ b!" ") ++ (b!"dependencies" ++ [10, 10]))
  else (l.dependencies.flatMap fun d => (b!"import" ++ b!" ") ++ (marked d.name (G.mnemo d.id) ++ [10])) ++ [10, 10]

def compHeadToks (G : Glyphs) (H : Hash) (l : TypeLib) : List Bytes :=
  [b!"typelib", l.name.bytes, b!"--", G.id (l.id H)]

def compHeadText (G : Glyphs) (H : Hash) (l : TypeLib) : Bytes :=
  (b!"typelib" ++ b!" ") ++ ((l.name.bytes ++ b!" ") ++ ((b!"--" ++ b!" ") ++ (G.id (l.id H) ++ [10, 10])))

noncomputable def compDefToks (G : Glyphs) (e : Name × Ty LibRef) : List (Bytes × Bytes) :=
  bodyToks e.1 ((LibRef.surfaceTy G e.2).lexing G)

theorem TypeLib.text_flat {H : Hash} {l : TypeLib} (hl : ∀ e ∈ l.types, Good G false (LibRef.surfaceTy G e.2)) :
    l.text G H = compHeadText G H l ++ depText G l ++ flat (l.types.flatMap (compDefToks G)) := by
  have hd : flat (l.types.flatMap (compDefToks G)) = l.types.flatMap fun e =>
      b!"data " ++ padded 17 e.1.bytes ++ b!" : " ++ e.2.text G (LibRef.text G) LibRef.isCompound ++ [10, 10] := by
    generalize l.types = t at hl ⊢
    induction t with
    | nil => rfl
    | cons e t ih =>
      rw [List.flatMap_cons, List.flatMap_cons, flat_append, ih fun e he => hl e (List.mem_cons_of_mem _ he)]
      congr 1
      have he := hl e (by simp)
      have hL := he.lexing
      simp only [compDefToks, bodyToks, flat_cons, flat_addGap (hL.ne he.ne), hL.text, padded, LibRef.textTy_surface]
      simp
  rw [hd]
  unfold TypeLib.text depText compHeadText
  cases hdep : l.dependencies with
  | nil => simp
  | cons d ds => simp [Dependency.text, marked]

include hG in
theorem dep_lexes (l : TypeLib) : Lexes (depText G l) (depToks G l) := by
  have word : ∀ {i g : Bytes}, Item i → g ≠ [] → (∀ c ∈ g, gapChar c = true) → Lexes (i ++ g) [i] := Lexes.item
  unfold depText depToks
  split
  · exact (word ⟨by decide, .inert (by decide)⟩ (by decide) (by decide)).append
      ((word ⟨by decide, .inert (by decide)⟩ (by decide) (by decide)).append
      (word ⟨by decide, .inert (by decide)⟩ (by decide) (by decide)))
  · have h := (Lexes.flatMap (l := l.dependencies)
      (f := fun d => (b!"import" ++ b!" ") ++ (marked d.name (G.mnemo d.id) ++ [10]))
      (I := fun d => [b!"import", marked d.name (G.mnemo d.id)]) fun d _ =>
        (word ⟨by decide, .inert (by decide)⟩ (by decide) (by decide)).append
          (word (marked_item hG d.name d.id) (by decide) (by decide))).append
      (Lexes.gap (g := [10, 10]) (by decide))
    rw [List.append_nil] at h
    exact h

theorem depToks_ne_data (l : TypeLib) : ∀ i ∈ depToks G l, i ≠ b!"data" := by
  intro i hi
  unfold depToks at hi
  split at hi
  · revert i; decide
  · obtain ⟨d, -, hi⟩ := List.mem_flatMap.1 hi
    simp only [List.mem_cons, List.not_mem_nil, or_false] at hi
    rcases hi with rfl | rfl
    · decide
    · exact marked_not_word (by decide)

theorem depToks_inj {l m : TypeLib} (h : depToks G l = depToks G m) :
    (l.dependencies.map fun d => (d.name, G.mnemo d.id)) = m.dependencies.map fun d => (d.name, G.mnemo d.id) := by
  have key : ∀ {a b : List Dependency}, (a.flatMap fun d => [b!"import", marked d.name (G.mnemo d.id)]) =
      (b.flatMap fun d => [b!"import", marked d.name (G.mnemo d.id)]) →
      (a.map fun d => (d.name, G.mnemo d.id)) = b.map fun d => (d.name, G.mnemo d.id) := by
    intro a
    induction a with
    | nil =>
      intro b h
      cases b with
      | nil => rfl
      | cons d b => simp at h
    | cons d a ih =>
      intro b h
      cases b with
      | nil => simp at h
      | cons d' b =>
        simp only [List.flatMap_cons, List.cons_append, List.nil_append, List.cons.injEq, true_and] at h
        obtain ⟨h1, h2⟩ := marked_inj_name h.1
        rw [List.map_cons, List.map_cons, ih h.2, h1, h2]
  unfold depToks at h
  cases hl : l.dependencies with
  | nil =>
    cases hm : m.dependencies with
    | nil => rfl
    | cons d ds => rw [hl, hm] at h; simp at h
  | cons d ds =>
    cases hm : m.dependencies with
    | nil => rw [hl, hm] at h; simp at h
    | cons d' ds' =>
      rw [hl, hm] at h
      exact key h

include hG in
/-- The text determines what it shows of the library. -/
theorem TypeLib.view_inj (hi : ∀ i, idText (G.id i) = true) (H : Hash) {l m : TypeLib}
    (hl : ∀ e ∈ l.types, (LibRef.surfaceTy G e.2).Plain G P false)
    (hm : ∀ e ∈ m.types, (LibRef.surfaceTy G e.2).Plain G P false) (h : l.text G H = m.text G H) :
    l.view G H = m.view G H := by
  have spaced : ∀ {t : List (Name × Ty LibRef)}, (∀ e ∈ t, (LibRef.surfaceTy G e.2).Plain G P false) →
      Spaced (t.flatMap (compDefToks G)) := by
    intro t ht p hp
    obtain ⟨e, he, hp⟩ := List.mem_flatMap.1 hp
    have := ((ht e he).good hG).lexing.lexed.spaced (g := [10, 10]) (by simp) (by decide)
    simp only [compDefToks, bodyToks, List.mem_cons] at hp
    rcases hp with rfl | rfl | rfl | hp
    · exact ⟨⟨by decide, .inert (by decide)⟩, by decide, by decide⟩
    · refine ⟨(Atom.word e.1.isWord).item, by simp, ?_⟩
      intro c hc
      rcases List.mem_append.1 hc with hc | hc
      · rw [List.eq_of_mem_replicate hc]; decide
      · rw [List.mem_singleton.1 hc]; decide
    · exact ⟨⟨by decide, .inert (by decide)⟩, by decide, by decide⟩
    · exact this p hp
  have head : ∀ l : TypeLib, Lexes (compHeadText G H l ++ depText G l) (compHeadToks G H l ++ depToks G l) := by
    intro l
    exact ((Lexes.item ⟨by decide, .inert (by decide)⟩ (by decide) (by decide)).append
      ((Lexes.item (Atom.word l.name.isWord).item (by decide) (by decide)).append
      ((Lexes.item ⟨by decide, .inert (by decide)⟩ (by decide) (by decide)).append
      (Lexes.item (Atom.mark (hi _)).item (by decide) (by decide))))).append (dep_lexes hG l)
  rw [TypeLib.text_flat fun e he => (hl e he).good hG, TypeLib.text_flat fun e he => (hm e he).good hG] at h
  obtain ⟨g, L, t1, g1, sL, i1⟩ := head l
  obtain ⟨k, M, t2, g2, sM, i2⟩ := head m
  rw [t1, t2, List.append_assoc, List.append_assoc, ← flat_append, ← flat_append] at h
  have e1 := (sL.append (spaced hl)).lexed
  have e2 := (sM.append (spaced hm)).lexed
  obtain ⟨-, h⟩ := append_span g1 g2 e1.head e2.head h
  have h := e1.unique e2 h
  -- the first four items
  have four : ∀ {L : List (Bytes × Bytes)} {l : TypeLib}, L.map Prod.fst = compHeadToks G H l ++ depToks G l →
      ∃ A B, L = A ++ B ∧ A.length = 4 ∧ A.map Prod.fst = compHeadToks G H l ∧ B.map Prod.fst = depToks G l := by
    intro L l e
    obtain ⟨A, B, rfl, hA, hB⟩ := List.map_eq_append_iff.1 e
    exact ⟨A, B, rfl, by rw [← List.length_map (f := Prod.fst), hA]; rfl, hA, hB⟩
  obtain ⟨A, B, rfl, la, hA, hB⟩ := four i1
  obtain ⟨C, D, rfl, lc, hC, hD⟩ := four i2
  rw [List.append_assoc A, List.append_assoc C] at h
  obtain ⟨hAC, h⟩ := List.append_inj h (by rw [la, lc])
  have hh : compHeadToks G H l = compHeadToks G H m := hA.symm.trans (hAC ▸ hC)
  simp only [compHeadToks, List.cons.injEq, true_and, and_true] at hh
  have start : ∀ {t : List (Name × Ty LibRef)}, ∀ p ∈ (t.flatMap (compDefToks G)).head?, (p.1 != b!"data") = false := by
    intro t p hp
    cases t with
    | nil => simp at hp
    | cons e t =>
      simp [compDefToks, bodyToks] at hp
      rw [← hp]
      simp
  have quiet : ∀ {B : List (Bytes × Bytes)} {l : TypeLib}, B.map Prod.fst = depToks G l →
      ∀ p ∈ B, (p.1 != b!"data") = true := by
    intro B l hB p hp
    simpa using depToks_ne_data (G := G) l p.1 (by rw [← hB]; exact List.mem_map_of_mem hp)
  obtain ⟨hBD, hd⟩ := append_span (a := B) (b := D) (p := fun p => p.1 != b!"data") (quiet hB) (quiet hD) (start (t := l.types))
    (start (t := m.types)) h
  have hdeps := depToks_inj (hB.symm.trans (hBD ▸ hD))
  have hk : ∀ e ∈ l.types ++ m.types, (LibRef.surfaceTy G e.2).Plain G P false := by
    intro e he
    rcases List.mem_append.1 he with he | he
    · exact hl e he
    · exact hm e he
  -- definitions as groups with keys
  have groups : ∀ t : List (Name × Ty LibRef), t.flatMap (compDefToks G) = (t.map fun e =>
      (([(b!"data", b!" "), (e.1.bytes, List.replicate (17 - e.1.bytes.length) 32 ++ b!" ")],
        ((b!":", b!" "), addGap [10, 10] ((LibRef.surfaceTy G e.2).lexing G))) :
        List (Bytes × Bytes) × (Bytes × Bytes) × List (Bytes × Bytes))).flatMap fun x => x.1 ++ x.2.1 :: x.2.2 := by
    intro t
    rw [List.flatMap_map]
    rfl
  rw [groups, groups] at hd
  have hd := keyed_inj (p := fun p => isKey p.1) (by
    intro x hx
    rw [← List.map_append] at hx
    obtain ⟨e, he, rfl⟩ := List.mem_map.1 hx
    refine ⟨by simp only; decide, ?_⟩
    intro y hy
    simp only [List.cons_append, List.nil_append, List.mem_cons] at hy
    rcases hy with rfl | rfl | hy
    · simp only; decide
    · exact IsWord.not_isKey e.1.isWord
    · refine (hk e he).toks_not_isKey hG y.1 ?_
      rw [← ((hk e he).good hG).lexing.toks, ← items_addGap]
      exact List.mem_map_of_mem hy) (by
    intro a ha b hb c hc d hd e
    have two : ∀ {x : List (Bytes × Bytes) × (Bytes × Bytes) × List (Bytes × Bytes)}, x ∈ (l.types.map fun e =>
        (([(b!"data", b!" "), (e.1.bytes, List.replicate (17 - e.1.bytes.length) 32 ++ b!" ")],
        ((b!":", b!" "), addGap [10, 10] ((LibRef.surfaceTy G e.2).lexing G))) :
        List (Bytes × Bytes) × (Bytes × Bytes) × List (Bytes × Bytes))) ++ (m.types.map fun e =>
        ([(b!"data", b!" "), (e.1.bytes, List.replicate (17 - e.1.bytes.length) 32 ++ b!" ")],
        ((b!":", b!" "), addGap [10, 10] ((LibRef.surfaceTy G e.2).lexing G)))) → x.1.length = 2 := by
      intro x hx
      rw [← List.map_append] at hx
      obtain ⟨e, -, rfl⟩ := List.mem_map.1 hx
      rfl
    exact List.append_inj' e (by rw [two hc, two hd])) hd
  unfold TypeLib.view
  rw [CompView.mk.injEq]
  refine ⟨Name.ext hh.1, hh.2, hdeps, ?_⟩
  refine map_eq_map ?_ hd
  intro a ha b hb e
  simp only [Prod.mk.injEq, List.cons.injEq, true_and, and_true] at e
  have pa := hl a ha
  have pb := hm b hb
  have h6 : (LibRef.surfaceTy G a.2).render G = (LibRef.surfaceTy G b.2).render G := by
    rw [← (pa.good hG).lexing.text, ← (pb.good hG).lexing.text, addGap_inj e.2]
  rw [Name.ext e.1.1, pa.told hG _ _ pb h6]

end

end Verif
