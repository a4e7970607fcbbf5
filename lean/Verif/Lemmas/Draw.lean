import Verif.Spec.Draw
import Verif.Lemmas.Layout
import Verif.Lemmas.ReflectTyped
import Verif.Lemmas.StlValues
import Verif.Lemmas.CrateTypes

/-!
# Layouts of Rust types

In a system which contains the types of a set of Rust types the outline of each is the tree of the Rust type.
-/

namespace Verif

variable {H : Hash} {S : SymbolicSys}

theorem drawFields_eq (fs : List (Option Name × RTy)) :
    RTy.drawFields H fs = fs.map fun f => (f.1, RTy.draw H f.2) := by
  induction fs with
  | nil => rfl
  | cons f fs ih => obtain ⟨n, t⟩ := f; simp [RTy.drawFields, RTy.drawField, ih]

theorem drawVariants_eq (vs : List (Variant × RTy)) :
    RTy.drawVariants H vs = vs.map fun v => (v.1, RTy.draw H v.2) := by
  induction vs with
  | nil => rfl
  | cons v vs ih => obtain ⟨n, t⟩ := v; simp [RTy.drawVariants, RTy.drawVariant, ih]

theorem held_map {α β : Type} (g : α → β) (l : List (Variant × α)) :
    held? (l.map fun v => (v.1, g v.2)) = (held? l).map g := by
  match l with
  | [] => rfl
  | [_] => rfl
  | [(v, _), (w, a)] =>
    simp only [List.map_cons, List.map_nil, held?]
    split <;> rfl
  | _ :: _ :: _ :: _ => rfl

theorem held_mem {α : Type} {l : List (Variant × α)} {a : α} (h : held? l = some a) :
    l.length = 2 ∧ ∃ v, (v, a) ∈ l := by
  match l, h with
  | [(v, _), (w, b)], h =>
    simp only [held?] at h
    split at h
    · cases h; exact ⟨rfl, w, by simp⟩
    · cases h

theorem asSome_union (vs : List (Variant × SemId)) : (Ty.union vs).asSome = held? vs := by
  match vs with
  | [] => rfl
  | [_] => rfl
  | [(⟨n, t⟩, _), (⟨m, u⟩, a)] =>
    simp only [Ty.asSome, held?, List.length_cons, List.length_nil, List.head?_cons, List.getLast?_cons_cons,
      List.getLast?_singleton, Variant.mk.injEq, Ty.noneName, Ty.someName, and_assoc, if_true]
    rfl
  | _ :: _ :: _ :: _ => simp [Ty.asSome, held?]

theorem variants_byTag (vs : List (Variant × RTy)) :
    byTag (fun v => v.1.tag) (RTy.drawVariants H vs) =
      (byTag (fun v => v.1.tag) vs).map fun v => (v.1, RTy.draw H v.2) := by
  rw [drawVariants_eq]
  exact byTag_map (tag := fun v : Variant × RTy => v.1.tag) (tag' := fun v : Variant × Drawing => v.1.tag)
    (g := fun v => (v.1, RTy.draw H v.2)) (fun _ => rfl) vs

/-! ### Limits -/

theorem heightFields_mem {fs : List (Option Name × RTy)} {f : Option Name × RTy} (h : f ∈ fs) :
    f.2.height ≤ RTy.heightFields fs := by
  induction fs with
  | nil => cases h
  | cons g fs ih =>
    simp only [RTy.heightFields]
    rcases List.mem_cons.mp h with rfl | h
    · obtain ⟨n, t⟩ := f; simp only [RTy.heightField]; omega
    · have := ih h; omega

theorem heightVariants_mem {vs : List (Variant × RTy)} {v : Variant × RTy} (h : v ∈ vs) :
    v.2.height ≤ RTy.heightVariants vs := by
  induction vs with
  | nil => cases h
  | cons g fs ih =>
    simp only [RTy.heightVariants]
    rcases List.mem_cons.mp h with rfl | h
    · obtain ⟨n, t⟩ := v; simp only [RTy.heightVariant]; omega
    · have := ih h; omega

theorem height_part {q p : RTy} (h : p ∈ q.parts) : p.height < q.height := by
  cases q with
  | prim | unicode | enum => simp [RTy.parts] at h
  | rstring c c1 sz =>
    simp only [RTy.parts, List.mem_cons, List.not_mem_nil, or_false] at h
    simp only [RTy.height]
    rcases h with rfl | rfl <;> omega
  | array | list | set =>
    simp only [RTy.parts, List.mem_singleton] at h
    subst h; simp only [RTy.height]; omega
  | map k t sz =>
    simp only [RTy.parts, List.mem_cons, List.not_mem_nil, or_false] at h
    simp only [RTy.height]
    rcases h with rfl | rfl <;> omega
  | record lib name b fs =>
    simp only [RTy.parts, List.mem_map] at h
    obtain ⟨f, hf, rfl⟩ := h
    have := heightFields_mem hf
    simp only [RTy.height]; omega
  | union lib name vs w =>
    simp only [RTy.parts, List.mem_map] at h
    obtain ⟨f, hf, rfl⟩ := h
    have := heightVariants_mem hf
    simp only [RTy.height]; omega

theorem wraps_field {lib : Name} {name : Option Name} {f : Option Name × RTy} :
    f.2.wraps < (RTy.record lib name true [f]).wraps := by
  obtain ⟨n, t⟩ := f
  simp only [RTy.wraps, RTy.wrapsField]; omega

theorem wraps_held {lib : Name} {name : Option Name} {vs : List (Variant × RTy)} {w : Nat} {t : RTy}
    (hd : (RTy.union lib name vs w).DistinctVariants) (h : held? (byTag (fun v => v.1.tag) vs) = some t) :
    t.wraps < (RTy.union lib name vs w).wraps := by
  obtain ⟨hl, v, hv⟩ := held_mem h
  rw [byTag_length hd.1] at hl
  rw [mem_byTag] at hv
  match vs, hl, hv with
  | [(a, x), (b, y)], _, hv =>
    simp only [RTy.wraps, RTy.wrapsVariant]
    simp only [List.mem_cons, List.not_mem_nil, or_false, Prod.mk.injEq] at hv
    rcases hv with ⟨-, rfl⟩ | ⟨-, rfl⟩ <;> omega

/-! ### Counting levels -/

/-- At most `n` steps of the relation lead on from here, counting from one. -/
def StepsLe {α : Type} (R : α → α → Prop) : Nat → α → Prop
  | 0, _ => False
  | n + 1, a => ∀ b, R a b → StepsLe R n b

theorem StepsLe.mono {α : Type} {R : α → α → Prop} {n m : Nat} {a : α} (h : StepsLe R n a) (hm : n ≤ m) :
    StepsLe R m a := by
  induction n generalizing a m with
  | zero => exact h.elim
  | succ n ih =>
    cases m with
    | zero => omega
    | succ m => exact fun b hb => ih (h b hb) (by omega)

theorem exists_least {P : Nat → Prop} (n : Nat) (h : P n) : ∃ k, k ≤ n ∧ P k ∧ ∀ m, P m → k ≤ m := by
  induction n using Nat.strongRecOn with
  | _ n ih =>
    by_cases hm : ∃ m, m < n ∧ P m
    · obtain ⟨m, hm, hp⟩ := hm
      obtain ⟨k, hk, h1, h2⟩ := ih m hm hp
      exact ⟨k, by omega, h1, h2⟩
    · exact ⟨n, Nat.le_refl n, h, fun m hp => Nat.le_of_not_lt fun hlt => hm ⟨m, hlt, hp⟩⟩

/-- If everywhere there are at most `n` steps to go, there is a number decreasing with every step. -/
theorem StepsLe.rank {α : Type} {R : α → α → Prop} {n : Nat} (h : ∀ a, StepsLe R n a) :
    ∃ rank : α → Nat, (∀ a b, R a b → rank b < rank a) ∧ ∀ a, rank a ≤ n := by
  have hl := fun a => exists_least (P := fun n => StepsLe R n a) n (h a)
  refine ⟨fun a => (hl a).choose, fun a b hab => ?_, fun a => (hl a).choose_spec.1⟩
  have ha := (hl a).choose_spec.2.1
  have hb := (hl b).choose_spec.2.2
  show (hl b).choose < (hl a).choose
  generalize (hl a).choose = k at ha
  cases k with
  | zero => exact ha.elim
  | succ k => have := hb k (ha b hab); omega

/-! ### Systems which contain Rust types -/

/-- The system contains these Rust types, nothing else, and knows their names. -/
structure Draws (H : Hash) (debug : Bool) (S : SymbolicSys) (D : RTy → Prop) : Prop where
  parts : ∀ q p, D q → p ∈ q.parts → D p
  get : ∀ q id t, D q → q.Entry H id t → S.types.get id = some t
  only : ∀ id t, S.types.get id = some t → ∃ q, D q ∧ q.Entry H id t
  look : ∀ q, D q → S.lookup (q.semId H) = q.full
  byte : ∀ q, D q → (ByteId H (q.semId H) ↔ q.isByte = true)
  ok : ∀ q, D q → q.Drawable debug
  variants : ∀ q, D q → q.DistinctVariants
  node : ∀ q, D q → ∃ own known, q.NodeOk debug own known

variable {debug : Bool} {D : RTy → Prop}

theorem Draws.self (h : Draws H debug S D) {q : RTy} (hq : D q) : S.types.get (q.semId H) = some (q.img H) :=
  h.get q _ _ hq (.self q)

theorem Draws.tail (h : Draws H debug S D) {c c1 : RTy} {sz : Sizing} (hq : D (.rstring c c1 sz)) :
    S.types.get (tailId H c sz) = some (.list (c.semId H) ⟨sz.min - 1, sz.max - 1⟩) :=
  h.get _ _ _ hq (.tail c c1 sz)

theorem Draws.char (h : Draws H debug S D) {sz : Sizing} (hq : D (.unicode sz)) :
    S.types.get (SemId.unicodeChar H) = some .unicodeChar := h.get _ _ _ hq (.char sz)

theorem letters_iff {q : RTy} : (∃ C, q.img H = .enum C ∧ CharVariants C) ↔ q.isLetters = true := by
  rw [← isCharEnum_iff_chars, ← RTy.letters_charEnum (H := H) q]
  exact Iff.rfl

/-- The types which are shown as strings. -/
theorem Draws.not_shown (h : Draws H debug S D) {q : RTy} (hq : D q) (h1 : ∀ sz, q ≠ .unicode sz)
    (h2 : ∀ c c1 sz, q ≠ .rstring c c1 sz)
    (h3 : ∀ t sz, q = .list t sz → t.isByte = false ∧ t.isLetters = false) (n : NestedCase) :
    ¬ ShownAs S (q.img H) n := by
  have hlist : ∀ r sz, q.img H = .list r sz → ∃ t, q = .list t sz ∧ r = t.semId H := by
    intro r sz e
    rcases RTy.img_list_inv e with ⟨rfl, -⟩ | h
    · exact absurd rfl (h1 sz)
    · exact h
  have letters : ∀ {p : RTy} {C : List Variant}, D p → S.types.get (p.semId H) = some (.enum C) → CharVariants C →
      p.isLetters = true := by
    intro p C hp hg hC
    rw [h.self hp] at hg
    exact letters_iff.mp ⟨C, Option.some.inj hg, hC⟩
  intro hs
  generalize he : q.img H = u at hs
  cases hs with
  | ascii hg hC =>
    obtain ⟨t, rfl, rfl⟩ := hlist _ _ he
    have := letters (h.parts _ t hq (by simp [RTy.parts])) hg hC
    rw [(h3 _ _ rfl).2] at this
    cases this
  | bytes hg hc =>
    obtain ⟨t, rfl, rfl⟩ := hlist _ _ he
    rw [h.self (h.parts _ t hq (by simp [RTy.parts]))] at hg
    rcases RTy.img_primitive (Option.some.inj hg) with rfl | e
    · have := (h3 _ _ rfl).1
      rcases hc with rfl | rfl <;> exact absurd this (by decide)
    · rw [e] at hc
      exact absurd hc (by decide)
  | unicode hg =>
    obtain ⟨t, rfl, rfl⟩ := hlist _ _ he
    rw [h.self (h.parts _ t hq (by simp [RTy.parts]))] at hg
    exact RTy.img_ne_unicode (Option.some.inj hg)
  | @rstring a b r sz A C ha hA hb hr hC =>
    cases q with
    | record lib name isTuple fs =>
      cases fs with
      | nil => rw [RTy.img_empty] at he; cases he
      | cons f fs =>
        cases isTuple with
        | false => rw [RTy.img_struct rfl] at he; cases he
        | true =>
          rw [RTy.img_tuple rfl] at he
          match fs, he with
          | [g], he =>
            simp only [List.map_cons, List.map_nil, Ty.tuple.injEq, List.cons.injEq, and_true] at he
            obtain ⟨rfl, rfl⟩ := he
            have df : D f.2 := h.parts _ f.2 hq (by simp [RTy.parts])
            have dg : D g.2 := h.parts _ g.2 hq (by simp [RTy.parts])
            have hf := letters df ha hA
            rw [h.self dg] at hb
            obtain ⟨n1, f⟩ := f
            obtain ⟨n2, g⟩ := g
            rcases RTy.img_list_inv (Option.some.inj hb) with ⟨e, rfl⟩ | ⟨t, e, rfl⟩
            · dsimp only at e dg
              rw [e] at dg
              rw [h.char dg] at hr; cases hr
            · dsimp only at e dg
              subst e
              have ht := letters (h.parts _ t dg (by simp [RTy.parts])) hr hC
              exact (h.ok _ hq).clear ⟨hf, ht⟩
    | rstring => exact h2 _ _ _ rfl
    | unicode => rw [RTy.img_unicode] at he; cases he
    | list => rw [RTy.img_list] at he; cases he
    | set => rw [RTy.img_set] at he; cases he
    | map => rw [RTy.img_map] at he; cases he
    | array => rw [RTy.img_array] at he; cases he
    | enum => rw [RTy.img_enum] at he; cases he
    | union => rw [RTy.img_union] at he; cases he
    | prim => simp [RTy.img, RTy.sem, RTy.tyWith, Ty.mapRefs] at he

theorem numbered_map {α β : Type} (g : α → β) (l : List α) (k : Nat) :
    numbered k (l.map g) = (numbered k l).map fun p => (p.1, g p.2) := by
  induction l generalizing k with
  | nil => rfl
  | cons a l ih => simp [numbered, ih]

theorem numbered_mem {α : Type} {l : List α} {k : Nat} {p : Nat × α} (h : p ∈ numbered k l) : p.2 ∈ l := by
  have := List.mem_map_of_mem (f := Prod.snd) h
  rwa [numbered_map_snd] at this

theorem sizeOf_part {q p : RTy} (h : p ∈ q.parts) : sizeOf p < sizeOf q := by
  have := height_part h
  cases q with
  | prim | unicode | enum => simp [RTy.parts] at h
  | rstring c c1 sz =>
    simp only [RTy.parts, List.mem_cons, List.not_mem_nil, or_false] at h
    rcases h with rfl | rfl <;> simp <;> omega
  | array | list | set =>
    simp only [RTy.parts, List.mem_singleton] at h
    subst h; simp; omega
  | map k t sz =>
    simp only [RTy.parts, List.mem_cons, List.not_mem_nil, or_false] at h
    rcases h with rfl | rfl <;> simp <;> omega
  | record lib name b fs =>
    simp only [RTy.parts, List.mem_map] at h
    obtain ⟨⟨n, t⟩, hf, rfl⟩ := h
    have := List.sizeOf_lt_of_mem hf
    simp at this ⊢; omega
  | union lib name vs w =>
    simp only [RTy.parts, List.mem_map] at h
    obtain ⟨⟨n, t⟩, hf, rfl⟩ := h
    have := List.sizeOf_lt_of_mem hf
    simp at this ⊢; omega

/-- The outline of a type is the tree of the Rust type. -/
theorem Draws.shape (h : Draws H debug S D) : ∀ (n : Nat) (q : RTy) (d : Nat) (item : Option Ty.ItemCase)
    (nested : List NestedCase), sizeOf q ≤ n → D q → ShapeN H S n (q.semId H) d item nested (q.draw H d item nested) := by
  intro n
  induction n with
  | zero => intro q; cases q <;> simp
  | succ n ih =>
    intro q d item nested hn hq
    have hg := h.self hq
    have hinfo : ∀ nested, q.info H d item nested = ⟨BitVec.ofNat 32 d, q.img H, S.lookup (q.semId H), item, nested⟩ := by
      intro nested; rw [h.look q hq]; rfl
    have part : ∀ p ∈ q.parts, ∀ d item nested, ShapeN H S n (p.semId H) d item nested (p.draw H d item nested) :=
      fun p hp d item nested => ih p d item nested (by have := sizeOf_part hp; omega) (h.parts q p hq hp)
    have plain : ∀ cs, (q.img H).asSome = none → (∀ r, q.img H ≠ .tuple [r]) → (∀ sz, q ≠ .unicode sz) →
        (∀ c c1 sz, q ≠ .rstring c c1 sz) → (∀ t sz, q = .list t sz → t.isByte = false ∧ t.isLetters = false) →
        (∀ r len, q.img H = .array r len → ¬ ByteId H r) →
        All2 (fun p c => ShapeN H S n p.1 (d + 1) p.2 [] c) (q.img H).places cs →
        ShapeN H S (n + 1) (q.semId H) d item nested (.node (q.info H d item nested) cs) := by
      intro cs h1 h2 h3 h4 h5 h6 h7
      rw [hinfo]
      exact ShapeOf.plain hg h1 h2 (h.not_shown hq h3 h4 h5) h6 h7
    have text : ∀ w, ShownAs S (q.img H) w →
        ShapeN H S (n + 1) (q.semId H) d item nested (.node (q.info H d item (nested ++ [w])) []) := by
      intro w hw
      rw [hinfo]
      exact ShapeOf.text hg hw
    cases q with
    | prim c =>
      have e : (RTy.prim c).img H = .primitive c := rfl
      exact plain [] (by rw [e]; rfl) (by rw [e]; exact nofun) nofun nofun nofun (by rw [e]; exact nofun)
        (by rw [e]; trivial)
    | unicode sz =>
      refine text .uniStr ?_
      rw [RTy.img_unicode]
      exact .unicode (h.char hq)
    | rstring c c1 sz =>
      have d1 : D c1 := h.parts _ c1 hq (by simp [RTy.parts])
      have d0 : D c := h.parts _ c hq (by simp [RTy.parts])
      obtain ⟨l0, l1⟩ := (h.ok _ hq).text _ _ _ rfl
      obtain ⟨C, e0, hC⟩ := letters_iff (H := H).mpr l0
      obtain ⟨A, e1, hA⟩ := letters_iff (H := H).mpr l1
      have e : (⟨sz.min - 1 + 1, sz.max - 1 + 1⟩ : Sizing) = sz := by
        rw [BitVec.sub_add_cancel, BitVec.sub_add_cancel]
      have := ShownAs.rstring (S := S) (e1 ▸ h.self d1) hA (h.tail hq) (e0 ▸ h.self d0) hC
      rw [h.look _ d1, h.look _ d0, e, ← RTy.img_rstring (H := H)] at this
      exact text _ this
    | array t len =>
      have dt : D t := h.parts _ t hq (by simp [RTy.parts])
      simp only [RTy.draw]
      by_cases hb : t.isByte = true
      · rw [if_pos hb, hinfo, RTy.img_array]
        rw [RTy.img_array] at hg
        exact ShapeOf.bytes hg ((h.byte t dt).mpr hb)
      · rw [if_neg hb]
        refine plain _ ?_ ?_ nofun nofun nofun ?_ ?_
        · rw [RTy.img_array]; rfl
        · rw [RTy.img_array]; exact nofun
        · rw [RTy.img_array]
          rintro r len e
          cases e
          exact fun hr => hb ((h.byte t dt).mp hr)
        · rw [RTy.img_array]
          exact ⟨part t (by simp [RTy.parts]) _ _ _, trivial⟩
    | list t sz =>
      have dt : D t := h.parts _ t hq (by simp [RTy.parts])
      simp only [RTy.draw]
      by_cases hb : t.isByte = true
      · rw [if_pos hb]
        refine text _ ?_
        rw [RTy.img_list]
        cases t with
        | prim c =>
          refine .bytes (h.self dt) ?_
          simp only [RTy.isByte, Bool.or_eq_true, decide_eq_true_eq] at hb
          exact hb.symm
        | _ => simp [RTy.isByte] at hb
      · rw [if_neg hb]
        by_cases hl : t.isLetters = true
        · rw [if_pos hl]
          obtain ⟨C, e0, hC⟩ := letters_iff (H := H).mpr hl
          refine text _ ?_
          rw [RTy.img_list, ← h.look t dt]
          exact .ascii (e0 ▸ h.self dt) hC
        · rw [if_neg hl]
          refine plain _ ?_ ?_ nofun nofun ?_ ?_ ?_
          · rw [RTy.img_list]; rfl
          · rw [RTy.img_list]; exact nofun
          · rintro t' sz' e
            cases e
            exact ⟨by simpa using hb, by simpa using hl⟩
          · rw [RTy.img_list]; exact nofun
          · rw [RTy.img_list]
            exact ⟨part t (by simp [RTy.parts]) _ _ _, trivial⟩
    | set t sz =>
      simp only [RTy.draw]
      refine plain _ ?_ ?_ nofun nofun nofun ?_ ?_
      · rw [RTy.img_set]; rfl
      · rw [RTy.img_set]; exact nofun
      · rw [RTy.img_set]; exact nofun
      · rw [RTy.img_set]
        exact ⟨part t (by simp [RTy.parts]) _ _ _, trivial⟩
    | map k t sz =>
      simp only [RTy.draw]
      refine plain _ ?_ ?_ nofun nofun nofun ?_ ?_
      · rw [RTy.img_map]; rfl
      · rw [RTy.img_map]; exact nofun
      · rw [RTy.img_map]; exact nofun
      · rw [RTy.img_map]
        exact ⟨part k (by simp [RTy.parts]) _ _ _, part t (by simp [RTy.parts]) _ _ _, trivial⟩
    | enum lib name vs =>
      simp only [RTy.draw]
      refine plain _ ?_ ?_ nofun nofun nofun ?_ ?_
      · rw [RTy.img_enum]; rfl
      · rw [RTy.img_enum]; exact nofun
      · rw [RTy.img_enum]; exact nofun
      · rw [RTy.img_enum]; trivial
    | record lib name isTuple fs =>
      cases isTuple with
      | true =>
        simp only [RTy.draw]
        match fs with
        | [] =>
          refine plain _ ?_ ?_ nofun nofun nofun ?_ ?_
          · rw [RTy.img_empty]; rfl
          · rw [RTy.img_empty]; exact nofun
          · rw [RTy.img_empty]; exact nofun
          · rw [RTy.img_empty]; trivial
        | [f] =>
          have e : RTy.drawFields H [f] = [(f.1, f.2.draw H)] := by rw [drawFields_eq]; rfl
          rw [e]
          rw [RTy.img_tuple rfl] at hg
          rw [← h.look _ hq]
          exact ShapeOf.wrapper hg (part f.2 (by simp [RTy.parts]) _ _ _)
        | f :: g :: fs =>
          have e : (RTy.record lib name true (f :: g :: fs)).img H =
            .tuple ((f :: g :: fs).map fun f => f.2.semId H) := RTy.img_tuple rfl
          have e2 : RTy.drawFields H (f :: g :: fs) = (f.1, f.2.draw H) :: (g.1, g.2.draw H) :: RTy.drawFields H fs := by
            obtain ⟨_, _⟩ := f; obtain ⟨_, _⟩ := g; rfl
          rw [e2]
          refine plain _ ?_ ?_ nofun nofun nofun ?_ ?_
          · rw [e]; rfl
          · rw [e]; intro r h; simp at h
          · rw [e]; exact nofun
          · rw [e, ← e2, drawFields_eq]
            simp only [Ty.places, List.map_map]
            exact all2_maps fun a ha => part a.2 (List.mem_map.mpr ⟨a, ha, rfl⟩) _ _ _
      | false =>
        simp only [RTy.draw]
        match fs with
        | [] =>
          refine plain _ ?_ ?_ nofun nofun nofun ?_ ?_
          · rw [RTy.img_empty]; rfl
          · rw [RTy.img_empty]; exact nofun
          · rw [RTy.img_empty]; exact nofun
          · rw [RTy.img_empty]; trivial
        | f :: fs =>
          have e := RTy.img_struct (H := H) (lib := lib) (name := name) (fs := f :: fs) rfl
          refine plain _ ?_ ?_ nofun nofun nofun ?_ ?_
          · rw [e]; rfl
          · rw [e]; exact nofun
          · rw [e]; exact nofun
          · rw [e, drawFields_eq]
            simp only [Ty.places]
            have e1 : (f :: fs).filterMap (fun f => f.1.map fun n => (n, f.2.semId H)) =
                ((f :: fs).filterMap fun f => f.1.map fun n => (n, f.2)).map fun p => (p.1, p.2.semId H) := by
              rw [List.map_filterMap]; congr 1; funext a; simp [Option.map_map, Function.comp_def]
            have e2 : ((f :: fs).map fun f => (f.1, RTy.draw H f.2)).filterMap (fun f => f.1.map fun n => (n, f.2)) =
                ((f :: fs).filterMap fun f => f.1.map fun n => (n, f.2)).map fun p => (p.1, RTy.draw H p.2) := by
              rw [List.map_filterMap, List.filterMap_map]; congr 1; funext a; simp [Option.map_map, Function.comp_def]
            rw [e1, e2, numbered_map, numbered_map, List.map_map, List.map_map]
            refine all2_maps fun a ha => part a.2.2 ?_ _ _ _
            obtain ⟨b, hb, hb2⟩ := List.mem_filterMap.mp (numbered_mem ha)
            obtain ⟨m, -, hm⟩ := Option.map_eq_some_iff.mp hb2
            rw [← hm]
            exact List.mem_map.mpr ⟨b, hb, rfl⟩
    | union lib name vs w =>
      simp only [RTy.draw]
      have e := RTy.img_union (H := H) (lib := lib) (name := name) (vs := vs) (w := w)
      have e1 : ((RTy.union lib name vs w).img H).asSome =
          (held? (byTag (fun v => v.1.tag) vs)).map (RTy.semId H) := by
        rw [e, asSome_union]; exact held_map _ _
      have e2 : held? (byTag (fun v => v.1.tag) (RTy.drawVariants H vs)) =
          (held? (byTag (fun v => v.1.tag) vs)).map (RTy.draw H) := by
        rw [variants_byTag]; exact held_map _ _
      rw [e2]
      cases hh : held? (byTag (fun v => v.1.tag) vs) with
      | some t =>
        obtain ⟨-, v, hv⟩ := held_mem hh
        rw [mem_byTag] at hv
        rw [hh] at e1
        exact ShapeOf.optional hg e1 (part t (List.mem_map.mpr ⟨_, hv, rfl⟩) _ _ _)
      | none =>
        rw [hh] at e1
        simp only [Option.map_none]
        refine plain _ e1 ?_ nofun nofun nofun ?_ ?_
        · rw [e]; exact nofun
        · rw [e]; exact nofun
        · rw [e, variants_byTag]
          simp only [Ty.places]
          rw [numbered_map, numbered_map, List.map_map, List.map_map]
          exact all2_maps fun a ha => part a.2.2 (List.mem_map.mpr ⟨a.2, mem_byTag.mp (numbered_mem ha), rfl⟩) _ _ _

/-! ### Such systems have outlines -/

theorem img_refs {q : RTy} {r : SemId} (h : r ∈ (q.img H).refs) :
    (∃ p ∈ q.parts, r = p.semId H) ∨ (∃ sz, q = .unicode sz ∧ r = SemId.unicodeChar H) ∨
      ∃ c c1 sz, q = .rstring c c1 sz ∧ r = tailId H c sz := by
  cases q with
  | prim => simp [RTy.img, RTy.sem, RTy.tyWith, Ty.mapRefs, Ty.refs] at h
  | unicode sz =>
    simp only [RTy.img_unicode, Ty.refs, List.mem_singleton] at h
    exact .inr (.inl ⟨sz, rfl, h⟩)
  | rstring c c1 sz =>
    simp only [RTy.img_rstring, Ty.refs, List.mem_cons, List.not_mem_nil, or_false] at h
    rcases h with h | h
    · exact .inl ⟨c1, by simp [RTy.parts], h⟩
    · exact .inr (.inr ⟨c, c1, sz, rfl, h⟩)
  | array t =>
    simp only [RTy.img_array, Ty.refs, List.mem_singleton] at h
    exact .inl ⟨t, by simp [RTy.parts], h⟩
  | list t =>
    simp only [RTy.img_list, Ty.refs, List.mem_singleton] at h
    exact .inl ⟨t, by simp [RTy.parts], h⟩
  | set t =>
    simp only [RTy.img_set, Ty.refs, List.mem_singleton] at h
    exact .inl ⟨t, by simp [RTy.parts], h⟩
  | map k t =>
    simp only [RTy.img_map, Ty.refs, List.mem_cons, List.not_mem_nil, or_false] at h
    rcases h with h | h
    · exact .inl ⟨k, by simp [RTy.parts], h⟩
    · exact .inl ⟨t, by simp [RTy.parts], h⟩
  | enum => simp [RTy.img_enum, Ty.refs] at h
  | union lib name vs w =>
    simp only [RTy.img_union, Ty.refs, List.map_map, List.mem_map, mem_byTag] at h
    obtain ⟨v, hv, rfl⟩ := h
    exact .inl ⟨v.2, List.mem_map.mpr ⟨v, hv, rfl⟩, rfl⟩
  | record lib name isTuple fs =>
    cases fs with
    | nil => rw [RTy.img_empty] at h; simp [Ty.refs] at h
    | cons f fs =>
      cases isTuple with
      | true =>
        rw [RTy.img_tuple rfl] at h
        obtain ⟨v, hv, rfl⟩ := List.mem_map.mp h
        exact .inl ⟨v.2, List.mem_map.mpr ⟨v, hv, rfl⟩, rfl⟩
      | false =>
        rw [RTy.img_struct rfl] at h
        simp only [Ty.refs, List.mem_map, List.mem_filterMap] at h
        obtain ⟨p, ⟨v, hv, hp⟩, rfl⟩ := h
        obtain ⟨m, -, hm⟩ := Option.map_eq_some_iff.mp hp
        exact .inl ⟨v.2, List.mem_map.mpr ⟨v, hv, rfl⟩, by rw [← hm]⟩

/-- The type refers to the other one. -/
def Refers (S : SymbolicSys) (a b : SemId) : Prop := ∃ t, S.types.get a = some t ∧ b ∈ t.refs

/-- The type wraps the other one. -/
def Wraps (S : SymbolicSys) (a b : SemId) : Prop :=
  ∃ t, S.types.get a = some t ∧ (t = .tuple [b] ∨ t.asSome = some b)

theorem Draws.char_levels (h : Draws H debug S D) {sz : Sizing} (hq : D (.unicode sz)) :
    StepsLe (Refers S) 1 (SemId.unicodeChar H) := by
  rintro b ⟨t, ht, hb⟩
  rw [h.char hq] at ht
  cases ht
  simp [Ty.refs] at hb

theorem Draws.levels (h : Draws H debug S D) : ∀ (n : Nat) (q : RTy), q.height ≤ n → D q →
    StepsLe (Refers S) (n + 1) (q.semId H) := by
  intro n
  induction n using Nat.strongRecOn with
  | _ n ih =>
    rintro q hn hq b ⟨t, ht, hb⟩
    rw [h.self hq] at ht
    cases ht
    rcases img_refs hb with ⟨p, hp, rfl⟩ | ⟨sz, rfl, rfl⟩ | ⟨c, c1, sz, rfl, rfl⟩
    · have := height_part hp
      obtain ⟨m, rfl⟩ : ∃ m, n = m + 1 := ⟨n - 1, by omega⟩
      exact ih m (by omega) p (by omega) (h.parts q p hq hp)
    · simp only [RTy.height] at hn
      exact (h.char_levels hq).mono hn
    · simp only [RTy.height] at hn
      obtain ⟨m, rfl⟩ : ∃ m, n = m + 2 := ⟨n - 2, by omega⟩
      rintro b ⟨t, ht, hb⟩
      rw [h.tail hq] at ht
      cases ht
      simp only [Ty.refs, List.mem_singleton] at hb
      subst hb
      exact ih m (by omega) c (by omega) (h.parts _ c hq (by simp [RTy.parts]))

theorem Draws.layers (h : Draws H debug S D) : ∀ (n : Nat) (q : RTy), q.wraps ≤ n → D q →
    StepsLe (Wraps S) (n + 1) (q.semId H) := by
  intro n
  induction n using Nat.strongRecOn with
  | _ n ih =>
    rintro q hn hq b ⟨t, ht, hb⟩
    rw [h.self hq] at ht
    cases ht
    have next : ∀ p, p.wraps < q.wraps → D p → StepsLe (Wraps S) n (p.semId H) := by
      intro p hp dp
      obtain ⟨m, rfl⟩ : ∃ m, n = m + 1 := ⟨n - 1, by omega⟩
      exact ih m (by omega) p (by omega) dp
    rcases hb with hb | hb
    · cases q with
      | record lib name isTuple fs =>
        cases fs with
        | nil => rw [RTy.img_empty] at hb; cases hb
        | cons f fs =>
          cases isTuple with
          | false => rw [RTy.img_struct rfl] at hb; cases hb
          | true =>
            rw [RTy.img_tuple rfl] at hb
            cases fs with
            | nil =>
              simp only [List.map_cons, List.map_nil, Ty.tuple.injEq, List.cons.injEq, and_true] at hb
              subst hb
              exact next f.2 wraps_field (h.parts _ _ hq (by simp [RTy.parts]))
            | cons g fs => simp at hb
      | rstring => rw [RTy.img_rstring] at hb; simp at hb
      | unicode => rw [RTy.img_unicode] at hb; cases hb
      | list => rw [RTy.img_list] at hb; cases hb
      | set => rw [RTy.img_set] at hb; cases hb
      | map => rw [RTy.img_map] at hb; cases hb
      | array => rw [RTy.img_array] at hb; cases hb
      | enum => rw [RTy.img_enum] at hb; cases hb
      | union => rw [RTy.img_union] at hb; cases hb
      | prim => simp [RTy.img, RTy.sem, RTy.tyWith, Ty.mapRefs] at hb
    · cases q with
      | union lib name vs w =>
        rw [RTy.img_union, asSome_union, held_map] at hb
        obtain ⟨t, ht, rfl⟩ := Option.map_eq_some_iff.mp hb
        obtain ⟨-, v, hv⟩ := held_mem ht
        exact next t (wraps_held (h.variants _ hq) ht) (h.parts _ _ hq (List.mem_map.mpr ⟨_, mem_byTag.mp hv, rfl⟩))
      | record lib name isTuple fs =>
        cases fs with
        | nil => rw [RTy.img_empty] at hb; cases hb
        | cons f fs =>
          cases isTuple with
          | false => rw [RTy.img_struct rfl] at hb; cases hb
          | true => rw [RTy.img_tuple rfl] at hb; cases hb
      | rstring => rw [RTy.img_rstring] at hb; cases hb
      | unicode => rw [RTy.img_unicode] at hb; cases hb
      | list => rw [RTy.img_list] at hb; cases hb
      | set => rw [RTy.img_set] at hb; cases hb
      | map => rw [RTy.img_map] at hb; cases hb
      | array => rw [RTy.img_array] at hb; cases hb
      | enum => rw [RTy.img_enum] at hb; cases hb
      | prim => simp [RTy.img, RTy.sem, RTy.tyWith, Ty.mapRefs, Ty.asSome] at hb

theorem Entry.tail_or {q : RTy} {id : SemId} {t : Ty SemId} (h : q.Entry H id t) :
    (id = q.semId H ∧ t = q.img H) ∨ (∃ sz, q = .unicode sz ∧ id = SemId.unicodeChar H ∧ t = .unicodeChar) ∨
      ∃ c c1 sz, q = .rstring c c1 sz ∧ id = tailId H c sz ∧ t = .list (c.semId H) ⟨sz.min - 1, sz.max - 1⟩ := by
  cases h with
  | self => exact .inl ⟨rfl, rfl⟩
  | char sz => exact .inr (.inl ⟨sz, rfl, rfl, rfl⟩)
  | tail c c1 sz => exact .inr (.inr ⟨c, c1, sz, rfl, rfl, rfl⟩)

theorem Draws.all_levels (h : Draws H debug S D) {N : Nat} (hN : ∀ q, D q → q.height < N) (id : SemId) :
    StepsLe (Refers S) (N + 2) id := by
  rintro b ⟨t, ht, hb⟩
  obtain ⟨q, hq, he⟩ := h.only id t ht
  have hl := hN q hq
  have : StepsLe (Refers S) (N + 2) id := by
    rcases Entry.tail_or he with ⟨rfl, -⟩ | ⟨sz, rfl, rfl, -⟩ | ⟨c, c1, sz, rfl, rfl, -⟩
    · exact (h.levels _ q (Nat.le_refl _) hq).mono (by omega)
    · exact (h.char_levels hq).mono (by omega)
    · have hc : c ∈ (RTy.rstring c c1 sz).parts := by simp [RTy.parts]
      have := height_part hc
      have h2 := h.levels _ c (Nat.le_refl _) (h.parts _ c hq hc)
      have h3 : StepsLe (Refers S) (c.height + 2) (tailId H c sz) := by
        rintro b ⟨t, ht, hb⟩
        rw [h.tail hq] at ht
        cases ht
        simp only [Ty.refs, List.mem_singleton] at hb
        subst hb
        exact h2
      exact h3.mono (by omega)
  exact this b ⟨t, ht, hb⟩

/-- Every type of the system has an outline. -/
theorem Draws.outlined (h : Draws H debug S D) (hcl : S.types.Closed)
    (hrefs : ∀ id t, S.types.get id = some t → debug = true → t.refs.length < 255) :
    ∃ rank wraps, S.Outlined debug rank wraps := by
  obtain ⟨N, hN⟩ : ∃ N, N = 2 ^ 32 - 4 := ⟨_, rfl⟩
  obtain ⟨M, hM⟩ : ∃ M, M = 253 := ⟨_, rfl⟩
  have hN' : ∀ q, D q → q.height < N := fun q hq => hN ▸ (h.ok q hq).levels
  have h2 : ∀ id, StepsLe (Wraps S) (M + 1) id := by
    rintro id b ⟨t, ht, hb⟩
    obtain ⟨q, hq, he⟩ := h.only id t ht
    have hl := (h.ok q hq).wrappers
    rcases Entry.tail_or he with ⟨rfl, -⟩ | ⟨sz, rfl, rfl, rfl⟩ | ⟨c, c1, sz, rfl, rfl, rfl⟩
    · exact (h.layers _ q (Nat.le_refl _) hq).mono (show q.wraps + 1 ≤ M + 1 by omega) b ⟨t, ht, hb⟩
    · rcases hb with hb | hb <;> cases hb
    · rcases hb with hb | hb <;> cases hb
  obtain ⟨rank, r1, r2⟩ := StepsLe.rank (h.all_levels hN')
  obtain ⟨wraps, w1, w2⟩ := StepsLe.rank h2
  refine ⟨rank, wraps, hcl, fun id t ht => ⟨?_, hrefs id t ht⟩, fun id t ht r hr => r1 _ _ ⟨t, ht, hr⟩,
    fun id => by have := r2 id; omega, fun id t ht r hr => w1 _ _ ⟨t, ht, hr⟩, fun id => by have := w2 id; omega, ?_⟩
  · obtain ⟨q, hq, he⟩ := h.only id t ht
    rcases Entry.tail_or he with ⟨-, rfl⟩ | ⟨sz, -, -, rfl⟩ | ⟨c, c1, sz, -, -, rfl⟩
    · obtain ⟨own, known, hn⟩ := h.node q hq
      exact Ty.wf_mapRefs _ (RTy.tyWith_wf (h.variants q hq) hn)
    · trivial
    · trivial
  · intro hd id r sz ht
    obtain ⟨q, hq, he⟩ := h.only id _ ht
    rcases Entry.tail_or he with ⟨-, e⟩ | ⟨sz, -, -, e⟩ | ⟨c, c1, sz', rfl, -, e⟩
    · rcases RTy.img_list_inv e.symm with ⟨rfl, -⟩ | ⟨t, rfl, -⟩
      · exact (h.ok _ hq).bounds hd sz (.inl rfl)
      · exact (h.ok _ hq).bounds hd sz (.inr ⟨t, rfl⟩)
    · cases e
    · cases e
      obtain ⟨own, known, -, hn⟩ := h.node _ hq
      obtain ⟨n1, n2⟩ := hn hd
      have key : ∀ x : BitVec 64, x ≠ 0 → (x - 1).toNat < 2 ^ 64 - 1 := by
        intro x hx
        have : x.toNat ≠ 0 := fun e => hx (BitVec.eq_of_toNat_eq (by simpa using e))
        have := x.isLt
        rw [BitVec.toNat_sub]
        simp
        omega
      exact ⟨key _ n1, key _ n2⟩

/-! ### Trees without optional types, and the size of trees -/

theorem optionFree_part {q p : RTy} (h : q.optionFree = true) (hp : p ∈ q.parts) : p.optionFree = true := by
  have hfs : ∀ fs : List (Option Name × RTy), RTy.optionFreeFields fs = true → ∀ f ∈ fs, f.2.optionFree = true := by
    intro fs
    induction fs with
    | nil => simp
    | cons f fs ih =>
      obtain ⟨n, t⟩ := f
      simp only [RTy.optionFreeFields, RTy.optionFreeField, Bool.and_eq_true, List.forall_mem_cons]
      exact fun h => ⟨h.1, ih h.2⟩
  have hvs : ∀ vs : List (Variant × RTy), RTy.optionFreeVariants vs = true → ∀ v ∈ vs, v.2.optionFree = true := by
    intro vs
    induction vs with
    | nil => simp
    | cons f fs ih =>
      obtain ⟨n, t⟩ := f
      simp only [RTy.optionFreeVariants, RTy.optionFreeVariant, Bool.and_eq_true, List.forall_mem_cons]
      exact fun h => ⟨h.1, ih h.2⟩
  cases q with
  | prim | unicode | enum => simp [RTy.parts] at hp
  | rstring c c1 sz =>
    simp only [RTy.optionFree, Bool.and_eq_true] at h
    simp only [RTy.parts, List.mem_cons, List.not_mem_nil, or_false] at hp
    rcases hp with rfl | rfl
    · exact h.2
    · exact h.1
  | array | list | set =>
    simp only [RTy.parts, List.mem_singleton] at hp
    subst hp; simpa only [RTy.optionFree] using h
  | map k t sz =>
    simp only [RTy.optionFree, Bool.and_eq_true] at h
    simp only [RTy.parts, List.mem_cons, List.not_mem_nil, or_false] at hp
    rcases hp with rfl | rfl
    · exact h.1
    · exact h.2
  | record lib name b fs =>
    simp only [RTy.optionFree] at h
    obtain ⟨f, hf, rfl⟩ := List.mem_map.mp hp
    exact hfs fs h f hf
  | union lib name vs w =>
    simp only [RTy.optionFree, Bool.and_eq_true] at h
    obtain ⟨f, hf, rfl⟩ := List.mem_map.mp hp
    exact hvs vs h.2 f hf

theorem optionFree_img {q : RTy} (h : q.optionFree = true) : (q.img H).asSome = none := by
  cases q with
  | union lib name vs w =>
    simp only [RTy.optionFree, Bool.and_eq_true, Option.isNone_iff_eq_none] at h
    rw [RTy.img_union, asSome_union, held_map, h.1]; rfl
  | record lib name isTuple fs =>
    cases fs with
    | nil => rw [RTy.img_empty]; rfl
    | cons f fs =>
      cases isTuple with
      | false => rw [RTy.img_struct rfl]; rfl
      | true => rw [RTy.img_tuple rfl]; rfl
  | rstring => rw [RTy.img_rstring]; rfl
  | unicode => rw [RTy.img_unicode]; rfl
  | list => rw [RTy.img_list]; rfl
  | set => rw [RTy.img_set]; rfl
  | map => rw [RTy.img_map]; rfl
  | array => rw [RTy.img_array]; rfl
  | enum => rw [RTy.img_enum]; rfl
  | prim => rfl

theorem Draws.optionFree (h : Draws H debug S D) {q : RTy} (hq : D q) (ho : q.optionFree = true) :
    S.OptionFree (q.semId H) := by
  have key : ∀ r, Reach S.types (· = q.semId H) r → ∃ p t, D p ∧ p.optionFree = true ∧ p.Entry H r t := by
    intro r hr
    induction hr with
    | root e => exact ⟨q, q.img H, hq, ho, by rw [e]; exact .self q⟩
    | @step id r t _ ht hr ih =>
      obtain ⟨p, t', hp, hpo, he⟩ := ih
      have := h.get p _ _ hp he
      rw [ht] at this
      cases this
      rcases Entry.tail_or he with ⟨rfl, rfl⟩ | ⟨sz, -, -, rfl⟩ | ⟨c, c1, sz, rfl, -, rfl⟩
      · rcases img_refs hr with ⟨p', hp', rfl⟩ | ⟨sz, rfl, rfl⟩ | ⟨c, c1, sz, rfl, rfl⟩
        · exact ⟨p', _, h.parts _ _ hp hp', optionFree_part hpo hp', .self p'⟩
        · exact ⟨_, _, hp, hpo, .char sz⟩
        · exact ⟨_, _, hp, hpo, .tail c c1 sz⟩
      · simp [Ty.refs] at hr
      · simp only [Ty.refs, List.mem_singleton] at hr
        subst hr
        have hc : c ∈ (RTy.rstring c c1 sz).parts := by simp [RTy.parts]
        exact ⟨c, _, h.parts _ _ hp hc, optionFree_part hpo hc, .self c⟩
  intro r t hr ht
  obtain ⟨p, t', hp, hpo, he⟩ := key r hr
  have := h.get p _ _ hp he
  rw [ht] at this
  cases this
  rcases Entry.tail_or he with ⟨rfl, rfl⟩ | ⟨sz, -, -, rfl⟩ | ⟨c, c1, sz, rfl, -, rfl⟩
  · exact optionFree_img hpo
  · rfl
  · rfl

theorem itemsOf_append (l m : List LTree) : LTree.itemsOf (l ++ m) = LTree.itemsOf l ++ LTree.itemsOf m := by
  induction l with
  | nil => rfl
  | cons a l ih => simp [LTree.itemsOf, ih]

theorem itemsOf_mem {l : List LTree} {i : TypeInfo} (h : i ∈ LTree.itemsOf l) : ∃ T ∈ l, i ∈ T.items := by
  induction l with
  | nil => simp [LTree.itemsOf] at h
  | cons a l ih =>
    simp only [LTree.itemsOf, List.mem_append] at h
    rcases h with h | h
    · exact ⟨a, by simp, h⟩
    · obtain ⟨T, hT, hi⟩ := ih h
      exact ⟨T, by simp [hT], hi⟩

theorem filter_split {α : Type} {p q r : α → Bool} (h1 : ∀ a, r a = (p a || q a)) (h2 : ∀ a, p a = true → q a = false)
    (l : List α) : (l.filter r).Perm (l.filter p ++ l.filter q) := by
  induction l with
  | nil => simp
  | cons a l ih =>
    have h := h1 a
    cases hp : p a with
    | true =>
      rw [hp, Bool.true_or] at h
      rw [List.filter_cons_of_pos h, List.filter_cons_of_pos hp, List.filter_cons_of_neg (by simp [h2 a hp])]
      exact ih.cons a
    | false =>
      rw [hp, Bool.false_or] at h
      cases hq : q a with
      | true =>
        rw [List.filter_cons_of_pos (by rw [h, hq]), List.filter_cons_of_neg (by simp [hp]), List.filter_cons_of_pos hq]
        exact (ih.cons a).trans List.perm_middle.symm
      | false =>
        rw [List.filter_cons_of_neg (by simp [h, hq]), List.filter_cons_of_neg (by simp [hp]),
          List.filter_cons_of_neg (by simp [hq])]
        exact ih

theorem byTag_perm {α : Type} (tag : α → Byte) (l : List α) : (byTag tag l).Perm l := by
  have key : ∀ n, ((List.range n).flatMap fun k => l.filter fun x => (tag x).toNat = k).Perm
      (l.filter fun x => (tag x).toNat < n) := by
    intro n
    induction n with
    | zero => simp
    | succ n ih =>
      rw [List.range_succ, List.flatMap_append]
      refine (ih.append (by simp : ([n].flatMap fun k => l.filter fun x => (tag x).toNat = k).Perm
        (l.filter fun x => (tag x).toNat = n))).trans (filter_split (fun a => ?_) (fun a h => ?_) l).symm
      · rw [Bool.eq_iff_iff]; simp; omega
      · simp at h ⊢; omega
  refine (key 256).trans ?_
  rw [List.filter_eq_self.mpr]
  intro a _
  have := (tag a).isLt
  simpa using this

theorem sum_filterMap_le {α β : Type} (g : α → Option β) (f : β → Nat) (f' : α → Nat)
    (h : ∀ a b, g a = some b → f b ≤ f' a) (l : List α) : ((l.filterMap g).map f).sum ≤ (l.map f').sum := by
  induction l with
  | nil => simp
  | cons a l ih =>
    cases hg : g a with
    | none => rw [List.filterMap_cons_none hg]; simp; omega
    | some b =>
      rw [List.filterMap_cons_some hg]
      have := h a b hg
      simp; omega

/-- What is drawn directly below: parts of the Rust type. -/
theorem draw_cases (q : RTy) (d : Nat) (item : Option Ty.ItemCase) (nested : List NestedCase) :
    (∃ p ∈ q.parts, ∃ d' item' w, q.draw H d item nested = p.draw H d' item' (nested ++ [w]) ∧
      (q.DistinctVariants → p.wraps < q.wraps)) ∨
    ∃ (nested' : List NestedCase) (ps : List (RTy × Nat × Option Ty.ItemCase)),
      q.draw H d item nested = .node (q.info H d item nested') (ps.map fun p => p.1.draw H p.2.1 p.2.2 []) ∧
      nested'.length ≤ nested.length + 1 ∧ (∀ p ∈ ps, p.1 ∈ q.parts) ∧
      ∀ f : RTy → Nat, (ps.map fun p => f p.1).sum ≤ (q.parts.map f).sum := by
  cases q with
  | prim => exact .inr ⟨_, [], rfl, by simp, by simp, by simp⟩
  | unicode => exact .inr ⟨_, [], rfl, by simp, by simp, by simp⟩
  | rstring => exact .inr ⟨_, [], rfl, by simp, by simp, by simp⟩
  | enum => exact .inr ⟨_, [], rfl, by simp, by simp, by simp⟩
  | array t len =>
    simp only [RTy.draw]
    split
    · exact .inr ⟨_, [], rfl, by simp, by simp, by simp⟩
    · exact .inr ⟨_, [(t, _, _)], rfl, by simp, by simp [RTy.parts], by simp [RTy.parts]⟩
  | list t len =>
    simp only [RTy.draw]
    split
    · exact .inr ⟨_, [], rfl, by simp, by simp, by simp⟩
    · split
      · exact .inr ⟨_, [], rfl, by simp, by simp, by simp⟩
      · exact .inr ⟨_, [(t, _, _)], rfl, by simp, by simp [RTy.parts], by simp [RTy.parts]⟩
  | set t sz => exact .inr ⟨_, [(t, _, _)], rfl, by simp, by simp [RTy.parts], by simp [RTy.parts]⟩
  | map k t sz => exact .inr ⟨_, [(k, _, _), (t, _, _)], rfl, by simp, by simp [RTy.parts], by simp [RTy.parts]⟩
  | record lib name isTuple fs =>
    cases isTuple with
    | true =>
      simp only [RTy.draw]
      match fs with
      | [] => exact .inr ⟨_, [], rfl, by simp, by simp, by simp⟩
      | [f] =>
        have e : RTy.drawFields H [f] = [(f.1, f.2.draw H)] := by rw [drawFields_eq]; rfl
        rw [e]
        exact .inl ⟨f.2, by simp [RTy.parts], _, _, _, rfl, fun _ => wraps_field⟩
      | f :: g :: fs =>
        have e2 : RTy.drawFields H (f :: g :: fs) = (f.1, f.2.draw H) :: (g.1, g.2.draw H) :: RTy.drawFields H fs := by
          obtain ⟨_, _⟩ := f; obtain ⟨_, _⟩ := g; rfl
        rw [e2]
        refine .inr ⟨nested, (f :: g :: fs).map fun f => (f.2, d + 1, none), ?_, by simp, ?_, ?_⟩
        · dsimp only
          rw [← e2, drawFields_eq, List.map_map, List.map_map]
          rfl
        · simp only [List.mem_map]
          rintro p ⟨a, ha, rfl⟩
          exact List.mem_map.mpr ⟨a, ha, rfl⟩
        · intro F
          rw [RTy.parts, List.map_map, List.map_map]
          exact Nat.le_refl _
    | false =>
      simp only [RTy.draw]
      have e2 : (fs.map fun f => (f.1, RTy.draw H f.2)).filterMap (fun f => f.1.map fun n => (n, f.2)) =
          (fs.filterMap fun f => f.1.map fun n => (n, f.2)).map fun p => (p.1, RTy.draw H p.2) := by
        rw [List.map_filterMap, List.filterMap_map]; congr 1; funext a; simp [Option.map_map, Function.comp_def]
      rw [drawFields_eq, e2, numbered_map, List.map_map]
      refine .inr ⟨nested, (numbered 0 (fs.filterMap fun f => f.1.map fun n => (n, f.2))).map fun f =>
        (f.2.2, d + 1, some (.namedField (BitVec.ofNat 8 f.1) f.2.1)), ?_, by simp, ?_, ?_⟩
      · rw [List.map_map]; rfl
      · simp only [List.mem_map]
        rintro p ⟨a, ha, rfl⟩
        obtain ⟨b, hb, hb2⟩ := List.mem_filterMap.mp (numbered_mem ha)
        obtain ⟨m, -, hm⟩ := Option.map_eq_some_iff.mp hb2
        rw [← hm]
        exact List.mem_map.mpr ⟨b, hb, rfl⟩
      · intro F
        rw [RTy.parts, List.map_map, List.map_map]
        have e : (numbered 0 (fs.filterMap fun f => f.1.map fun n => (n, f.2))).map (fun f => F f.2.2) =
            (fs.filterMap fun f => f.1.map fun n => (n, f.2)).map fun f => F f.2 := by
          conv => rhs; rw [← numbered_map_snd (fs.filterMap fun f => f.1.map fun n => (n, f.2)) 0, List.map_map]
          rfl
        refine Nat.le_trans (Nat.le_of_eq (congrArg List.sum e)) (sum_filterMap_le _ _ _ ?_ fs)
        intro a b hb
        obtain ⟨m, -, rfl⟩ := Option.map_eq_some_iff.mp hb
        exact Nat.le_refl _
  | union lib name vs w =>
    simp only [RTy.draw]
    have e2 : held? (byTag (fun v => v.1.tag) (RTy.drawVariants H vs)) =
        (held? (byTag (fun v => v.1.tag) vs)).map (RTy.draw H) := by
      rw [variants_byTag]; exact held_map _ _
    rw [e2]
    cases hh : held? (byTag (fun v => v.1.tag) vs) with
    | some t =>
      obtain ⟨-, v, hv⟩ := held_mem hh
      rw [mem_byTag] at hv
      exact .inl ⟨t, List.mem_map.mpr ⟨_, hv, rfl⟩, _, _, _, rfl, fun hd => wraps_held hd hh⟩
    | none =>
      simp only [Option.map_none]
      rw [variants_byTag, numbered_map, List.map_map]
      refine .inr ⟨nested, (numbered 0 (byTag (fun v => v.1.tag) vs)).map fun v =>
        (v.2.2, d + 1, some (.unionVariant (BitVec.ofNat 8 v.1) v.2.1.name)), ?_, by simp, ?_, ?_⟩
      · rw [List.map_map]; rfl
      · simp only [List.mem_map]
        rintro p ⟨a, ha, rfl⟩
        exact List.mem_map.mpr ⟨a.2, mem_byTag.mp (numbered_mem ha), rfl⟩
      · intro F
        rw [RTy.parts, List.map_map, List.map_map]
        have e : (numbered 0 (byTag (fun v => v.1.tag) vs)).map (fun f => F f.2.2) =
            (byTag (fun v => v.1.tag) vs).map fun f => F f.2 := by
          conv => rhs; rw [← numbered_map_snd (byTag (fun v => v.1.tag) vs) 0, List.map_map]
          rfl
        exact Nat.le_of_eq ((congrArg List.sum e).trans ((byTag_perm _ vs).map _).sum_nat)

theorem img_enumSize {q : RTy} (hd : q.DistinctVariants) : (q.img H).enumSize ≤ q.values := by
  cases q with
  | enum lib name vs => rw [RTy.img_enum]; simp only [Ty.enumSize, RTy.values]; rw [byTag_length hd.1]; exact Nat.le_refl _
  | union => rw [RTy.img_union]; simp [Ty.enumSize]
  | record lib name isTuple fs =>
    cases fs with
    | nil => rw [RTy.img_empty]; simp [Ty.enumSize]
    | cons f fs =>
      cases isTuple with
      | false => rw [RTy.img_struct rfl]; simp [Ty.enumSize]
      | true => rw [RTy.img_tuple rfl]; simp [Ty.enumSize]
  | rstring => rw [RTy.img_rstring]; simp [Ty.enumSize]
  | unicode => rw [RTy.img_unicode]; simp [Ty.enumSize]
  | list => rw [RTy.img_list]; simp [Ty.enumSize]
  | set => rw [RTy.img_set]; simp [Ty.enumSize]
  | map => rw [RTy.img_map]; simp [Ty.enumSize]
  | array => rw [RTy.img_array]; simp [Ty.enumSize]
  | prim => simp [RTy.img, RTy.sem, RTy.tyWith, Ty.mapRefs, Ty.enumSize]

/-- The labels of the items fit if enumerations are small and wrappers are few. -/
theorem draw_labelled {E W m : Nat} (hm : E + 3 * (W + 1) + 3 ≤ m) : ∀ (n : Nat) (q : RTy) (d : Nat)
    (item : Option Ty.ItemCase) (nested : List NestedCase), sizeOf q ≤ n →
    (∀ p, q.Contains p → p.DistinctVariants ∧ p.values ≤ E ∧ p.wraps ≤ W) → nested.length + q.wraps ≤ W →
    ∀ i ∈ (q.draw H d item nested).items, i.Labelled m := by
  intro n
  induction n with
  | zero => intro q; cases q <;> simp
  | succ n ih =>
    intro q d item nested hn hq hw i hi
    have hpart : ∀ p ∈ q.parts, sizeOf p ≤ n ∧ ∀ p', p.Contains p' → p'.DistinctVariants ∧ p'.values ≤ E ∧ p'.wraps ≤ W :=
      fun p hp => ⟨by have := sizeOf_part hp; omega, fun p' hp' => hq p' (.step hp hp')⟩
    obtain ⟨hd, hv, hwq⟩ := hq q (.refl q)
    rcases draw_cases (H := H) q d item nested with ⟨p, hp, d', item', w, e, hlt⟩ | ⟨nested', ps, e, hl, hps, -⟩
    · rw [e] at hi
      refine ih p d' item' _ (hpart p hp).1 (hpart p hp).2 ?_ i hi
      have := hlt hd
      simp; omega
    · rw [e, LTree.items, List.mem_cons] at hi
      rcases hi with rfl | hi
      · have := img_enumSize (H := H) hd
        show (q.img H).enumSize + 3 * nested'.length + 3 ≤ m
        omega
      · obtain ⟨T, hT, hi⟩ := itemsOf_mem hi
        obtain ⟨p, hp, rfl⟩ := List.mem_map.mp hT
        have := (hq p.1 (.step (hps p hp) (.refl _))).2.2
        exact ih p.1 _ _ [] (hpart _ (hps p hp)).1 (hpart _ (hps p hp)).2 (by simpa using this) i hi

theorem mentions_parts (q : RTy) (h : ∀ c c1 sz, q ≠ .rstring c c1 sz) :
    q.mentions = (q.parts.map RTy.mentions).sum + 1 := by
  have hfs : ∀ fs : List (Option Name × RTy), RTy.mentionsFields fs = ((fs.map Prod.snd).map RTy.mentions).sum := by
    intro fs
    induction fs with
    | nil => rfl
    | cons f fs ih => obtain ⟨n, t⟩ := f; simp [RTy.mentionsFields, RTy.mentionsField, ih]
  have hvs : ∀ vs : List (Variant × RTy), RTy.mentionsVariants vs = ((vs.map Prod.snd).map RTy.mentions).sum := by
    intro fs
    induction fs with
    | nil => rfl
    | cons f fs ih => obtain ⟨n, t⟩ := f; simp [RTy.mentionsVariants, RTy.mentionsVariant, ih]
  cases q with
  | rstring => exact absurd rfl (h _ _ _)
  | record lib name b fs => simp only [RTy.mentions, RTy.parts, hfs]
  | union lib name vs w => simp only [RTy.mentions, RTy.parts, hvs]
  | _ => simp [RTy.mentions, RTy.parts] <;> omega

/-- There are no more items than Rust types mentioned. -/
theorem draw_length : ∀ (n : Nat) (q : RTy) (d : Nat) (item : Option Ty.ItemCase) (nested : List NestedCase),
    sizeOf q ≤ n → (q.draw H d item nested).items.length ≤ q.mentions := by
  intro n
  induction n with
  | zero => intro q; cases q <;> simp
  | succ n ih =>
    intro q d item nested hn
    by_cases hr : ∃ c c1 sz, q = .rstring c c1 sz
    · obtain ⟨c, c1, sz, rfl⟩ := hr
      simp [RTy.draw, LTree.items, LTree.itemsOf, RTy.mentions]
    rw [mentions_parts q fun c c1 sz e => hr ⟨c, c1, sz, e⟩]
    rcases draw_cases (H := H) q d item nested with ⟨p, hp, d', item', w, e, -⟩ | ⟨nested', ps, e, -, hps, hsum⟩
    · rw [e]
      have h1 := ih p d' item' (nested ++ [w]) (by have := sizeOf_part hp; omega)
      have h2 : ∀ l : List RTy, p ∈ l → p.mentions ≤ (l.map RTy.mentions).sum := by
        intro l
        induction l with
        | nil => simp
        | cons a l ih =>
          intro h
          rcases List.mem_cons.mp h with rfl | h
          · simp
          · have := ih h; simp; omega
      have := h2 _ hp
      omega
    · rw [e, LTree.items, List.length_cons]
      have h1 : ∀ l : List (RTy × Nat × Option Ty.ItemCase), (∀ p ∈ l, p.1 ∈ q.parts) →
          (LTree.itemsOf (l.map fun p => p.1.draw H p.2.1 p.2.2 [])).length ≤ (l.map fun p => p.1.mentions).sum := by
        intro l
        induction l with
        | nil => simp [LTree.itemsOf]
        | cons a l ihl =>
          intro h
          have h1 := ihl fun p hp => h p (by simp [hp])
          have h2 := ih a.1 a.2.1 a.2.2 [] (by have := sizeOf_part (h a (by simp)); omega)
          simp only [List.map_cons, LTree.itemsOf, List.length_append, List.sum_cons]
          omega
      have := h1 ps hps
      have := hsum RTy.mentions
      omega

end Verif
