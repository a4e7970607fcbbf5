import Verif.Spec.Ast
import Verif.Lemmas.Basic

/-!
# Lemmas on the accessors of the type syntax
-/

namespace Verif
variable {α β σ ε : Type}

theorem numbered_getElem? (l : List α) (k i : Nat) :
    (numbered k l)[i]? = (l[i]?).map fun a => (k + i, a) := by
  induction l generalizing k i with
  | nil => simp [numbered]
  | cons a l ih =>
    cases i with
    | zero => simp [numbered]
    | succ i => simp only [numbered, List.getElem?_cons_succ, ih]; congr; funext; simp; omega

theorem numbered_map_snd (l : List α) (k : Nat) : (numbered k l).map Prod.snd = l := by
  induction l generalizing k with
  | nil => rfl
  | cons a l ih => simp [numbered, ih]

theorem Ty.items_map_fst (t : Ty α) : t.items.map Prod.fst = t.refs := by
  cases t with
  | union vs =>
    simp only [items, refs, List.map_map]
    rw [← numbered_map_snd vs 0, List.map_map, numbered_map_snd]; rfl
  | struct vs =>
    simp only [items, refs, List.map_map]
    rw [← numbered_map_snd vs 0, List.map_map, numbered_map_snd]; rfl
  | tuple vs =>
    simp only [items, refs, List.map_map]
    conv => rhs; rw [← numbered_map_snd vs 0]
    rfl
  | _ => rfl

theorem Byte.eq_of_toNat {a : Byte} {n : Nat} (h : a.toNat = n) : a = BitVec.ofNat 8 n := by
  apply BitVec.eq_of_toNat_eq; simp only [BitVec.toNat_ofNat]; have := a.isLt; omega

theorem Ty.tyAt_eq (t : Ty α) (pos : Byte) : t.tyAt pos = t.refs[pos.toNat]? := by
  have key : pos.toNat = 0 ↔ pos = 0 :=
    ⟨fun h => Byte.eq_of_toNat h, fun h => by simp [h]⟩
  have key1 : pos.toNat = 1 ↔ pos = 1 :=
    ⟨fun h => Byte.eq_of_toNat h, fun h => by simp [h]⟩
  cases t <;> simp only [tyAt, refs, List.getElem?_nil]
  case map =>
    rcases hn : pos.toNat with _ | _ | n
    · simp [key.1 hn]
    · simp [key1.1 hn]
    · have h0 : pos ≠ 0 := fun h => by rw [key.2 h] at hn; simp at hn
      have h1 : pos ≠ 1 := fun h => by rw [key1.2 h] at hn; simp at hn
      rw [if_neg h0, if_neg h1]; rfl
  all_goals
    rcases hn : pos.toNat with _ | n
    · simp [key.1 hn]
    · have h0 : pos ≠ 0 := fun h => by rw [key.2 h] at hn; simp at hn
      rw [if_neg h0]; rfl

theorem Ty.caseAt_eq (t : Ty α) (pos : Byte) (ht : ∀ fs, t ≠ .tuple fs) :
    t.caseAt pos = (t.items.map Prod.snd)[pos.toNat]? := by
  have key : pos.toNat = 0 ↔ pos = 0 :=
    ⟨fun h => Byte.eq_of_toNat h, fun h => by simp [h]⟩
  have key1 : pos.toNat = 1 ↔ pos = 1 :=
    ⟨fun h => Byte.eq_of_toNat h, fun h => by simp [h]⟩
  have hp : BitVec.ofNat 8 pos.toNat = pos := (Byte.eq_of_toNat rfl).symm
  cases t <;> simp only [caseAt, items, List.map_nil, List.getElem?_nil]
  case union vs => simp [List.getElem?_map, numbered_getElem?, Function.comp_def]
  case struct vs => simp [List.getElem?_map, numbered_getElem?, Function.comp_def]
  case tuple => exact absurd rfl (ht _)
  case map =>
    rcases hn : pos.toNat with _ | _ | n
    · simp [key.1 hn]
    · simp [key1.1 hn]
    · have h0 : pos ≠ 0 := fun h => by rw [key.2 h] at hn; simp at hn
      have h1 : pos ≠ 1 := fun h => by rw [key1.2 h] at hn; simp at hn
      rw [if_neg h0, if_neg h1]; rfl
  all_goals
    rcases hn : pos.toNat with _ | n
    · simp [key.1 hn]
    · have h0 : pos ≠ 0 := fun h => by rw [key.2 h] at hn; simp at hn
      rw [if_neg h0]; rfl

theorem Ty.refs_length_le {t : Ty α} (h : t.WF) : t.refs.length ≤ 255 := by
  cases t <;> simp_all [Ty.WF, refs, VariantsWF]

/-- A `for` loop over a position counter that reads a list element by element collects the list. -/
theorem collectIter_list {γ : Type} (next : Ty.IterState α → Out Unit (Option γ × Ty.IterState α))
    (t : Ty α) (l : List γ) (debug : Bool)
    (hnext : ∀ pos, next ⟨t, pos⟩ = (Ty.incPos debug pos >>= fun p => pure (l[pos.toNat]?, ⟨t, p⟩)))
    (hl : l.length ≤ 255) (hd : debug = true → l.length < 255)
    (k : Nat) (hk : k ≤ l.length) (fuel : Nat) (hf : l.length - k < fuel) :
    Ty.collectIter next fuel ⟨t, BitVec.ofNat 8 k⟩ = .ok (l.drop k) := by
  induction fuel generalizing k with
  | zero => omega
  | succ fuel ih =>
    have hk' : (BitVec.ofNat 8 k).toNat = k := by simp; omega
    have hinc : Ty.incPos debug (BitVec.ofNat 8 k) = .ok (BitVec.ofNat 8 (k + 1)) := by
      have h1 : BitVec.ofNat 8 k + 1 = BitVec.ofNat 8 (k + 1) := by
        apply BitVec.eq_of_toNat_eq; simp
      unfold Ty.incPos
      rw [h1, if_neg]
      intro h
      simp only [Bool.and_eq_true, beq_iff_eq] at h
      have h2 := congrArg BitVec.toNat h.2
      have h3 : (255 : Byte).toNat = 255 := rfl
      rw [hk', h3] at h2
      have := hd h.1
      omega
    unfold Ty.collectIter
    rw [hnext, hk', hinc]
    rcases Nat.lt_or_ge k l.length with h | h
    · rw [List.getElem?_eq_getElem h]
      simp only [Out.bind_ok, Out.pure_eq]
      rw [ih (k + 1) (by omega) (by omega)]
      simp
    · have : l.drop k = [] := List.drop_eq_nil_of_le h
      simp [List.getElem?_eq_none h, this]

/-! ### Variant lookups -/

theorem find_unique {l : List α} {p : α → Bool} {a : α} (ha : a ∈ l) (hp : p a = true)
    (hu : ∀ b ∈ l, p b = true → b = a) : l.find? p = some a := by
  cases h : l.find? p with
  | none => exact absurd hp (by simpa using List.find?_eq_none.mp h a ha)
  | some b => rw [hu b (List.mem_of_find?_eq_some h) (List.find?_some h)]

theorem VariantsWF.tag_inj {vs : List Variant} (h : VariantsWF vs) {a b : Variant}
    (ha : a ∈ vs) (hb : b ∈ vs) (e : a.tag = b.tag) : a = b := by
  obtain ⟨-, -, hp, -⟩ := h
  induction vs with
  | nil => cases ha
  | cons c vs ih =>
    obtain ⟨h1, h2⟩ := List.pairwise_cons.mp hp
    simp only [List.mem_cons] at ha hb
    rcases ha with rfl | ha <;> rcases hb with rfl | hb
    · rfl
    · have := h1 b hb; rw [e] at this; omega
    · have := h1 a ha; rw [e] at this; omega
    · exact ih ha hb h2

theorem VariantsWF.name_inj {vs : List Variant} (h : VariantsWF vs) {a b : Variant}
    (ha : a ∈ vs) (hb : b ∈ vs) (e : a.name = b.name) : a = b := by
  obtain ⟨-, -, -, hp⟩ := h
  induction vs with
  | nil => cases ha
  | cons c vs ih =>
    obtain ⟨h1, h2⟩ := List.pairwise_cons.mp hp
    simp only [List.mem_cons] at ha hb
    rcases ha with rfl | ha <;> rcases hb with rfl | hb
    · rfl
    · exact absurd e (h1 b hb)
    · exact absurd e.symm (h1 a ha)
    · exact ih ha hb h2

theorem VariantsWF.find_tag {vs : List Variant} (h : VariantsWF vs) (v : Variant) :
    vs.find? (fun w => w.tag == v.tag) = some v ↔ v ∈ vs := by
  constructor
  · exact List.mem_of_find?_eq_some
  · intro hv
    exact find_unique hv (by simp) fun b hb e => h.tag_inj hb hv (by simpa using e)

theorem VariantsWF.find_name {vs : List Variant} (h : VariantsWF vs) (v : Variant) :
    vs.find? (fun w => w.name == v.name) = some v ↔ v ∈ vs := by
  constructor
  · exact List.mem_of_find?_eq_some
  · intro hv
    exact find_unique hv (by simp) fun b hb e => h.name_inj hb hv (by simpa using e)

theorem enumTagByName_iff {vs : List Variant} (h : VariantsWF vs) (n : Name) (t : Byte) :
    Ty.enumTagByName vs n = some t ↔ ⟨n, t⟩ ∈ vs := by
  rw [← h.find_name]
  simp only [Ty.enumTagByName, Option.map_eq_some_iff]
  constructor
  · rintro ⟨⟨n', t'⟩, h1, rfl⟩
    have := List.find?_some h1
    simp only [beq_iff_eq] at this
    subst this
    exact h1
  · intro h1; exact ⟨_, h1, rfl⟩

theorem enumNameByTag_iff {vs : List Variant} (h : VariantsWF vs) (n : Name) (t : Byte) :
    Ty.enumNameByTag vs t = some n ↔ ⟨n, t⟩ ∈ vs := by
  rw [← h.find_tag]
  simp only [Ty.enumNameByTag, Option.map_eq_some_iff]
  constructor
  · rintro ⟨⟨n', t'⟩, h1, rfl⟩
    have := List.find?_some h1
    simp only [beq_iff_eq] at this
    subst this
    exact h1
  · intro h1; exact ⟨_, h1, rfl⟩

theorem pair_unique {vs : List (Variant × α)} (h : VariantsWF (vs.map Prod.fst))
    {p q : Variant × α} (hp : p ∈ vs) (hq : q ∈ vs) (e : p.1 = q.1) : p = q := by
  obtain ⟨-, -, hs, -⟩ := h
  induction vs with
  | nil => cases hp
  | cons c vs ih =>
    simp only [List.map_cons] at hs
    obtain ⟨h1, h2⟩ := List.pairwise_cons.mp hs
    simp only [List.mem_cons] at hp hq
    rcases hp with rfl | hp <;> rcases hq with rfl | hq
    · rfl
    · have := h1 q.1 (List.mem_map_of_mem hq); rw [e] at this; omega
    · have := h1 p.1 (List.mem_map_of_mem hp); rw [e] at this; omega
    · exact ih hp hq h2

theorem unionByTag_iff {vs : List (Variant × α)} (h : VariantsWF (vs.map Prod.fst))
    (p : Variant × α) (t : Byte) : Ty.unionByTag vs t = some p ↔ p ∈ vs ∧ p.1.tag = t := by
  constructor
  · intro h1
    exact ⟨List.mem_of_find?_eq_some h1, by simpa using List.find?_some h1⟩
  · rintro ⟨h1, rfl⟩
    exact find_unique h1 (by simp) fun b hb e => pair_unique h hb h1
      (h.tag_inj (List.mem_map_of_mem hb) (List.mem_map_of_mem h1) (by simpa using e))

theorem unionByName_iff {vs : List (Variant × α)} (h : VariantsWF (vs.map Prod.fst))
    (p : Variant × α) (n : Name) : Ty.unionByName vs n = some p ↔ p ∈ vs ∧ p.1.name = n := by
  constructor
  · intro h1
    exact ⟨List.mem_of_find?_eq_some h1, by simpa using List.find?_some h1⟩
  · rintro ⟨h1, rfl⟩
    exact find_unique h1 (by simp) fun b hb e => pair_unique h hb h1
      (h.name_inj (List.mem_map_of_mem hb) (List.mem_map_of_mem h1) (by simpa using e))

theorem unionTyByTag_iff {vs : List (Variant × α)} (h : VariantsWF (vs.map Prod.fst))
    (t : Byte) (r : α) : Ty.unionTyByTag vs t = some r ↔ ∃ n, (⟨n, t⟩, r) ∈ vs := by
  show (Ty.unionByTag vs t).map Prod.snd = some r ↔ _
  simp only [Option.map_eq_some_iff, unionByTag_iff h]
  constructor
  · rintro ⟨⟨⟨n, t'⟩, r'⟩, ⟨h1, rfl⟩, rfl⟩; exact ⟨n, h1⟩
  · rintro ⟨n, h1⟩; exact ⟨_, ⟨h1, rfl⟩, rfl⟩

theorem unionTyByName_iff {vs : List (Variant × α)} (h : VariantsWF (vs.map Prod.fst))
    (n : Name) (r : α) : Ty.unionTyByName vs n = some r ↔ ∃ t, (⟨n, t⟩, r) ∈ vs := by
  show (Ty.unionByName vs n).map Prod.snd = some r ↔ _
  simp only [Option.map_eq_some_iff, unionByName_iff h]
  constructor
  · rintro ⟨⟨⟨n, t'⟩, r'⟩, ⟨h1, rfl⟩, rfl⟩; exact ⟨t', h1⟩
  · rintro ⟨n, h1⟩; exact ⟨_, ⟨h1, rfl⟩, rfl⟩

/-! ### Translation -/

theorem traverseList_runs {f : α → σ → Out ε (β × σ)} {l : List α} {s s' : σ} {bs : List β} :
    traverseList f l s = .ok (bs, s') ↔ Runs f l s bs s' := by
  induction l generalizing s bs with
  | nil =>
    simp only [traverseList, Out.ok.injEq, Prod.mk.injEq]
    constructor
    · rintro ⟨rfl, rfl⟩; exact .nil _
    · intro h; cases h; exact ⟨rfl, rfl⟩
  | cons a l ih =>
    simp only [traverseList, Out.bind_eq_ok, Prod.exists]
    constructor
    · rintro ⟨b, s1, h1, bs', s2, h2, h3⟩
      simp only [Out.pure_eq, Out.ok.injEq, Prod.mk.injEq] at h3
      obtain ⟨rfl, rfl⟩ := h3
      exact .cons h1 (ih.mp h2)
    · intro h
      cases h with
      | cons h1 h2 => exact ⟨_, _, h1, _, _, ih.mpr h2, rfl⟩

theorem Runs.length {f : α → σ → Out ε (β × σ)} {l : List α} {s s' : σ} {bs : List β}
    (h : Runs f l s bs s') : bs.length = l.length := by
  induction h with
  | nil => rfl
  | cons _ _ ih => simp [ih]

theorem variantInsert_append {acc : List (Variant × β)} {v : Variant} {b : β}
    (ht : ∀ p ∈ acc, p.1.tag.toNat < v.tag.toNat) (hn : ∀ p ∈ acc, p.1.name ≠ v.name) :
    variantInsert acc v b = acc ++ [(v, b)] := by
  induction acc with
  | nil => rfl
  | cons p acc ih =>
    obtain ⟨k, w⟩ := p
    have h1 := ht (k, w) (by simp)
    have h2 := hn (k, w) (by simp)
    have : v.cmp k = .gt := by
      unfold Variant.cmp Variant.eqv
      have h3 : v.tag ≠ k.tag := fun h => by rw [h] at h1; simp at h1
      have h4 : v.name ≠ k.name := fun h => h2 h.symm
      rw [if_neg (by simp [h3, h4]), if_neg]
      simp only at h1; omega
    simp only [variantInsert, this, List.cons_append]
    rw [ih (fun p hp => ht p (by simp [hp])) (fun p hp => hn p (by simp [hp]))]

/-- Translating a well-formed variant list fails or succeeds exactly as translating its references
from left to right. -/
theorem traverseVariants_eq {f : α → σ → Out ε (β × σ)} {vs : List (Variant × α)}
    {acc : List (Variant × β)} {s : σ}
    (ht : (vs.map Prod.fst).Pairwise fun a b => a.tag.toNat < b.tag.toNat)
    (hn : (vs.map Prod.fst).Pairwise fun a b => a.name ≠ b.name)
    (hat : ∀ p ∈ acc, ∀ q ∈ vs, p.1.tag.toNat < q.1.tag.toNat)
    (han : ∀ p ∈ acc, ∀ q ∈ vs, p.1.name ≠ q.1.name) :
    traverseVariants f vs acc s = (traverseList f (vs.map Prod.snd) s >>= fun r =>
      .ok (acc ++ (vs.map Prod.fst).zip r.1, r.2)) := by
  induction vs generalizing acc s with
  | nil => simp [traverseVariants, traverseList]
  | cons p vs ih =>
    obtain ⟨v, a⟩ := p
    simp only [List.map_cons] at ht hn
    obtain ⟨ht1, ht2⟩ := List.pairwise_cons.mp ht
    obtain ⟨hn1, hn2⟩ := List.pairwise_cons.mp hn
    simp only [traverseVariants, traverseList, List.map_cons]
    cases hf : f a s with
    | ok r =>
      obtain ⟨b, s1⟩ := r
      simp only [Out.bind_ok]
      rw [variantInsert_append (fun p hp => hat p hp (v, a) (by simp))
        (fun p hp => han p hp (v, a) (by simp))]
      rw [ih ht2 hn2]
      · cases traverseList f (List.map Prod.snd vs) s1 <;> simp
      · intro p hp q hq
        simp only [List.mem_append, List.mem_singleton] at hp
        rcases hp with hp | rfl
        · exact hat p hp q (by simp [hq])
        · exact ht1 q.1 (List.mem_map_of_mem hq)
      · intro p hp q hq
        simp only [List.mem_append, List.mem_singleton] at hp
        rcases hp with hp | rfl
        · exact han p hp q (by simp [hq])
        · exact hn1 q.1 (List.mem_map_of_mem hq)
    | err e => simp
    | panic => simp
    | diverge => simp

theorem traverseFields_eq {f : α → σ → Out ε (β × σ)} {fs : List (Name × α)} {s : σ} :
    traverseList (fun (p : Name × α) s => do
      let (b, s) ← f p.2 s
      pure ((p.1, b), s)) fs s = (traverseList f (fs.map Prod.snd) s >>= fun r =>
      .ok ((fs.map Prod.fst).zip r.1, r.2)) := by
  induction fs generalizing s with
  | nil => simp [traverseList]
  | cons p fs ih =>
    simp only [traverseList, List.map_cons]
    cases f p.2 s with
    | ok r =>
      obtain ⟨b, s1⟩ := r
      simp only [Out.bind_ok]
      show (traverseList _ fs s1 >>= _) = _
      rw [ih]
      cases traverseList f (fs.map Prod.snd) s1 <;> simp
    | err e => simp
    | panic => simp
    | diverge => simp

theorem checkLen_ok {l : List α} (h1 : 1 ≤ l.length) (h2 : l.length ≤ 255) :
    (checkLen l : Out ε (List α)) = .ok l := by simp [checkLen, h1, h2]

/-- The type with replaced references; the list has one entry per reference. -/
def Ty.withRefs (t : Ty α) (bs : List β) : Option (Ty β) :=
  match t, bs with
  | .primitive c, _ => some (.primitive c)
  | .unicodeChar, _ => some .unicodeChar
  | .enum vs, _ => some (.enum vs)
  | .union vs, bs => some (.union ((vs.map Prod.fst).zip bs))
  | .struct fs, bs => some (.struct ((fs.map Prod.fst).zip bs))
  | .tuple _, bs => some (.tuple bs)
  | .array _ n, [b] => some (.array b n)
  | .list _ s, [b] => some (.list b s)
  | .set _ s, [b] => some (.set b s)
  | .map _ _ s, [k, b] => some (.map k b s)
  | _, _ => none

/-- Key lemma: translation of a well-formed type is the left-to-right translation of its references
followed by replacing them. -/
theorem Ty.translate_eq {f : α → σ → Out ε (β × σ)} {t : Ty α} (h : t.WF) (s : σ) :
    t.translate f s = (traverseList f t.refs s >>= fun r =>
      (Out.expect (t.withRefs r.1) >>= fun u => .ok (u, r.2))) := by
  cases t with
  | primitive c => rfl
  | unicodeChar => rfl
  | enum vs => rfl
  | union vs =>
    obtain ⟨h1, h2, h3, h4⟩ := h
    simp only [translate, refs]
    rw [traverseVariants_eq h3 h4 (by simp) (by simp)]
    cases hr : traverseList f (vs.map Prod.snd) s with
    | ok r =>
      have hl := (traverseList_runs.mp hr).length
      simp only [List.length_map] at hl h1 h2
      simp only [Out.bind_ok, List.nil_append]
      rw [checkLen_ok (by simp [hl, h1]) (by simp [hl, h2])]
      simp [withRefs, Out.expect]
    | err e => simp
    | panic => simp
    | diverge => simp
  | struct fs =>
    obtain ⟨h1, h2⟩ := h
    simp only [translate, refs]
    rw [traverseFields_eq]
    cases hr : traverseList f (fs.map Prod.snd) s with
    | ok r =>
      have hl := (traverseList_runs.mp hr).length
      simp only [List.length_map] at hl
      simp only [Out.bind_ok]
      rw [checkLen_ok (by simp [hl, h1]) (by simp [hl, h2])]
      simp [withRefs, Out.expect]
    | err e => simp
    | panic => simp
    | diverge => simp
  | tuple fs =>
    obtain ⟨h1, h2⟩ := h
    simp only [translate, refs]
    cases hr : traverseList f fs s with
    | ok r =>
      have hl := (traverseList_runs.mp hr).length
      simp only [Out.bind_ok]
      rw [checkLen_ok (by simp [hl, h1]) (by simp [hl, h2])]
      simp [withRefs, Out.expect]
    | err e => simp
    | panic => simp
    | diverge => simp
  | array ty n =>
    simp only [translate, refs, traverseList]
    cases f ty s <;> simp [withRefs, Out.expect]
  | list ty n =>
    simp only [translate, refs, traverseList]
    cases f ty s <;> simp [withRefs, Out.expect]
  | set ty n =>
    simp only [translate, refs, traverseList]
    cases f ty s <;> simp [withRefs, Out.expect]
  | map key ty n =>
    simp only [translate, refs, traverseList]
    cases h1 : f key s with
    | ok r => simp only [Out.bind_ok]; cases f ty r.2 <;> simp [withRefs, Out.expect]
    | err e => simp
    | panic => simp
    | diverge => simp

theorem Ty.withRefs_replaced {t : Ty α} {bs : List β} (h : bs.length = t.refs.length) (u : Ty β) :
    t.withRefs bs = some u ↔ t.Replaced bs u := by
  cases t with
  | primitive | unicodeChar | enum =>
    simp only [refs, List.length_nil, List.length_eq_zero_iff] at h; subst h
    simp [withRefs, Replaced, eq_comm]
  | union | struct =>
    simp only [refs, List.length_map] at h; simp [withRefs, Replaced, h, eq_comm]
  | tuple => simp only [refs] at h; simp [withRefs, Replaced, h, eq_comm]
  | array | list | set =>
    simp only [refs] at h
    rcases bs with _ | ⟨b, _ | _⟩ <;> simp at h
    simp [withRefs, Replaced, eq_comm]
  | map =>
    simp only [refs] at h
    rcases bs with _ | ⟨b, _ | ⟨c, _ | _⟩⟩ <;> simp at h
    simp [withRefs, Replaced, eq_comm]

theorem Ty.withRefs_some {t : Ty α} {bs : List β} (h : bs.length = t.refs.length) :
    ∃ u, t.withRefs bs = some u := by
  cases t with
  | primitive | unicodeChar | enum | union | struct | tuple => exact ⟨_, rfl⟩
  | array | list | set =>
    simp only [refs] at h
    rcases bs with _ | ⟨b, _ | _⟩ <;> simp at h
    exact ⟨_, rfl⟩
  | map =>
    simp only [refs] at h
    rcases bs with _ | ⟨b, _ | ⟨c, _ | _⟩⟩ <;> simp at h
    exact ⟨_, rfl⟩

end Verif
