import Verif.Lemmas.TyCodec
import Verif.Lemmas.Ast

/-!
# Reading and writing types
-/

namespace Verif
variable {Ref : Type}

/-! ## Unions -/

/-- Entry of the map by tag for a variant. -/
def fieldOf (p : Variant × Ref) : Byte × (Name × Ref) := (p.1.tag, p.1.name, p.2)

theorem omap_insert_last {K V : Type} [KeyOrd K] [DecidableEq K] [LawfulKeyOrd K] {m : OMap K V}
    {k : K} {v : V} (h : ∀ p ∈ m, KeyOrd.lt p.1 k = true) : OMap.insert m k v = m ++ [(k, v)] := by
  induction m with
  | nil => rfl
  | cons q m ih =>
    obtain ⟨k', v'⟩ := q
    have h1 : KeyOrd.lt k' k = true := h (k', v') (by simp)
    simp only [OMap.insert, KeyOrd.asymm h1, Bool.false_eq_true, if_false,
      if_neg (Ne.symm (KeyOrd.ne_of_lt h1))]
    rw [ih fun p hp => h p (by simp [hp])]
    rfl

theorem unionFields_loop {vs : List (Variant × Ref)} {acc : OMap Byte (Name × Ref)}
    (hs : vs.Pairwise fun a b => a.1.tag.toNat < b.1.tag.toNat)
    (ha : ∀ p ∈ acc, ∀ q ∈ vs, p.1.toNat < q.1.tag.toNat) :
    vs.foldl (fun m p => OMap.insert m p.1.tag (p.1.name, p.2)) acc = acc ++ vs.map fieldOf := by
  induction vs generalizing acc with
  | nil => simp
  | cons v vs ih =>
    have hs' := List.pairwise_cons.mp hs
    rw [List.foldl_cons, omap_insert_last, ih hs'.2]
    · simp [fieldOf]
    · intro p hp q hq
      rcases List.mem_append.mp hp with hp | hp
      · exact ha p hp q (by simp [hq])
      · simp only [List.mem_singleton] at hp
        subst hp
        exact hs'.1 q hq
    · intro p hp
      have := ha p hp v (by simp)
      simpa [KeyOrd.lt] using this

theorem variantsWF_tags {vs : List (Variant × Ref)} (h : VariantsWF (vs.map Prod.fst)) :
    vs.Pairwise fun a b => a.1.tag.toNat < b.1.tag.toNat := by
  have := h.2.2.1
  rwa [List.pairwise_map] at this

theorem variantsWF_names {vs : List (Variant × Ref)} (h : VariantsWF (vs.map Prod.fst)) :
    vs.Pairwise fun a b => a.1.name ≠ b.1.name := by
  have := h.2.2.2
  rwa [List.pairwise_map] at this

theorem unionFields_eq {vs : List (Variant × Ref)} (h : VariantsWF (vs.map Prod.fst)) :
    unionFields vs = vs.map fieldOf := by
  unfold unionFields
  rw [unionFields_loop (variantsWF_tags h) (by simp)]
  rfl

theorem unionOfFields_loop {vs acc : List (Variant × Ref)}
    (hs : (acc ++ vs).Pairwise fun a b => a.1.tag.toNat < b.1.tag.toNat)
    (hn : (acc ++ vs).Pairwise fun a b => a.1.name ≠ b.1.name) :
    (vs.map fieldOf).foldl (fun acc e => variantInsert acc ⟨e.2.1, e.1⟩ e.2.2) acc = acc ++ vs := by
  induction vs generalizing acc with
  | nil => simp
  | cons v vs ih =>
    rw [List.map_cons, List.foldl_cons]
    simp only [fieldOf]
    rw [variantInsert_append]
    · rw [show (acc ++ [((⟨v.1.name, v.1.tag⟩ : Variant), v.2)]) = acc ++ [v] from rfl]
      have := ih (acc := acc ++ [v]) (by simpa using hs) (by simpa using hn)
      rw [this]
      simp
    · intro p hp
      exact (List.pairwise_append.mp hs).2.2 p hp v (by simp)
    · intro p hp
      exact (List.pairwise_append.mp hn).2.2 p hp v (by simp)

theorem unionOfFields_eq {vs : List (Variant × Ref)} (h : VariantsWF (vs.map Prod.fst)) :
    unionOfFields (vs.map fieldOf) = vs := by
  unfold unionOfFields
  rw [unionOfFields_loop (by simpa using variantsWF_tags h) (by simpa using variantsWF_names h)]
  rfl

/-! ### Bytes lost by repeated names -/

/-- Bytes taken by one entry of a union: tag, name and `c` bytes for the reference. -/
def entryLen (p : Variant × (Ref × Bytes)) : Nat := 2 + p.1.name.bytes.length + p.2.2.length

/-- Total of `entryLen`. -/
def entriesLen (l : List (Variant × (Ref × Bytes))) : Nat := (l.map entryLen).sum

theorem variantInsert_len (acc : List (Variant × (Ref × Bytes))) (k : Variant) (v : Ref × Bytes) :
    entriesLen (variantInsert acc k v) ≤ entriesLen acc + entryLen (k, v) := by
  induction acc with
  | nil => simp [variantInsert, entriesLen]
  | cons p acc ih =>
    obtain ⟨k', v'⟩ := p
    unfold variantInsert
    split
    · simp [entriesLen]; omega
    · simp [entriesLen, entryLen]; omega
    · simp only [entriesLen, List.map_cons, List.sum_cons] at ih ⊢
      omega

theorem variantInsert_cases {acc : List (Variant × (Ref × Bytes))} {k : Variant} {v : Ref × Bytes}
    (ht : ∀ p ∈ acc, p.1.tag.toNat < k.tag.toNat) :
    variantInsert acc k v = acc ++ [(k, v)] ∨
      entriesLen (variantInsert acc k v) < entriesLen acc + entryLen (k, v) := by
  induction acc with
  | nil => exact .inl rfl
  | cons p acc ih =>
    obtain ⟨k', v'⟩ := p
    have h1 : k'.tag.toNat < k.tag.toNat := ht (k', v') (by simp)
    unfold variantInsert
    have hc : k.cmp k' = .eq ∨ k.cmp k' = .gt := by
      unfold Variant.cmp
      split
      · exact .inl rfl
      · right
        rw [if_neg (by omega)]
    rcases hc with hc | hc
    · rw [hc]
      right
      simp [entriesLen, entryLen]; omega
    · rw [hc]
      dsimp only
      rcases ih fun p hp => ht p (by simp [hp]) with h | h
      · exact .inl (by rw [h]; rfl)
      · right
        simp only [entriesLen, List.map_cons, List.sum_cons] at h ⊢
        omega

theorem variantInsert_mem {V : Type} {acc : List (Variant × V)} {k : Variant} {v : V}
    {p : Variant × V} (h : p ∈ variantInsert acc k v) :
    p.2 = v ∨ ∃ q ∈ acc, q.2 = p.2 := by
  induction acc with
  | nil => simp [variantInsert] at h; simp [h]
  | cons q acc ih =>
    obtain ⟨k', v'⟩ := q
    unfold variantInsert at h
    split at h
    · rcases List.mem_cons.mp h with rfl | h
      · exact .inl rfl
      · exact .inr ⟨p, h, rfl⟩
    · rcases List.mem_cons.mp h with rfl | h
      · exact .inl rfl
      · exact .inr ⟨p, by simp [h], rfl⟩
    · rcases List.mem_cons.mp h with rfl | h
      · exact .inr ⟨_, List.mem_cons_self, rfl⟩
      · rcases ih h with h | ⟨q, hq, h⟩
        · exact .inl h
        · exact .inr ⟨q, by simp [hq], h⟩

theorem variantInsert_tags {V : Type} {acc : List (Variant × V)} {k : Variant} {v : V}
    {p : Variant × V} (h : p ∈ variantInsert acc k v) : p.1 = k ∨ ∃ q ∈ acc, q.1 = p.1 := by
  induction acc with
  | nil => simp [variantInsert] at h; simp [h]
  | cons q acc ih =>
    obtain ⟨k', v'⟩ := q
    unfold variantInsert at h
    split at h
    · rcases List.mem_cons.mp h with rfl | h
      · exact .inl rfl
      · exact .inr ⟨p, h, rfl⟩
    · rcases List.mem_cons.mp h with rfl | h
      · exact .inr ⟨_, List.mem_cons_self, rfl⟩
      · exact .inr ⟨p, by simp [h], rfl⟩
    · rcases List.mem_cons.mp h with rfl | h
      · exact .inr ⟨_, List.mem_cons_self, rfl⟩
      · rcases ih h with h | ⟨q, hq, h⟩
        · exact .inl h
        · exact .inr ⟨q, by simp [hq], h⟩

theorem variantInsert_map {V W : Type} (g : V → W) (acc : List (Variant × V)) (k : Variant) (v : V) :
    (variantInsert acc k v).map (fun p => (p.1, g p.2)) =
      variantInsert (acc.map fun p => (p.1, g p.2)) k (g v) := by
  induction acc with
  | nil => rfl
  | cons q acc ih =>
    obtain ⟨k', v'⟩ := q
    simp only [variantInsert, List.map_cons]
    split <;> simp [ih]

/-- Rebuilding a union from entries with the bytes their references took. -/
def rebuild (m : List (Variant × (Ref × Bytes))) (acc : List (Variant × (Ref × Bytes))) :
    List (Variant × (Ref × Bytes)) :=
  m.foldl (fun acc e => variantInsert acc e.1 e.2) acc

theorem rebuild_len (m acc : List (Variant × (Ref × Bytes))) :
    entriesLen (rebuild m acc) ≤ entriesLen acc + entriesLen m := by
  induction m generalizing acc with
  | nil => simp [rebuild, entriesLen]
  | cons e m ih =>
    have h1 := ih (variantInsert acc e.1 e.2)
    have h2 : _ ≤ _ + entryLen e := variantInsert_len acc e.1 e.2
    simp only [entriesLen, List.map_cons, List.sum_cons, rebuild, List.foldl_cons] at *
    omega

theorem rebuild_cases {m acc : List (Variant × (Ref × Bytes))}
    (hs : m.Pairwise fun a b => a.1.tag.toNat < b.1.tag.toNat)
    (ha : ∀ p ∈ acc, ∀ q ∈ m, p.1.tag.toNat < q.1.tag.toNat) :
    rebuild m acc = acc ++ m ∨ entriesLen (rebuild m acc) < entriesLen acc + entriesLen m := by
  induction m generalizing acc with
  | nil => left; simp [rebuild]
  | cons e m ih =>
    have hs' := List.pairwise_cons.mp hs
    have h2 := variantInsert_cases (v := e.2) (fun p hp => ha p hp e (by simp))
    have hnext : ∀ p ∈ variantInsert acc e.1 e.2, ∀ q ∈ m, p.1.tag.toNat < q.1.tag.toNat := by
      intro p hp q hq
      rcases variantInsert_tags hp with h | ⟨r, hr, h⟩
      · rw [h]; exact hs'.1 q hq
      · rw [← h]; exact ha r hr q (by simp [hq])
    have hrec : rebuild (e :: m) acc = rebuild m (variantInsert acc e.1 e.2) := rfl
    have hlen : entriesLen (e :: m) = entryLen e + entriesLen m := by simp [entriesLen]
    rcases h2 with h2 | h2
    · rw [hrec, hlen]
      have h3 := ih hs'.2 hnext
      rw [h2] at h3 ⊢
      have h4 : entriesLen (acc ++ [e]) = entriesLen acc + entryLen e := by simp [entriesLen]
      rcases h3 with h3 | h3
      · left; rw [h3]; simp
      · right
        have : entriesLen (acc ++ [(e.1, e.2)]) = entriesLen (acc ++ [e]) := rfl
        omega
    · right
      rw [hrec, hlen]
      have h3 := rebuild_len m (variantInsert acc e.1 e.2)
      have : entryLen (e.1, e.2) = entryLen e := rfl
      omega

theorem rebuild_mem {m acc : List (Variant × (Ref × Bytes))} {p : Variant × (Ref × Bytes)}
    (h : p ∈ rebuild m acc) : ∃ q ∈ acc ++ m, q.2 = p.2 := by
  induction m generalizing acc with
  | nil => exact ⟨p, by simpa [rebuild] using h, rfl⟩
  | cons e m ih =>
    have hrec : rebuild (e :: m) acc = rebuild m (variantInsert acc e.1 e.2) := rfl
    rw [hrec] at h
    obtain ⟨q, hq, he⟩ := ih h
    rcases List.mem_append.mp hq with hq | hq
    · rcases variantInsert_mem hq with h1 | ⟨r, hr, h1⟩
      · exact ⟨e, by simp, by rw [← he, h1]⟩
      · exact ⟨r, by simp [hr], by rw [h1, he]⟩
    · exact ⟨q, by simp [hq], he⟩

theorem rebuild_map (m acc : List (Variant × (Ref × Bytes))) :
    (rebuild m acc).map (fun p => (p.1, p.2.1)) =
      (m.map fun p => fieldOf (p.1, p.2.1)).foldl
        (fun acc e => variantInsert acc ⟨e.2.1, e.1⟩ e.2.2) (acc.map fun p => (p.1, p.2.1)) := by
  induction m generalizing acc with
  | nil => rfl
  | cons e m ih =>
    have hrec : rebuild (e :: m) acc = rebuild m (variantInsert acc e.1 e.2) := rfl
    rw [hrec, ih, variantInsert_map Prod.fst]
    rfl

/-! ### Reading a union -/

/-- Bytes of one union entry. -/
def encEntry (f : Ref → Bytes) (e : Byte × (Name × Ref)) : Bytes := e.1 :: encPair encName f e.2

theorem decEntry_append {f : Ref → Bytes} {d : Bytes → Out CErr (Ref × Bytes)}
    {e : Byte × (Name × Ref)} (h : ReadsBack f d e.2.2) :
    ReadsBack (encEntry f) (decPair decByte (decPair decName d)) e := by
  intro rest
  rw [decPair]
  simp only [encEntry, List.cons_append, decByte, Out.bind_ok]
  rw [decPair_append (p := e.2) (decName_append _) h]
  rfl

theorem decUnion_append {f : Ref → Bytes} {d : Bytes → Out CErr (Ref × Bytes)}
    {vs : List (Variant × Ref)} (hw : VariantsWF (vs.map Prod.fst))
    (h : ∀ p ∈ vs, ReadsBack f d p.2) :
    ReadsBack (fun vs => encSeq 1 (encEntry f) (unionFields vs)) (decUnion d) vs := by
  intro rest
  have h1 := hw.1
  have h2 := hw.2.1
  simp only [List.length_map] at h1 h2
  have hr : ReadsBack (encSeq 1 (encEntry f))
      (decSet 1 0 entryCmp (decPair decByte (decPair decName d))) (vs.map fieldOf) := by
    apply decSet_append
    · intro e he
      obtain ⟨p, hp, rfl⟩ := List.mem_map.mp he
      exact decEntry_append (h p hp)
    · rw [List.pairwise_map]
      refine (variantsWF_tags hw).imp fun {a b} hab => ?_
      exact cmpLt_of_lt (κ := Byte) (a := a.1.tag) (b := b.1.tag) (by simpa [KeyOrd.lt] using hab)
    · omega
    · simp; omega
  dsimp only
  unfold decUnion
  rw [unionFields_eq hw, hr, Out.bind_ok]
  dsimp only
  rw [unionOfFields_eq hw]
  simp [checkMin, h1]

/-- What reading one union entry consumes. -/
def EntryOf (R : Ref → Bytes → Prop) (e : Byte × (Name × Ref)) (c : Bytes) : Prop :=
  ∃ c', c = e.1 :: (encName e.2.1 ++ c') ∧ R e.2.2 c'

theorem decEntry_parsed {R : Ref → Bytes → Prop} {d : Bytes → Out CErr (Ref × Bytes)}
    (hd : Parsed R d) : Parsed (EntryOf R) (decPair decByte (decPair decName d)) := by
  intro bs e rest h
  obtain ⟨⟨t, b1⟩, h1, h2⟩ := Out.bind_eq_ok.mp h
  obtain ⟨⟨p, b2⟩, h3, h4⟩ := Out.bind_eq_ok.mp h2
  cases h4
  have h1 := decByte_ok h1
  subst h1
  obtain ⟨c, hb, c1, c2, rfl, hn, hr⟩ := decPair_parsed decName_ok.parsed hd _ _ _ h3
  refine ⟨t :: (c1 ++ c2), by rw [hb]; simp, c2, ?_, hr⟩
  have hn : c1 = encName p.1 := hn
  rw [hn]

theorem all2_entries {R : Ref → Bytes → Prop} {m : OMap Byte (Name × Ref)} {cs : List Bytes}
    (h : All2 (EntryOf R) m cs) :
    ∃ es : List (Variant × (Ref × Bytes)), m = es.map (fun p => fieldOf (p.1, p.2.1)) ∧
      (∀ p ∈ es, R p.2.1 p.2.2) ∧
      cs.flatten = es.flatMap (fun p => p.1.tag :: (encName p.1.name ++ p.2.2)) := by
  induction m generalizing cs with
  | nil => cases cs with
    | nil => exact ⟨[], rfl, by simp, rfl⟩
    | cons => exact h.elim
  | cons e m ih => cases cs with
    | nil => exact h.elim
    | cons c cs =>
      obtain ⟨es, rfl, h1, h2⟩ := ih h.2
      obtain ⟨c', hc, hr⟩ := h.1
      refine ⟨(⟨e.2.1, e.1⟩, e.2.2, c') :: es, rfl, ?_, ?_⟩
      · intro p hp
        rcases List.mem_cons.mp hp with rfl | hp
        · exact hr
        · exact h1 p hp
      · simp [h2, hc]

theorem entries_length (es : List (Variant × (Ref × Bytes))) :
    (es.flatMap fun p => p.1.tag :: (encName p.1.name ++ p.2.2)).length = entriesLen es := by
  induction es with
  | nil => rfl
  | cons e es ih =>
    have h4 : entriesLen (e :: es) = entryLen e + entriesLen es := by simp [entriesLen]
    rw [List.flatMap_cons, List.length_append, ih, h4]
    simp only [entryLen, encName, List.length_cons, le_length, List.length_append]
    omega

theorem entries_near {f : Ref → Bytes} {P : Ref → Prop} {es : List (Variant × (Ref × Bytes))}
    (hr : ∀ p ∈ es, Near f P p.2.1 p.2.2) (hp : ∀ p ∈ es, P p.2.1) :
    (es.flatMap fun p => p.1.tag :: (encName p.1.name ++ p.2.2)) =
        es.flatMap (fun p => encEntry f (fieldOf (p.1, p.2.1))) ∨
      (es.flatMap fun p => encEntry f (fieldOf (p.1, p.2.1))).length < entriesLen es := by
  induction es with
  | nil => exact .inl rfl
  | cons e es ih =>
    have h1 := ih (fun p hq => hr p (by simp [hq])) fun p hq => hp p (by simp [hq])
    have h2 := hr e (by simp) (hp e (by simp))
    have h3 := entries_length es
    have h4 : entriesLen (e :: es) = entryLen e + entriesLen es := by simp [entriesLen]
    have h5 : (encEntry f (fieldOf (e.1, e.2.1))).length =
        2 + e.1.name.bytes.length + (f e.2.1).length := by
      simp [encEntry, fieldOf, encPair, encName]; omega
    simp only [List.flatMap_cons, List.length_append, h4, h5]
    unfold entryLen
    rcases h2 with h2 | h2
    · rcases h1 with h1 | h1
      · left
        rw [h1, h2]
        rfl
      · right; rw [h2]; omega
    · right
      rcases h1 with h1 | h1
      · rw [← h1, h3]; omega
      · omega

theorem decUnion_parsed {f : Ref → Bytes} {P : Ref → Prop} {d : Bytes → Out CErr (Ref × Bytes)}
    (hd : Parsed (Near f P) d) :
    Parsed (Near (fun vs => encSeq 1 (encEntry f) (unionFields vs))
      fun vs => VariantsWF (vs.map Prod.fst) ∧ ∀ p ∈ vs, P p.2) (decUnion d) := by
  intro bs vs rest h
  obtain ⟨⟨m, b1⟩, h1, h2⟩ := Out.bind_eq_ok.mp h
  obtain ⟨vs', h3, h4⟩ := Out.bind_eq_ok.mp h2
  cases h4
  unfold checkMin at h3
  split at h3
  · cases h3
    obtain ⟨c, rfl, cs, rfl, ha⟩ := decSet_parsed_key (key := Prod.fst) (decEntry_parsed hd) _ _ _ h1
    obtain ⟨hsort, _, hlt⟩ := decSet_sorted (key := Prod.fst) h1
    refine ⟨_, rfl, fun hp => ?_⟩
    obtain ⟨es, rfl, hR, hcs⟩ := all2_entries ha
    have hvs : unionOfFields (es.map fun p => fieldOf (p.1, p.2.1)) =
        (rebuild es []).map fun p => (p.1, p.2.1) := by
      rw [rebuild_map]
      rfl
    rw [hvs] at hp
    have htags : es.Pairwise fun a b => a.1.tag.toNat < b.1.tag.toNat := by
      rw [List.pairwise_map] at hsort
      exact hsort.imp fun {a b} hab => of_decide_eq_true hab
    have hRr : ∀ p ∈ rebuild es [], Near f P p.2.1 p.2.2 := by
      intro p hp
      obtain ⟨q, hq, he⟩ := rebuild_mem hp
      rw [← he]
      exact hR q (by simpa using hq)
    have hPr : ∀ p ∈ rebuild es [], P p.2.1 := fun p hq =>
      hp.2 _ (List.mem_map_of_mem (f := fun p : Variant × (Ref × Bytes) => (p.1, p.2.1)) hq)
    dsimp only
    rw [hvs, unionFields_eq hp.1, hcs]
    unfold encSeq
    simp only [List.map_map, List.length_map, List.length_append, le_length, entries_length,
      List.flatMap_map, Function.comp_def]
    rcases entries_near hRr hPr with hn | hn
    · rcases rebuild_cases htags (acc := []) (by simp) with hr | hr
      · left
        rw [hr] at hn ⊢
        simp only [List.nil_append] at hn ⊢
        rw [hn]
      · right
        rw [← hn, entries_length]
        simp [entriesLen] at hr ⊢
        omega
    · right
      have := rebuild_len es []
      simp [entriesLen] at this hn ⊢
      omega
  · cases h3

/-! ## Types -/

theorem variants_cmpLt {vs : List Variant} (h : VariantsWF vs) : vs.Pairwise (CmpLt variantCmp) := by
  refine (h.2.2.1.and h.2.2.2).imp fun {a b} hab => ?_
  obtain ⟨h1, h2⟩ := hab
  have h3 : a.tag ≠ b.tag := fun e => by rw [e] at h1; omega
  unfold CmpLt variantCmp Variant.cmp Variant.eqv
  constructor
  · rw [if_neg (by simp [h3, h2]), if_pos h1]
  · rw [if_neg (by simp [Ne.symm h3, Ne.symm h2]), if_neg (by omega)]

section
variable (d : Bytes → Out CErr (Ref × Bytes)) (bs : Bytes)
theorem decTy_enum : decTy d (3 :: bs) = (do
    let (vs, bs) ← decSet 1 1 variantCmp decVariant bs
    pure (.enum vs, bs)) := rfl
theorem decTy_union : decTy d (4 :: bs) = (do
    let (vs, bs) ← decUnion d bs
    pure (.union vs, bs)) := rfl
theorem decTy_tuple : decTy d (5 :: bs) = (do
    let (fs, bs) ← decVec 1 1 d bs
    pure (.tuple fs, bs)) := rfl
theorem decTy_struct : decTy d (6 :: bs) = (do
    let (fs, bs) ← decVec 1 1 (decPair decName d) bs
    pure (.struct fs, bs)) := rfl
theorem decTy_array : decTy d (7 :: bs) = (do
    let (ty, bs) ← d bs
    let (len, bs) ← decNat 2 bs
    pure (.array ty (BitVec.ofNat 16 len), bs)) := rfl
theorem decTy_list : decTy d (8 :: bs) = (do
    let (ty, bs) ← d bs
    let (sz, bs) ← decSizing bs
    pure (.list ty sz, bs)) := rfl
theorem decTy_set : decTy d (9 :: bs) = (do
    let (ty, bs) ← d bs
    let (sz, bs) ← decSizing bs
    pure (.set ty sz, bs)) := rfl
theorem decTy_map : decTy d (10 :: bs) = (do
    let (key, bs) ← d bs
    let (ty, bs) ← d bs
    let (sz, bs) ← decSizing bs
    pure (.map key ty sz, bs)) := rfl
end

theorem decTy_append {f : Ref → Bytes} {d : Bytes → Out CErr (Ref × Bytes)} {t : Ty Ref}
    (hw : t.WF) (hr : ∀ r ∈ t.refs, ReadsBack f d r) : ReadsBack (Ty.encode f) (decTy d) t := by
  intro rest
  cases t with
  | primitive c => rfl
  | unicodeChar => rfl
  | enum vs =>
    simp only [Ty.encode, List.cons_append]
    rw [decTy_enum]
    have h1 := hw.1
    have h2 := hw.2.1
    rw [decSet_append (fun v _ => decVariant_append v) (variants_cmpLt hw) h1 (by omega)]
    rfl
  | union vs =>
    simp only [Ty.encode, List.cons_append]
    rw [decTy_union]
    have := decUnion_append (f := f) (d := d) hw (fun p hp => hr p.2 (by
      simp only [Ty.refs]; exact List.mem_map_of_mem hp)) rest
    have he : (fun e => e.1 :: encPair encName f e.2) = encEntry f := rfl
    rw [he, this]
    rfl
  | tuple fs =>
    have hw : 1 ≤ fs.length ∧ fs.length ≤ 255 := hw
    simp only [Ty.encode, List.cons_append]
    rw [decTy_tuple]
    rw [decVec_append (l := fs) (fun r h => hr r h) hw.1 (by omega)]
    rfl
  | struct fs =>
    have hw : 1 ≤ fs.length ∧ fs.length ≤ 255 := hw
    simp only [Ty.encode, List.cons_append]
    rw [decTy_struct]
    rw [decVec_append (fun p h => decPair_append (decName_append _) (hr p.2 (by
      simp only [Ty.refs]; exact List.mem_map_of_mem h))) hw.1 (by omega)]
    rfl
  | array ty len =>
    simp only [Ty.encode, List.cons_append, List.append_assoc]
    rw [decTy_array]
    rw [hr ty (by simp [Ty.refs]), Out.bind_ok]
    dsimp only
    have := len.isLt
    rw [decNat_append (by omega)]
    simp
  | list ty sz =>
    simp only [Ty.encode, List.cons_append, List.append_assoc]
    rw [decTy_list]
    rw [hr ty (by simp [Ty.refs]), Out.bind_ok]
    dsimp only
    rw [decSizing_append]
    rfl
  | set ty sz =>
    simp only [Ty.encode, List.cons_append, List.append_assoc]
    rw [decTy_set]
    rw [hr ty (by simp [Ty.refs]), Out.bind_ok]
    dsimp only
    rw [decSizing_append]
    rfl
  | map k ty sz =>
    simp only [Ty.encode, List.cons_append, List.append_assoc]
    rw [decTy_map]
    rw [hr k (by simp [Ty.refs]), Out.bind_ok]
    dsimp only
    rw [hr ty (by simp [Ty.refs]), Out.bind_ok]
    dsimp only
    rw [decSizing_append]
    rfl

theorem decTy_parsed {f : Ref → Bytes} {P : Ref → Prop} {d : Bytes → Out CErr (Ref × Bytes)}
    (hd : Parsed (Near f P) d) :
    Parsed (Near (Ty.encode f) fun t => t.WF ∧ ∀ r ∈ t.refs, P r) (decTy d) := by
  intro bs t rest h
  obtain ⟨⟨tag, b1⟩, h1, h2⟩ := Out.bind_eq_ok.mp h
  have h1 := decByte_ok h1
  subst h1
  have ht : ∀ n, tag.toNat = n → tag = BitVec.ofNat 8 n := fun n hn => by
    rw [← hn]; simp
  dsimp only at h2
  split at h2
  · rename_i hn
    rw [ht _ hn]
    obtain ⟨⟨c, b2⟩, h3, h4⟩ := Out.bind_eq_ok.mp h2
    cases h4
    have h3 := decByte_ok h3
    exact ⟨[0, c], by rw [h3]; rfl, fun _ => .inl rfl⟩
  · rename_i hn
    rw [ht _ hn]
    cases h2
    exact ⟨[1], rfl, fun _ => .inl rfl⟩
  · rename_i hn
    rw [ht _ hn]
    obtain ⟨⟨vs, b2⟩, h3, h4⟩ := Out.bind_eq_ok.mp h2
    cases h4
    obtain ⟨c, hb, hc⟩ := decSet_parsed decVariant_ok.parsed _ _ _ h3
    refine ⟨3 :: c, by rw [hb]; rfl, fun hp => .inl ?_⟩
    rw [seqOf_exact (hc (variants_cmpLt hp.1))]
    rfl
  · rename_i hn
    rw [ht _ hn]
    obtain ⟨⟨vs, b2⟩, h3, h4⟩ := Out.bind_eq_ok.mp h2
    cases h4
    obtain ⟨c, hb, hc⟩ := decUnion_parsed hd _ _ _ h3
    refine ⟨4 :: c, by rw [hb]; rfl, fun hp => ?_⟩
    rcases hc ⟨hp.1, fun p hm => hp.2 p.2 (List.mem_map_of_mem hm)⟩ with hc | hc
    · exact .inl (by rw [hc]; rfl)
    · right
      have he : (fun e => e.1 :: encPair encName f e.2) = encEntry f := rfl
      dsimp only at hc
      simp only [Ty.encode, List.length_cons, he]
      omega
  · rename_i hn
    rw [ht _ hn]
    obtain ⟨⟨fs, b2⟩, h3, h4⟩ := Out.bind_eq_ok.mp h2
    cases h4
    obtain ⟨c, hb, hc⟩ := decVec_parsed hd _ _ _ h3
    refine ⟨5 :: c, by rw [hb]; rfl, fun hp => ?_⟩
    rcases seqOf_near hc hp.2 with hc | hc
    · exact .inl (by rw [hc]; rfl)
    · right
      simp only [Ty.encode, List.length_cons]
      omega
  · rename_i hn
    rw [ht _ hn]
    obtain ⟨⟨fs, b2⟩, h3, h4⟩ := Out.bind_eq_ok.mp h2
    cases h4
    obtain ⟨c, hb, hc⟩ := decVec_parsed (decPair_near decName_ok hd) _ _ _ h3
    refine ⟨6 :: c, by rw [hb]; rfl, fun hp => ?_⟩
    rcases seqOf_near hc fun p hm => hp.2 p.2 (List.mem_map_of_mem hm) with hc | hc
    · exact .inl (by rw [hc]; rfl)
    · right
      simp only [Ty.encode, List.length_cons]
      omega
  · rename_i hn
    rw [ht _ hn]
    obtain ⟨⟨ty, b2⟩, h3, h4⟩ := Out.bind_eq_ok.mp h2
    obtain ⟨⟨len, b3⟩, h5, h6⟩ := Out.bind_eq_ok.mp h4
    cases h6
    obtain ⟨c, rfl, hc⟩ := hd _ _ _ h3
    obtain ⟨hb, hl⟩ := decNat_ok h5
    dsimp only at hb
    refine ⟨7 :: (c ++ le 2 len), by rw [hb]; simp, fun hp => ?_⟩
    have he : (BitVec.ofNat 16 len).toNat = len := by simp; omega
    rcases hc (hp.2 ty (by simp [Ty.refs])) with hc | hc
    · left
      simp only [Ty.encode, he, hc]
    · right
      simp only [Ty.encode, List.length_cons, List.length_append, le_length]
      omega
  · rename_i hn
    rw [ht _ hn]
    obtain ⟨⟨ty, b2⟩, h3, h4⟩ := Out.bind_eq_ok.mp h2
    obtain ⟨⟨sz, b3⟩, h5, h6⟩ := Out.bind_eq_ok.mp h4
    cases h6
    obtain ⟨c, rfl, hc⟩ := hd _ _ _ h3
    have hb := decSizing_ok _ _ _ h5
    dsimp only at hb
    refine ⟨8 :: (c ++ encSizing sz), by rw [hb]; simp, fun hp => ?_⟩
    rcases hc (hp.2 ty (by simp [Ty.refs])) with hc | hc
    · left
      simp only [Ty.encode, hc]
    · right
      simp only [Ty.encode, List.length_cons, List.length_append]
      omega
  · rename_i hn
    rw [ht _ hn]
    obtain ⟨⟨ty, b2⟩, h3, h4⟩ := Out.bind_eq_ok.mp h2
    obtain ⟨⟨sz, b3⟩, h5, h6⟩ := Out.bind_eq_ok.mp h4
    cases h6
    obtain ⟨c, rfl, hc⟩ := hd _ _ _ h3
    have hb := decSizing_ok _ _ _ h5
    dsimp only at hb
    refine ⟨9 :: (c ++ encSizing sz), by rw [hb]; simp, fun hp => ?_⟩
    rcases hc (hp.2 ty (by simp [Ty.refs])) with hc | hc
    · left
      simp only [Ty.encode, hc]
    · right
      simp only [Ty.encode, List.length_cons, List.length_append]
      omega
  · rename_i hn
    rw [ht _ hn]
    obtain ⟨⟨k, b2⟩, h3, h4⟩ := Out.bind_eq_ok.mp h2
    obtain ⟨⟨ty, b3⟩, h5, h6⟩ := Out.bind_eq_ok.mp h4
    obtain ⟨⟨sz, b4⟩, h7, h8⟩ := Out.bind_eq_ok.mp h6
    cases h8
    obtain ⟨c, rfl, hc⟩ := hd _ _ _ h3
    obtain ⟨c', hb, hc'⟩ := hd _ _ _ h5
    have hb' := decSizing_ok _ _ _ h7
    dsimp only at hb hb'
    refine ⟨10 :: (c ++ c' ++ encSizing sz), by rw [hb, hb']; simp, fun hp => ?_⟩
    have e1 := hc (hp.2 k (by simp [Ty.refs]))
    have e2 := hc' (hp.2 ty (by simp [Ty.refs]))
    simp only [Ty.encode, List.length_cons, List.length_append]
    rcases e1 with e1 | e1
    · rcases e2 with e2 | e2
      · left; rw [e1, e2]
      · right; rw [e1]; omega
    · rcases e2 with e2 | e2
      · right; rw [e2]; omega
      · right; omega
  · cases h2

/-- Types other than unions are read canonically if references are. -/
theorem decTy_exact {f : Ref → Bytes} {d : Bytes → Out CErr (Ref × Bytes)} (hd : Canonical f d) :
    Parsed (fun t c => (∀ vs, t = .enum vs → VariantsWF vs) → (∀ vs, t ≠ .union vs) → c = Ty.encode f t) (decTy d) := by
  intro bs t rest h
  obtain ⟨⟨tag, b1⟩, h1, h2⟩ := Out.bind_eq_ok.mp h
  have h1 := decByte_ok h1
  subst h1
  have ht : ∀ n, tag.toNat = n → tag = BitVec.ofNat 8 n := fun n hn => by
    rw [← hn]; simp
  dsimp only at h2
  split at h2
  · rename_i hn
    rw [ht _ hn]
    obtain ⟨⟨c, b2⟩, h3, h4⟩ := Out.bind_eq_ok.mp h2
    cases h4
    have h3 := decByte_ok h3
    exact ⟨[0, c], by rw [h3]; rfl, fun _ _ => rfl⟩
  · rename_i hn
    rw [ht _ hn]
    cases h2
    exact ⟨[1], rfl, fun _ _ => rfl⟩
  · rename_i hn
    rw [ht _ hn]
    obtain ⟨⟨vs, b2⟩, h3, h4⟩ := Out.bind_eq_ok.mp h2
    cases h4
    obtain ⟨c, hb, hc⟩ := decSet_parsed decVariant_ok.parsed _ _ _ h3
    refine ⟨3 :: c, by rw [hb]; rfl, fun hp _ => ?_⟩
    rw [seqOf_exact (hc (variants_cmpLt (hp _ rfl)))]
    rfl
  · rename_i hn
    obtain ⟨⟨vs, b2⟩, h3, h4⟩ := Out.bind_eq_ok.mp h2
    cases h4
    obtain ⟨c, hb, -⟩ := decUnion_parsed (P := fun _ => True)
      (hd.parsed.mono fun _ _ h _ => .inl h) _ _ _ h3
    exact ⟨tag :: c, by rw [hb]; rfl, fun _ hu => absurd rfl (hu vs)⟩
  · rename_i hn
    rw [ht _ hn]
    obtain ⟨⟨fs, b2⟩, h3, h4⟩ := Out.bind_eq_ok.mp h2
    cases h4
    obtain ⟨c, hb, hc⟩ := decVec_parsed hd.parsed _ _ _ h3
    exact ⟨5 :: c, by rw [hb]; rfl, fun _ _ => by rw [seqOf_exact hc]; rfl⟩
  · rename_i hn
    rw [ht _ hn]
    obtain ⟨⟨fs, b2⟩, h3, h4⟩ := Out.bind_eq_ok.mp h2
    cases h4
    obtain ⟨c, hb, hc⟩ := decVec_parsed (decPair_exact decName_ok hd).parsed _ _ _ h3
    exact ⟨6 :: c, by rw [hb]; rfl, fun _ _ => by rw [seqOf_exact hc]; rfl⟩
  · rename_i hn
    rw [ht _ hn]
    obtain ⟨⟨ty, b2⟩, h3, h4⟩ := Out.bind_eq_ok.mp h2
    obtain ⟨⟨len, b3⟩, h5, h6⟩ := Out.bind_eq_ok.mp h4
    cases h6
    obtain ⟨hb, hl⟩ := decNat_ok h5
    have hc := hd _ _ _ h3
    dsimp only at hb
    have he : (BitVec.ofNat 16 len).toNat = len := by simp; omega
    exact ⟨7 :: (f ty ++ le 2 len), by rw [hc, hb]; simp, fun _ _ => by simp only [Ty.encode, he]⟩
  · rename_i hn
    rw [ht _ hn]
    obtain ⟨⟨ty, b2⟩, h3, h4⟩ := Out.bind_eq_ok.mp h2
    obtain ⟨⟨sz, b3⟩, h5, h6⟩ := Out.bind_eq_ok.mp h4
    cases h6
    have hc := hd _ _ _ h3
    have hb := decSizing_ok _ _ _ h5
    dsimp only at hb
    exact ⟨8 :: (f ty ++ encSizing sz), by rw [hc, hb]; simp, fun _ _ => rfl⟩
  · rename_i hn
    rw [ht _ hn]
    obtain ⟨⟨ty, b2⟩, h3, h4⟩ := Out.bind_eq_ok.mp h2
    obtain ⟨⟨sz, b3⟩, h5, h6⟩ := Out.bind_eq_ok.mp h4
    cases h6
    have hc := hd _ _ _ h3
    have hb := decSizing_ok _ _ _ h5
    dsimp only at hb
    exact ⟨9 :: (f ty ++ encSizing sz), by rw [hc, hb]; simp, fun _ _ => rfl⟩
  · rename_i hn
    rw [ht _ hn]
    obtain ⟨⟨k, b2⟩, h3, h4⟩ := Out.bind_eq_ok.mp h2
    obtain ⟨⟨ty, b3⟩, h5, h6⟩ := Out.bind_eq_ok.mp h4
    obtain ⟨⟨sz, b4⟩, h7, h8⟩ := Out.bind_eq_ok.mp h6
    cases h8
    have hc := hd _ _ _ h3
    have hb := hd _ _ _ h5
    have hb' := decSizing_ok _ _ _ h7
    dsimp only at hb hb'
    exact ⟨10 :: (f k ++ f ty ++ encSizing sz), by rw [hc, hb, hb']; simp, fun _ _ => rfl⟩
  · cases h2

end Verif
