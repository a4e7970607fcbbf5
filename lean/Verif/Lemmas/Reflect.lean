import Verif.Spec.Reflect
import Verif.Lemmas.Sane
import Verif.Lemmas.CrateTypes
import Verif.Lemmas.RoundTrip

/-!
# Values of Rust types
-/

namespace Verif

/-! ### References and ids -/

theorem RTy.absRef_none {H : Hash} {p : RTy} (h : p.name = none) : p.absRef H = .embedded (p.sem H) := by
  simp [RTy.absRef, absolute, h]

theorem RTy.absRef_id (H : Hash) (p : RTy) : (p.absRef H).id H = p.semId H := by
  unfold RTy.absRef absolute RTy.semId
  cases p.name <;> simp [TranspileRef.id, TranspileRef.commit]

theorem TranspileRef.Nests.trans {r r' : TranspileRef} {t u : Ty TranspileRef} (h : r.Nests t) (hr : r' ∈ t.refs)
    (hn : r'.Nests u) : r.Nests u := by
  induction h with
  | here t => exact .deep hr hn
  | deep hm _ ih => exact .deep hm (ih hr)

theorem tyWithFields_eq (f : Name → Option Name → Ty TranspileRef → TranspileRef) : ∀ fs : List (Option Name × RTy),
    RTy.tyWithFields f fs = fs.map fun p => (p.1, f p.2.lib p.2.name (p.2.tyWith f))
  | [] => by simp [RTy.tyWithFields]
  | (n, t) :: fs => by simp [RTy.tyWithFields, RTy.tyWithField, tyWithFields_eq f fs]

theorem tyWithVariants_eq (f : Name → Option Name → Ty TranspileRef → TranspileRef) : ∀ vs : List (Variant × RTy),
    RTy.tyWithVariants f vs = vs.map fun p => (p.1, f p.2.lib p.2.name (p.2.tyWith f))
  | [] => by simp [RTy.tyWithVariants]
  | (n, t) :: fs => by simp [RTy.tyWithVariants, RTy.tyWithVariant, tyWithVariants_eq f fs]

/-- Fields without a name are missing from structs only. -/
def RTy.Named : RTy → Prop
  | .record _ _ false fs => ∀ f ∈ fs, f.1 ≠ none
  | _ => True

/-- An unnamed type mentioned directly is embedded. -/
theorem RTy.part_nests {H : Hash} {q p : RTy} (hq : q.Named) (hp : p ∈ q.parts) :
    ∃ r ∈ (q.sem H).refs, r = p.absRef H ∨ ∃ sz, r = .embedded (.list (p.absRef H) sz) := by
  cases q with
  | prim | unicode | enum => simp [RTy.parts] at hp
  | rstring c c1 sz =>
    simp only [RTy.parts, List.mem_cons, List.not_mem_nil, or_false] at hp
    rcases hp with rfl | rfl
    · exact ⟨_, List.mem_cons_self, .inl rfl⟩
    · exact ⟨_, List.mem_cons_of_mem _ (List.mem_singleton.mpr rfl), .inr ⟨_, rfl⟩⟩
  | array | list | set =>
    simp only [RTy.parts, List.mem_cons, List.not_mem_nil, or_false] at hp
    subst hp
    exact ⟨_, List.mem_singleton.mpr rfl, .inl rfl⟩
  | map k t sz =>
    simp only [RTy.parts, List.mem_cons, List.not_mem_nil, or_false] at hp
    rcases hp with rfl | rfl
    · exact ⟨_, List.mem_cons_self, .inl rfl⟩
    · exact ⟨_, List.mem_cons_of_mem _ (List.mem_singleton.mpr rfl), .inl rfl⟩
  | record lib name isTuple fs =>
    simp only [RTy.parts, List.mem_map] at hp
    obtain ⟨f, hf, rfl⟩ := hp
    refine ⟨f.2.absRef H, ?_, .inl rfl⟩
    have hne : fs.isEmpty = false := by cases fs with
      | nil => cases hf
      | cons => rfl
    simp only [RTy.sem, RTy.tyWith, hne, Bool.false_eq_true, if_false, tyWithFields_eq]
    cases isTuple with
    | true =>
      simp only [if_true, Ty.refs, List.mem_map]
      exact ⟨_, ⟨f, hf, rfl⟩, rfl⟩
    | false =>
      simp only [Bool.false_eq_true, if_false, Ty.refs, List.mem_map, List.mem_filterMap]
      obtain ⟨n, t⟩ := f
      cases n with
      | none => exact absurd rfl (hq _ hf)
      | some n => exact ⟨(n, t.absRef H), ⟨_, ⟨_, hf, rfl⟩, rfl⟩, rfl⟩
  | union lib name vs w =>
    simp only [RTy.parts, List.mem_map] at hp
    obtain ⟨f, hf, rfl⟩ := hp
    refine ⟨f.2.absRef H, ?_, .inl rfl⟩
    simp only [RTy.sem, RTy.tyWith, tyWithVariants_eq, Ty.refs, List.mem_map, mem_byTag]
    exact ⟨_, ⟨f, hf, rfl⟩, rfl⟩

/-- The system contains the type with everything embedded in it. -/
def Holds (H : Hash) (sys : TypeSystem) (q : RTy) : Prop :=
  sys.get (q.semId H) = some ((q.sem H).mapRefs (TranspileRef.id H)) ∧
  ∀ r ∈ (q.sem H).refs, ∀ t, r.Nests t →
    sys.get ((TranspileRef.embedded t).id H) = some (t.mapRefs (TranspileRef.id H))

theorem Holds.part {H : Hash} {sys : TypeSystem} {q p : RTy} (h : Holds H sys q) (hq : q.Named) (hp : p ∈ q.parts)
    (hn : p.name = none) : Holds H sys p := by
  have hid : p.semId H = (TranspileRef.embedded (p.sem H)).id H := by
    rw [← RTy.absRef_id, RTy.absRef_none hn]
  obtain ⟨r, hr, rfl | ⟨sz, rfl⟩⟩ := RTy.part_nests (H := H) hq hp
  · rw [RTy.absRef_none hn] at hr
    refine ⟨?_, fun r' hr' t ht => ?_⟩
    · rw [hid]; exact h.2 _ hr _ (.here _)
    · exact h.2 _ hr _ (.deep hr' ht)
  · rw [RTy.absRef_none hn] at hr
    have hin : TranspileRef.embedded (p.sem H) ∈ (Ty.list (TranspileRef.embedded (p.sem H)) sz).refs := by
      simp [Ty.refs]
    refine ⟨?_, fun r' hr' t ht => ?_⟩
    · rw [hid]; exact h.2 _ hr _ (.deep hin (.here _))
    · exact h.2 _ hr _ (.deep hin (.deep hr' ht))

/-! ### Ids of built-in types -/

theorem TranspileRef.commitTy_basic (t : Ty TranspileRef) :
    (∀ c, TranspileRef.commitTy t = [0, c] → t = .primitive c) ∧
    (TranspileRef.commitTy t = [1] → t = .unicodeChar) := by
  rw [TranspileRef.commitTy_eq]
  constructor
  · intro c h
    cases t <;> simp [Ty.commit, Ty.cls, Cls.code] at h
    subst h
    rfl
  · intro h
    cases t <;> simp [Ty.commit, Ty.cls, Cls.code] at h
    rfl

theorem TranspileRef.commitTy_ne_nil (t : Ty TranspileRef) : TranspileRef.commitTy t ≠ [] := by
  rw [TranspileRef.commitTy_eq]
  exact t.commit_ne_nil _

/-- The text of a Rust type is the commitment of a built-in type only if the type is that one, without a
name. -/
theorem RTy.text_basic (H : Hash) (p : RTy) : (∀ c, p.text H = [0, c] → p.name = none ∧ p.sem H = .primitive c) ∧
    (p.text H = [1] → p.name = none ∧ p.sem H = .unicodeChar) := by
  unfold RTy.text
  cases e : p.name with
  | none => exact ⟨fun c h => ⟨rfl, (TranspileRef.commitTy_basic _).1 c h⟩,
      fun h => ⟨rfl, (TranspileRef.commitTy_basic _).2 h⟩⟩
  | some n =>
    obtain ⟨h1, h2⟩ := named_basic (n := n) (TranspileRef.commitTy_ne_nil (p.sem H))
    exact ⟨fun c h => absurd h (h1 c), fun h => absurd h h2⟩

theorem RTy.sem_primitive {H : Hash} {p : RTy} {c : Byte} (h : p.sem H = .primitive c) (hc : c ≠ 0) : p = .prim c := by
  cases p <;> simp only [RTy.sem, RTy.tyWith] at h <;> try cases h
  · rfl
  · split at h
    · exact absurd (by cases h; rfl) hc
    · split at h <;> cases h

theorem RTy.sem_ne_unicode {H : Hash} {p : RTy} : p.sem H ≠ .unicodeChar := by
  intro h
  cases p <;> simp only [RTy.sem, RTy.tyWith] at h <;> try cases h
  split at h
  · cases h
  · split at h <;> cases h

/-- The id of the type is taken for the id of a built-in type only if it is that type. -/
structure Plain (H : Hash) (p : RTy) : Prop where
  byte : (p.semId H).isByte H = p.isByte
  char : (p.semId H).isUnicodeChar H = false
  unit : p.semId H = SemId.unit H → p.sem H = .primitive Ty.UNIT_CODE
  uniByte : (SemId.unicodeChar H).isByte H = false

theorem basicTexts_mem : [0, Ty.UNIT_CODE] ∈ basicTexts ∧ [0, Ty.BYTE_CODE] ∈ basicTexts ∧ [0, 1] ∈ basicTexts ∧
    [1] ∈ basicTexts := by decide

theorem RTy.plain {H : Hash} {D : Bytes → Prop} (hc : ¬ Collision H D) (hD : ∀ x ∈ basicTexts, D x) {p : RTy}
    (hp : D (p.text H)) : Plain H p := by
  obtain ⟨m1, m2, m3, m4⟩ := basicTexts_mem
  obtain ⟨h1, h2⟩ := p.text_basic H
  refine ⟨?_, ?_, ?_, ?_⟩
  · apply Bool.eq_iff_iff.mpr
    constructor
    · intro h
      rw [RTy.semId_text] at h
      simp only [SemId.isByte, SemId.byte, Ty.semIdUnnamed_eq, Bool.or_eq_true, decide_eq_true_eq] at h
      rcases h with h | h
      · obtain ⟨-, h⟩ := h1 _ (semHash_inj hc (hD _ m2) hp h).symm
        rw [RTy.sem_primitive h (by decide)]
        rfl
      · obtain ⟨-, h⟩ := h1 _ (semHash_inj hc (hD _ m3) hp h).symm
        rw [RTy.sem_primitive h (by decide)]
        rfl
    · intro h
      cases p <;> simp only [RTy.isByte, Bool.false_eq_true, Bool.or_eq_true, decide_eq_true_eq] at h
      simp only [SemId.isByte, SemId.byte, Ty.semIdUnnamed_eq, Bool.or_eq_true, decide_eq_true_eq, RTy.semId, RTy.name,
        RTy.sem, RTy.tyWith, TranspileRef.commitTy_eq]
      rcases h with rfl | rfl
      · exact .inr rfl
      · exact .inl rfl
  · cases e : (p.semId H).isUnicodeChar H with
    | false => rfl
    | true =>
      rw [RTy.semId_text] at e
      simp only [SemId.isUnicodeChar, SemId.unicodeChar, Ty.semIdUnnamed_eq, decide_eq_true_eq] at e
      exact absurd (h2 (semHash_inj hc (hD _ m4) hp e).symm).2 RTy.sem_ne_unicode
  · intro e
    rw [RTy.semId_text] at e
    simp only [SemId.unit, Ty.semIdUnnamed_eq] at e
    exact (h1 _ (semHash_inj hc hp (hD _ m1) e)).2
  · cases e : (SemId.unicodeChar H).isByte H with
    | false => rfl
    | true =>
      simp only [SemId.isByte, SemId.byte, SemId.unicodeChar, Ty.semIdUnnamed_eq, Bool.or_eq_true,
        decide_eq_true_eq] at e
      rcases e with e | e
      · cases semHash_inj hc (hD _ m2) (hD _ m4) e
      · cases semHash_inj hc (hD _ m3) (hD _ m4) e

theorem RTy.letters_charEnum {H : Hash} (p : RTy) :
    ((p.sem H).mapRefs (TranspileRef.id H)).isCharEnum = p.isLetters := by
  cases p with
  | enum lib name vs =>
    apply Bool.eq_iff_iff.mpr
    rw [isCharEnum_iff]
    simp only [RTy.sem, RTy.tyWith, Ty.mapRefs, RTy.isLetters, RTy.letters?, Ty.enum.injEq, exists_eq_left',
      CharVariants, mem_byTag]
    simp
  | record lib name isTuple fs =>
    simp only [RTy.sem, RTy.tyWith, RTy.isLetters, RTy.letters?]
    split
    · rfl
    · split <;> rfl
  | _ => rfl

/-! ### The types in the system -/

/-- The type as the system has it. -/
def RTy.img (H : Hash) (q : RTy) : Ty SemId := (q.sem H).mapRefs (TranspileRef.id H)

theorem RTy.absolute_id (H : Hash) (p : RTy) :
    (absolute H p.lib p.name (p.tyWith (absolute H))).id H = p.semId H := p.absRef_id H

theorem byTag_map {α β : Type} {tag : α → Byte} {tag' : β → Byte} {g : α → β} (h : ∀ a, tag' (g a) = tag a) (l : List α) :
    byTag tag' (l.map g) = (byTag tag l).map g := by
  unfold byTag
  rw [List.map_flatMap]
  congr 1
  funext k
  rw [List.filter_map]
  congr 2
  funext a
  simp [h]

section
variable {H : Hash}

theorem RTy.img_unicode {sz : Sizing} : (RTy.unicode sz).img H = .list (SemId.unicodeChar H) sz := by
  simp [RTy.img, RTy.sem, RTy.tyWith, Ty.mapRefs, TranspileRef.id, SemId.unicodeChar, Ty.semIdUnnamed_eq,
    TranspileRef.commit, TranspileRef.commitTy_eq, Ty.commit]
  rfl

theorem RTy.img_array {t : RTy} {len : BitVec 16} : (RTy.array t len).img H = .array (t.semId H) len := by
  simp [RTy.img, RTy.sem, RTy.tyWith, Ty.mapRefs, RTy.absolute_id]

theorem RTy.img_list {t : RTy} {sz : Sizing} : (RTy.list t sz).img H = .list (t.semId H) sz := by
  simp [RTy.img, RTy.sem, RTy.tyWith, Ty.mapRefs, RTy.absolute_id]

theorem RTy.img_set {t : RTy} {sz : Sizing} : (RTy.set t sz).img H = .set (t.semId H) sz := by
  simp [RTy.img, RTy.sem, RTy.tyWith, Ty.mapRefs, RTy.absolute_id]

theorem RTy.img_map {k t : RTy} {sz : Sizing} : (RTy.map k t sz).img H = .map (k.semId H) (t.semId H) sz := by
  simp [RTy.img, RTy.sem, RTy.tyWith, Ty.mapRefs, RTy.absolute_id]

theorem RTy.img_enum {lib : Name} {name : Option Name} {vs : List Variant} :
    (RTy.enum lib name vs).img H = .enum (byTag Variant.tag vs) := by
  simp [RTy.img, RTy.sem, RTy.tyWith, Ty.mapRefs]

theorem RTy.img_empty {lib : Name} {name : Option Name} {b : Bool} : (RTy.record lib name b []).img H = Ty.UNIT := by
  simp [RTy.img, RTy.sem, RTy.tyWith, Ty.mapRefs]

theorem RTy.img_tuple {lib : Name} {name : Option Name} {fs : List (Option Name × RTy)} (h : fs.isEmpty = false) :
    (RTy.record lib name true fs).img H = .tuple (fs.map fun f => f.2.semId H) := by
  simp only [RTy.img, RTy.sem, RTy.tyWith, h, Bool.false_eq_true, if_false, if_true, Ty.mapRefs, tyWithFields_eq,
    List.map_map, Ty.tuple.injEq]
  exact List.map_congr_left fun f _ => f.2.absolute_id H

theorem RTy.img_struct {lib : Name} {name : Option Name} {fs : List (Option Name × RTy)} (h : fs.isEmpty = false) :
    (RTy.record lib name false fs).img H =
      .struct (fs.filterMap fun f => f.1.map fun n => (n, f.2.semId H)) := by
  simp only [RTy.img, RTy.sem, RTy.tyWith, h, Bool.false_eq_true, if_false, Ty.mapRefs, tyWithFields_eq,
    List.filterMap_map, List.map_filterMap, Ty.struct.injEq]
  congr 1
  funext f
  simp only [Function.comp, Option.map_map]
  congr 1
  funext n
  simp [RTy.absolute_id]

theorem RTy.img_union {lib : Name} {name : Option Name} {vs : List (Variant × RTy)} {w : Nat} :
    (RTy.union lib name vs w).img H =
      .union ((byTag (fun v => v.1.tag) vs).map fun v => (v.1, v.2.semId H)) := by
  simp only [RTy.img, RTy.sem, RTy.tyWith, Ty.mapRefs, tyWithVariants_eq, Ty.union.injEq]
  rw [byTag_map (tag := fun v : Variant × RTy => v.1.tag) (tag' := fun v : Variant × TranspileRef => v.1.tag)
    (g := fun p => (p.1, absolute H p.2.lib p.2.name (p.2.tyWith (absolute H)))) (fun _ => rfl), List.map_map]
  exact List.map_congr_left fun v _ => by simp [RTy.absolute_id]

/-- The id of the tail of a restricted string. -/
def tailId (H : Hash) (c : RTy) (sz : Sizing) : SemId :=
  (TranspileRef.embedded (.list (c.absRef H) ⟨sz.min - 1, sz.max - 1⟩)).id H

theorem RTy.img_rstring {c c1 : RTy} {sz : Sizing} :
    (RTy.rstring c c1 sz).img H = .tuple [c1.semId H, tailId H c sz] := by
  simp only [RTy.img, RTy.sem, RTy.tyWith, Ty.mapRefs, List.map_cons, List.map_nil, RTy.absolute_id, tailId]
  rfl

theorem Holds.find_tail {sys : TypeSystem} {c c1 : RTy} {sz : Sizing} (h : Holds H sys (.rstring c c1 sz)) :
    sys.get (tailId H c sz) = some (.list (c.semId H) ⟨sz.min - 1, sz.max - 1⟩) := by
  have := h.2 (.embedded (.list (c.absRef H) ⟨sz.min - 1, sz.max - 1⟩))
    (List.mem_cons_of_mem _ (List.mem_singleton.mpr rfl)) _ (.here _)
  simp only [Ty.mapRefs, RTy.absRef_id] at this
  exact this

theorem Holds.find_unicode {sys : TypeSystem} {sz : Sizing} (h : Holds H sys (.unicode sz)) :
    sys.get (SemId.unicodeChar H) = some .unicodeChar := by
  have := h.2 (.embedded .unicodeChar) (List.mem_singleton.mpr rfl) _ (.here _)
  have e : (TranspileRef.embedded .unicodeChar).id H = SemId.unicodeChar H := by
    simp [TranspileRef.id, SemId.unicodeChar, Ty.semIdUnnamed_eq, TranspileRef.commit, TranspileRef.commitTy_eq,
      Ty.commit]
    rfl
  rw [e] at this
  exact this

end

/-! ### One layer -/

/-- Writing the value gives these bytes (provided `B`) and reading them gives the value, whatever
follows (provided `A`). -/
def RW (A B : Prop) (w : Out EErr Bytes) (r : Bytes → Out DErr (RdPair Val)) (v : Val) (bs : Bytes) : Prop :=
  (B → w = .ok bs) ∧ ∀ (_ : A) rest, r (bs ++ rest) = .ok (v, rest)

section
variable {wr : Val → SemId → Out EErr Bytes} {rd : SemId → Bytes → Out DErr (RdPair Val)}
variable {E : Env} {A B : Prop}

theorem rw_items {id : SemId} {R : Val → Bytes → Prop} (hR : ∀ v bs, R v bs → RW A B (wr v id) (rd id) v bs) :
    ∀ {l : List Val} {bss : List Bytes}, All2 R l bss → (B → writeItems wr id l = .ok bss.flatten) ∧
      ∀ (_ : A) rest, readItems rd id l.length (bss.flatten ++ rest) = .ok (l, rest)
  | [], [], _ => ⟨fun _ => rfl, fun _ _ => rfl⟩
  | [], _ :: _, h => h.elim
  | _ :: _, [], h => h.elim
  | v :: l, bs :: bss, h => by
    obtain ⟨h1, h2⟩ := hR v bs h.1
    obtain ⟨h3, h4⟩ := rw_items hR h.2
    refine ⟨fun hB => ?_, fun hA rest => ?_⟩
    · simp [writeItems, h1 hB, h3 hB]
    · simp [readItems, List.append_assoc, h2 hA, h4 hA]

theorem rw_pairs {kid id : SemId} {K R : Val → Bytes → Prop} (hK : ∀ v bs, K v bs → RW A B (wr v kid) (rd kid) v bs)
    (hR : ∀ v bs, R v bs → RW A B (wr v id) (rd id) v bs) :
    ∀ {l : List (Val × Val)} {bss : List (Bytes × Bytes)}, All2 (fun p q => K p.1 q.1 ∧ R p.2 q.2) l bss →
      (B → writePairs wr kid id l = .ok (bss.map fun q => q.1 ++ q.2).flatten) ∧
      ∀ (_ : A) rest, readPairs rd kid id l.length ((bss.map fun q => q.1 ++ q.2).flatten ++ rest) = .ok (l, rest)
  | [], [], _ => ⟨fun _ => rfl, fun _ _ => rfl⟩
  | [], _ :: _, h => h.elim
  | _ :: _, [], h => h.elim
  | (k, v) :: l, (a, b) :: bss, h => by
    obtain ⟨k1, k2⟩ := hK k a h.1.1
    obtain ⟨h1, h2⟩ := hR v b h.1.2
    obtain ⟨h3, h4⟩ := rw_pairs hK hR h.2
    refine ⟨fun hB => ?_, fun hA rest => ?_⟩
    · simp [writePairs, k1 hB, h1 hB, h3 hB]
    · simp [readPairs, List.append_assoc, k2 hA, h2 hA, h4 hA]

theorem rw_tuple {H : Hash} : ∀ {fs : List (Option Name × RTy)} {l : List (Option Name × Val)} {bs : Bytes},
    (∀ f ∈ fs, ∀ v bs, f.2.Writes v bs → RW A B (wr v (f.2.semId H)) (rd (f.2.semId H)) v bs) →
    RTy.WritesFields fs l bs → l.length = fs.length ∧
      (B → writeZip wr (l.map Prod.snd) (fs.map fun f => f.2.semId H) = .ok bs) ∧
      ∀ (_ : A) rest, readTuple rd (fs.map fun f => f.2.semId H) (bs ++ rest) = .ok (l.map Prod.snd, rest)
  | [], l, bs, _, h => by
    obtain ⟨rfl, rfl⟩ := h
    exact ⟨rfl, fun _ => rfl, fun _ _ => rfl⟩
  | (n, t) :: fs, l, bs, hR, h => by
    obtain ⟨v, l', a, b, rfl, rfl, h1, h2⟩ := h
    obtain ⟨k1, k2⟩ := hR (n, t) (by simp) v a h1
    obtain ⟨h0, h3, h4⟩ := rw_tuple (fun f hf => hR f (by simp [hf])) h2
    dsimp only at k1 k2
    refine ⟨by simp [h0], fun hB => ?_, fun hA rest => ?_⟩
    · simp [writeZip, k1 hB, h3 hB]
    · simp [readTuple, List.append_assoc, k2 hA, h4 hA]

theorem rw_fields {H : Hash} : ∀ {fs : List (Option Name × RTy)} {l : List (Option Name × Val)} {bs : Bytes}
    {acc : List (Name × Val)},
    (∀ f ∈ fs, ∀ v bs, f.2.Writes v bs → RW A B (wr v (f.2.semId H)) (rd (f.2.semId H)) v bs) →
    (∀ f ∈ fs, f.1 ≠ none) → (acc.map (fun p => some p.1) ++ fs.map Prod.fst).Nodup →
    RTy.WritesFields fs l bs →
      (l.filterMap fun p => p.1.map fun n => (n, p.2)).length =
        (fs.filterMap fun f => f.1.map fun n => (n, f.2.semId H)).length ∧
      (B → writeFields wr (acc ++ l.filterMap fun p => p.1.map fun n => (n, p.2))
        (fs.filterMap fun f => f.1.map fun n => (n, f.2.semId H)) = .ok bs) ∧
      ∀ (_ : A) rest, readFields rd (fs.filterMap fun f => f.1.map fun n => (n, f.2.semId H)) acc (bs ++ rest) =
        .ok (acc ++ l.filterMap fun p => p.1.map fun n => (n, p.2), rest)
  | [], l, bs, acc, _, _, _, h => by
    obtain ⟨rfl, rfl⟩ := h
    exact ⟨rfl, fun _ => rfl, fun _ _ => by simp [readFields]⟩
  | (none, t) :: fs, l, bs, acc, _, hn, _, h => absurd rfl (hn (none, t) (by simp))
  | (some n, t) :: fs, l, bs, acc, hR, hn, hd, h => by
    obtain ⟨v, l', a, b, rfl, rfl, h1, h2⟩ := h
    obtain ⟨k1, k2⟩ := hR (some n, t) (by simp) v a h1
    have hnot : n ∉ acc.map Prod.fst := by
      intro hmem
      obtain ⟨p, hp, rfl⟩ := List.mem_map.mp hmem
      exact (List.nodup_append.mp hd).2.2 _ (List.mem_map.mpr ⟨p, hp, rfl⟩) (some p.1) (by simp) rfl
    obtain ⟨h0, h3, h4⟩ := rw_fields (acc := acc ++ [(n, v)]) (fun f hf => hR f (by simp [hf]))
      (fun f hf => hn f (by simp [hf])) (by simpa using hd) h2
    dsimp only at k1 k2
    have he : ∀ m, acc ++ [(n, v)] ++ m = acc ++ (n, v) :: m := by simp
    rw [he] at h3
    refine ⟨by simpa using h0, fun hB => ?_, fun hA rest => ?_⟩
    · simp [writeFields, imGet_append hnot, k1 hB, h3 hB]
    · have := h4 hA rest
      rw [he] at this
      simp [readFields, List.append_assoc, k2 hA, imInsert_append hnot, this]

/-- Sizes of numbers as declared. -/
def PrimSizes (E : Env) : Prop :=
  (∀ n, 1 ≤ n → n ≤ 16 → E.primSize (BitVec.ofNat 8 n) = n) ∧
  (∀ n, n = 1 ∨ n = 2 ∨ n = 4 ∨ n = 8 ∨ n = 16 → E.primSize (BitVec.ofNat 8 (0x40 + n)) = n) ∧
  E.primSize Ty.BYTE_CODE = 1

theorem rw_prim {p : Byte} {v : Val} {bs : Bytes} (hs : B → PrimSizes E) (hr : A → ReadablePrim p)
    (h : PrimWrites p v bs) :
    RW A B (writePrim E p v) (readPrim p) v bs := by
  have uint : ∀ (n : Nat) (x : BitVec 64), x.toNat < 256 ^ n → n ≤ 8 → ∀ rest,
      readUint n (le n x.toNat ++ rest) = .ok (.num (.uint x), rest) := by
    intro n x hx hn rest
    simp [readUint, readLe_append hx]
  cases h with
  | unit =>
    refine ⟨fun _ => ?_, fun hA rest => rfl⟩
    simp [writePrim, Out.debugAssert, Ty.UNIT_CODE]
  | @uint n x h1 h8 hx =>
    refine ⟨fun hB => ?_, fun hA rest => ?_⟩
    · simp [writePrim, (hs hB).1 n h1 (by omega), leSlice, h8]
    · have : readPrim (BitVec.ofNat 8 n) = readUint n := by
        funext bs
        have : n = 1 ∨ n = 2 ∨ n = 3 ∨ n = 4 ∨ n = 5 ∨ n = 6 ∨ n = 7 ∨ n = 8 := by omega
        rcases this with rfl | rfl | rfl | rfl | rfl | rfl | rfl | rfl <;> rfl
      rw [this]
      exact uint n x hx h8 rest
  | @byte b =>
    have hb : (BitVec.ofNat 64 b.toNat).toNat = b.toNat := by
      have := b.isLt
      simp
      omega
    have hle : le 1 b.toNat = [b] := by simp [le]
    refine ⟨fun hB => ?_, fun hA rest => ?_⟩
    · simp only [writePrim, (hs hB).2.2, leSlice, hb, hle]
      rfl
    · have := uint 1 (BitVec.ofNat 64 b.toNat) (by rw [hb]; exact b.isLt) (by omega) rest
      rw [hb, hle] at this
      exact this
  | @int n x hn ha hb =>
    have h8 : n ≤ 8 := by omega
    refine ⟨fun hB => ?_, fun hA rest => ?_⟩
    · simp [writePrim, (hs hB).2.1 n (by omega), leSlice, h8]
    · have : readPrim (BitVec.ofNat 8 (0x40 + n)) = readInt n := by
        funext bs
        rcases hn with rfl | rfl | rfl | rfl <;> rfl
      rw [this]
      have hlt : x.toNat % 256 ^ n < 256 ^ n := Nat.mod_lt _ (Nat.pow_pos (by decide))
      have := readLe_append hlt rest
      rw [le_mod] at this
      simp only [readInt, this, Out.bind_ok, Out.pure_eq]
      rw [signExtend_le hn ha hb]
  | @bigUint n x h8 h16 hx =>
    refine ⟨fun hB => ?_, fun hA rest => ?_⟩
    · simp [writePrim, (hs hB).1 n (by omega) h16, leSlice, show n ≤ 128 by omega]
    · have := hr hA
      rw [ReadablePrim, BitVec.toNat_ofNat] at this
      omega
  | bigInt ha hb =>
    refine ⟨fun hB => ?_, fun hA rest => ?_⟩
    · simp [writePrim, (hs hB).2.1 16 (by omega), leSlice]
    · exact absurd (hr hA) (by unfold ReadablePrim; decide)

end

/-! ### Everything embedded -/

theorem unicode_id {H : Hash} : (TranspileRef.embedded .unicodeChar).id H = SemId.unicodeChar H := by
  simp [TranspileRef.id, SemId.unicodeChar, Ty.semIdUnnamed_eq, TranspileRef.commit, TranspileRef.commitTy_eq,
    Ty.commit]
  rfl

/-- As `RTy.nested`, of types without names. -/
theorem RTy.nested_unnamed {H : Hash} : ∀ q : RTy, ∀ r ∈ (q.sem H).refs, ∀ t, r.Nests t →
    ∃ p, q.Contains p ∧ p.name = none ∧ p.Entry H ((TranspileRef.embedded t).id H) (t.mapRefs (TranspileRef.id H)) := by
  refine RTy.induct fun q ih r hr t ht => ?_
  have habs : ∀ p ∈ q.parts, (p.absRef H).Nests t →
      ∃ p, q.Contains p ∧ p.name = none ∧ p.Entry H ((TranspileRef.embedded t).id H) (t.mapRefs (TranspileRef.id H)) := by
    intro p hp ht
    cases e : p.name with
    | some n =>
      unfold RTy.absRef absolute at ht
      rw [e] at ht
      exact absurd ht TranspileRef.not_nests_extern
    | none =>
      have hid := RTy.absRef_id H p
      rw [RTy.absRef_none e] at ht hid
      cases ht with
      | here =>
        refine ⟨p, .step hp (.refl _), e, ?_⟩
        rw [hid]
        exact .self p
      | deep hm hn =>
        obtain ⟨s, hs, hn, he⟩ := ih p hp _ hm _ hn
        exact ⟨s, .step hp hs, hn, he⟩
  rcases RTy.tyWith_refs_exact hr with ⟨p, hp, hr⟩ | ⟨rfl, sz, rfl⟩ | ⟨c, c1, sz, rfl, rfl⟩
  · rw [hr] at ht
    exact habs p hp ht
  · cases ht with
    | here =>
      refine ⟨_, .refl _, rfl, ?_⟩
      rw [unicode_id]
      exact .char sz
    | deep hm => simp [Ty.refs] at hm
  · cases ht with
    | here =>
      refine ⟨_, .refl _, rfl, ?_⟩
      have := RTy.Entry.tail (H := H) c c1 sz
      simp only [Ty.mapRefs, RTy.absolute_id]
      exact this
    | deep hm hn =>
      simp only [Ty.refs, List.mem_singleton] at hm
      subst hm
      exact habs c (by simp [RTy.parts]) hn

theorem RTy.nested {H : Hash} (q : RTy) (r : TranspileRef) (hr : r ∈ (q.sem H).refs) (t : Ty TranspileRef) (ht : r.Nests t) :
    ∃ p, q.Contains p ∧ p.Entry H ((TranspileRef.embedded t).id H) (t.mapRefs (TranspileRef.id H)) := by
  obtain ⟨p, h, -, he⟩ := q.nested_unnamed r hr t ht
  exact ⟨p, h, he⟩

/-- The text of a type embedded in a Rust type. -/
theorem RTy.nested_text {H : Hash} : ∀ q : RTy, ∀ r ∈ (q.sem H).refs, ∀ t, r.Nests t →
    (∃ p, q.Contains p ∧ ∃ d ∈ p.described, TranspileRef.commitTy t = d.text H) ∨ TranspileRef.commitTy t = [1] := by
  refine RTy.induct fun q ih r hr t ht => ?_
  have habs : ∀ p ∈ q.parts, (p.absRef H).Nests t →
      (∃ p, q.Contains p ∧ ∃ d ∈ p.described, TranspileRef.commitTy t = d.text H) ∨ TranspileRef.commitTy t = [1] := by
    intro p hp ht
    cases e : p.name with
    | some n =>
      unfold RTy.absRef absolute at ht
      rw [e] at ht
      exact absurd ht TranspileRef.not_nests_extern
    | none =>
      rw [RTy.absRef_none e] at ht
      cases ht with
      | here => exact .inl ⟨p, .step hp (.refl _), p, mem_described p, by rw [RTy.text, e]⟩
      | deep hm hn =>
        rcases ih p hp _ hm _ hn with ⟨s, hs, h⟩ | h
        · exact .inl ⟨s, .step hp hs, h⟩
        · exact .inr h
  rcases RTy.tyWith_refs_exact hr with ⟨p, hp, hr⟩ | ⟨rfl, sz, rfl⟩ | ⟨c, c1, sz, rfl, rfl⟩
  · rw [hr] at ht
    exact habs p hp ht
  · cases ht with
    | here => exact .inr rfl
    | deep hm => simp [Ty.refs] at hm
  · cases ht with
    | here =>
      exact .inl ⟨_, .refl _, .list c ⟨sz.min - 1, sz.max - 1⟩, by simp [RTy.described], rfl⟩
    | deep hm hn =>
      simp only [Ty.refs, List.mem_singleton] at hm
      subst hm
      exact habs c (by simp [RTy.parts]) hn

theorem fields_nodup {H : Hash} : ∀ {fs : List (Option Name × RTy)}, (∀ f ∈ fs, f.1 ≠ none) →
    (fs.map Prod.fst).Nodup → ((fs.filterMap fun f => f.1.map fun n => (n, f.2.semId H)).map Prod.fst).Nodup
  | [], _, _ => by simp
  | (none, t) :: fs, hn, _ => absurd rfl (hn (none, t) (by simp))
  | (some n, t) :: fs, hn, hd => by
    simp only [List.map_cons, List.nodup_cons] at hd
    have ih := fields_nodup (H := H) (fun f hf => hn f (by simp [hf])) hd.2
    simp only [List.filterMap_cons, Option.map_some, List.map_cons, List.nodup_cons]
    refine ⟨fun hm => hd.1 ?_, ih⟩
    obtain ⟨p, hp, rfl⟩ := List.mem_map.mp hm
    obtain ⟨f, hf, e⟩ := List.mem_filterMap.mp hp
    rw [Option.map_eq_some_iff] at e
    obtain ⟨m, hfm, rfl⟩ := e
    exact List.mem_map.mpr ⟨f, hf, hfm⟩

end Verif
