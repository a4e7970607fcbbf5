import Verif.Spec.Growth
import Verif.Lemmas.Canon
import Verif.Lemmas.RoundTrip

/-! # Reading and writing with extended types -/

namespace Verif

variable {E F : Env} {Q : SemId → SemId → Prop}

/-! ## Outcomes which are the same, except for one -/

/-- The outcomes are the same, or the first one is `bad`. -/
def Out.Upto {ε : Type} (bad : ∀ {α : Type}, Out ε α) {α : Type} (a b : Out ε α) : Prop := a = b ∨ a = bad

theorem Out.Upto.refl {ε : Type} {bad : ∀ {α : Type}, Out ε α} {α : Type} (a : Out ε α) : Out.Upto bad a a := .inl rfl

theorem Out.Upto.bind {ε : Type} {bad : ∀ {α : Type}, Out ε α} (hb : ∀ {α β : Type} (f : α → Out ε β), (bad >>= f) = bad)
    {α β : Type} {a b : Out ε α} {f g : α → Out ε β} (h : Out.Upto bad a b) (hf : ∀ x, Out.Upto bad (f x) (g x)) :
    Out.Upto bad (a >>= f) (b >>= g) := by
  rcases h with rfl | rfl
  · cases a with
    | ok x => exact hf x
    | err e => exact .inl rfl
    | panic => exact .inl rfl
    | diverge => exact .inl rfl
  · exact .inr (hb f)

theorem upto_tag {α β : Type} {a b : Out DErr α} {f g : α → Out DErr β} (h : Out.Upto (.err .enumTag) a b)
    (hf : ∀ x, Out.Upto (.err .enumTag) (f x) (g x)) : Out.Upto (.err .enumTag) (a >>= f) (b >>= g) :=
  Out.Upto.bind (fun _ => rfl) h hf

theorem upto_panic {α β : Type} {a b : Out EErr α} {f g : α → Out EErr β} (h : Out.Upto .panic a b)
    (hf : ∀ x, Out.Upto .panic (f x) (g x)) : Out.Upto .panic (a >>= f) (b >>= g) :=
  Out.Upto.bind (fun _ => rfl) h hf

/-! ## Parts -/

theorem Sizing.Grows.byteSize {a b : Sizing} (h : a.Grows b) : a.byteSize = b.byteSize := by
  rw [byteSize_eq, byteSize_eq, h.2.2.1]

theorem Ty.Grows.isCharEnum {t u : Ty SemId} (h : t.Grows E F Q u) : t.isCharEnum = u.isCharEnum := by
  cases h with
  | enum _ h =>
    rw [Bool.eq_iff_iff, isCharEnum_iff, isCharEnum_iff]
    constructor
    · rintro ⟨_, hq, hc⟩
      cases hq
      exact ⟨_, rfl, h.mp hc⟩
    · rintro ⟨_, hq, hc⟩
      cases hq
      exact ⟨_, rfl, h.mpr hc⟩
  | _ => rfl

theorem grows_chars (hg : E.Grows F Q) {i j : SemId} (h : Q i j) {C : List Variant} :
    (E.CharEnum i C → ∃ D, F.CharEnum j D ∧ ∀ v ∈ C, v ∈ D) := by
  rintro ⟨h1, h2⟩
  obtain ⟨t, u, ht, hu, hgr⟩ := hg.types i j h
  cases h1.symm.trans ht
  cases hgr with
  | enum hs hc => exact ⟨_, ⟨hu, hc.mp h2⟩, hs⟩

theorem grows_chars_back (hg : E.Grows F Q) {i j : SemId} (h : Q i j) {D : List Variant} (h' : F.CharEnum j D) :
    ∃ C, E.CharEnum i C := by
  obtain ⟨h1, h2⟩ := h'
  obtain ⟨t, u, ht, hu, hgr⟩ := hg.types i j h
  cases h1.symm.trans hu
  cases hgr with
  | enum hs hc => exact ⟨_, ht, hc.mpr h2⟩

theorem grows_rstring (hg : E.Grows F Q) {ids jds : List SemId} (h : All2 Q ids jds) {A C : List Variant} {sz : Sizing}
    (hr : E.RString ids A C sz) : ∃ A' C' sz', F.RString jds A' C' sz' ∧ sz.Grows sz' ∧ (∀ v ∈ A, v ∈ A') ∧ ∀ v ∈ C, v ∈ C' := by
  obtain ⟨a, b, c, rfl, ha, hA, hb, hc, hC⟩ := hr
  match jds, h with
  | [a', b'], ⟨h1, h2, _⟩ =>
    obtain ⟨A', ⟨ha', hA'⟩, hAA⟩ := grows_chars hg h1 ⟨ha, hA⟩
    obtain ⟨t, u, ht, hu, hgr⟩ := hg.types b b' h2
    cases hb.symm.trans ht
    cases hgr with
    | @list _ c' _ sz' hq _ _ hsz =>
      obtain ⟨C', ⟨hc', hC'⟩, hCC⟩ := grows_chars hg hq ⟨hc, hC⟩
      exact ⟨A', C', sz', ⟨a', b', c', rfl, ha', hA', hu, hc', hC'⟩, hsz, hAA, hCC⟩
  | [], h => exact h.elim
  | [_], h => exact h.2.elim
  | _ :: _ :: _ :: _, h => exact h.2.2.elim

theorem grows_rstring_back (hg : E.Grows F Q) {ids jds : List SemId} (h : All2 Q ids jds) {A C : List Variant} {sz : Sizing}
    (hr : F.RString jds A C sz) : ∃ A' C' sz', E.RString ids A' C' sz' := by
  obtain ⟨a, b, c, rfl, ha, hA, hb, hc, hC⟩ := hr
  match ids, h with
  | [a', b'], ⟨h1, h2, _⟩ =>
    obtain ⟨A', ha', hA'⟩ := grows_chars_back hg h1 ⟨ha, hA⟩
    obtain ⟨t, u, ht, hu, hgr⟩ := hg.types b' b h2
    cases hb.symm.trans hu
    cases hgr with
    | list hq _ _ hsz =>
      obtain ⟨C', hc', hC'⟩ := grows_chars_back hg hq ⟨hc, hC⟩
      exact ⟨A', C', _, a', b', _, rfl, ha', hA', ht, hc', hC'⟩
  | [], h => exact h.elim
  | [_], h => exact h.2.elim
  | _ :: _ :: _ :: _, h => exact h.2.2.elim

/-- Whether tuples are restricted strings, and how long a length then is. -/
theorem grows_isRString (hg : E.Grows F Q) {ids jds : List SemId} (h : All2 Q ids jds)
    (hw : ∀ A C sz A' C' sz', E.RString ids A C sz → F.RString jds A' C' sz' →
      prefixWidth (sz.max.toNat + 1) = prefixWidth (sz'.max.toNat + 1)) :
    (E.isRString ids = .ok false ∧ F.isRString jds = .ok false) ∨
    (E.isRString ids = .ok true ∧ F.isRString jds = .ok true ∧ ∃ c sz c' sz', E.rstringSizing ids = .ok (some (c, sz)) ∧
      F.rstringSizing jds = .ok (some (c', sz')) ∧ sz.byteSize = sz'.byteSize ∧ sz.max.toNat ≤ sz'.max.toNat) := by
  have hmem : ∀ {ids jds : List SemId}, All2 Q ids jds → (∀ r ∈ ids, ∃ u, E.find r = some u) ∧ ∀ r ∈ jds, ∃ u, F.find r = some u := by
    intro ids
    induction ids with
    | nil =>
      intro jds h
      cases jds with
      | nil => simp
      | cons => exact h.elim
    | cons i ids ih =>
      intro jds h
      cases jds with
      | nil => exact h.elim
      | cons j jds =>
        obtain ⟨t, u, ht, hu, -⟩ := hg.types i j h.1
        obtain ⟨h1, h2⟩ := ih h.2
        constructor
        · intro r hr
          rcases List.mem_cons.mp hr with rfl | hr
          · exact ⟨_, ht⟩
          · exact h1 r hr
        · intro r hr
          rcases List.mem_cons.mp hr with rfl | hr
          · exact ⟨_, hu⟩
          · exact h2 r hr
  by_cases hr : ∃ A C sz, E.RString ids A C sz
  · right
    obtain ⟨A, C, sz, hr⟩ := hr
    obtain ⟨A', C', sz', hr', hsz, -, -⟩ := grows_rstring hg h hr
    obtain ⟨g1, g2, g3, g4, g5⟩ := hsz
    obtain ⟨h1, c, h2⟩ := isRString_true hr (.inr ⟨g4, by omega⟩)
    obtain ⟨h3, c', h4⟩ := isRString_true hr' (.inr ⟨by omega, g5⟩)
    refine ⟨h1, h3, c, _, c', _, h2, h4, ?_, ?_⟩
    · rw [byteSize_eq, byteSize_eq]
      show prefixWidth (sz.max + 1).toNat = prefixWidth (sz'.max + 1).toNat
      rw [succ_toNat (by omega), succ_toNat g5]
      exact hw _ _ _ _ _ _ hr hr'
    · show (sz.max + 1).toNat ≤ (sz'.max + 1).toNat
      rw [succ_toNat (by omega), succ_toNat g5]
      omega
  · left
    constructor
    · refine isRString_false (fun A C sz h => hr ⟨A, C, sz, h⟩) (hmem h).1 fun a b hab c sz hb => ?_
      subst hab
      match jds, h with
      | [a', b'], ⟨_, h2, _⟩ =>
        obtain ⟨t, u, ht, hu, hgr⟩ := hg.types b b' h2
        cases hb.symm.trans ht
        cases hgr with
        | list hq _ _ hsz =>
          obtain ⟨g1, g2, g3, g4, g5⟩ := hsz
          obtain ⟨t, u, ht, hu, -⟩ := hg.types _ _ hq
          exact ⟨⟨_, ht⟩, .inr ⟨g4, by omega⟩⟩
      | [], h => exact h.elim
      | [_], h => exact h.2.elim
      | _ :: _ :: _ :: _, h => exact h.2.2.elim
    · refine isRString_false (fun A C sz h' => hr (grows_rstring_back hg h h')) (hmem h).2 fun a b hab c sz hb => ?_
      subst hab
      match ids, h with
      | [a', b'], ⟨_, h2, _⟩ =>
        obtain ⟨t, u, ht, hu, hgr⟩ := hg.types b' b h2
        cases hb.symm.trans hu
        cases hgr with
        | list hq _ _ hsz =>
          obtain ⟨g1, g2, g3, g4, g5⟩ := hsz
          obtain ⟨t, u, ht, hu, -⟩ := hg.types _ _ hq
          exact ⟨⟨_, hu⟩, .inr ⟨by omega, g5⟩⟩
      | [], h => exact h.elim
      | [_], h => exact h.2.elim
      | _ :: _ :: _ :: _, h => exact h.2.2.elim

/-! ## Reading -/

section
variable {rec rec' : SemId → Bytes → Out DErr (RdPair Val)}

theorem grows_readItems {i j : SemId} (h : ∀ bs, Out.Upto (.err .enumTag) (rec i bs) (rec' j bs)) : ∀ (n : Nat) (bs : Bytes),
    Out.Upto (.err .enumTag) (readItems rec i n bs) (readItems rec' j n bs)
  | 0, _ => .refl _
  | n + 1, bs => by
    unfold readItems
    exact upto_tag (h bs) fun x => upto_tag (grows_readItems h n x.2) fun y => .refl _

theorem grows_readPairs {k i l j : SemId} (h : ∀ bs, Out.Upto (.err .enumTag) (rec k bs) (rec' l bs))
    (h' : ∀ bs, Out.Upto (.err .enumTag) (rec i bs) (rec' j bs)) : ∀ (n : Nat) (bs : Bytes),
    Out.Upto (.err .enumTag) (readPairs rec k i n bs) (readPairs rec' l j n bs)
  | 0, _ => .refl _
  | n + 1, bs => by
    unfold readPairs
    exact upto_tag (h bs) fun x => upto_tag (h' x.2) fun y => upto_tag (grows_readPairs h h' n y.2) fun z => .refl _

theorem grows_readTuple (hq : ∀ i j bs, Q i j → Out.Upto (.err .enumTag) (rec i bs) (rec' j bs)) :
    ∀ {ids jds : List SemId} (_ : All2 Q ids jds) (bs : Bytes),
      Out.Upto (.err .enumTag) (readTuple rec ids bs) (readTuple rec' jds bs)
  | [], [], _, _ => .refl _
  | i :: ids, j :: jds, h, bs => by
    unfold readTuple
    exact upto_tag (hq i j bs h.1) fun x => upto_tag (grows_readTuple hq h.2 x.2) fun y => .refl _
  | [], _ :: _, h, _ => h.elim
  | _ :: _, [], h, _ => h.elim

theorem grows_readFields (hq : ∀ i j bs, Q i j → Out.Upto (.err .enumTag) (rec i bs) (rec' j bs)) :
    ∀ {fs gs : List (Name × SemId)} (_ : All2 (fun f g => f.1 = g.1 ∧ Q f.2 g.2) fs gs) (acc : List (Name × Val)) (bs : Bytes),
      Out.Upto (.err .enumTag) (readFields rec fs acc bs) (readFields rec' gs acc bs)
  | [], [], _, _, _ => .refl _
  | (n, i) :: fs, (m, j) :: gs, h, acc, bs => by
    obtain ⟨⟨rfl, h1⟩, h2⟩ := h
    unfold readFields
    exact upto_tag (hq i j bs h1) fun x => grows_readFields hq h2 _ x.2
  | [], _ :: _, h, _, _ => h.elim
  | _ :: _, [], h, _, _ => h.elim

theorem grows_readTy (hg : E.Grows F Q) (hs : E.Sane) (hs' : F.Sane)
    (hq : ∀ i j bs, Q i j → Out.Upto (.err .enumTag) (rec i bs) (rec' j bs)) {i j : SemId} {t u : Ty SemId}
    (ht : E.find i = some t) (hu : F.find j = some u) (h : t.Grows E F Q u) (bs : Bytes) :
    Out.Upto (.err .enumTag) (readTy rec E i t bs) (readTy rec' F j u bs) := by
  have hwf := hs.wf _ _ ht
  have hwf' := hs'.wf _ _ hu
  cases h with
  | primitive => exact .refl _
  | unicodeChar => exact .refl _
  | @enum vs us hm _ =>
    refine upto_tag (.refl _) fun x => ?_
    cases hn : Ty.enumNameByTag vs (BitVec.ofNat 8 x.1) with
    | none => exact .inr (by simp only [hn])
    | some n =>
      have hn' := (enumNameByTag_iff hwf' _ _).mpr (hm _ ((enumNameByTag_iff hwf _ _).mp hn))
      exact .inl (by simp only [hn, hn'])
  | @union vs us hm =>
    refine upto_tag (.refl _) fun x => ?_
    cases hn : Ty.unionByTag vs (BitVec.ofNat 8 x.1) with
    | none => exact .inr (by simp only [hn])
    | some p =>
      obtain ⟨h1, h2⟩ := (unionByTag_iff hwf _ _).mp hn
      obtain ⟨k, h3, h4⟩ := hm _ h1
      have hn' := (unionByTag_iff hwf' (p.1, k) _).mpr ⟨h3, h2⟩
      simp only [hn, hn']
      exact upto_tag (hq _ _ _ h4) fun y => .refl _
  | tuple ha hw =>
    simp only [readTy, readTupleTy]
    rcases grows_isRString hg ha hw with ⟨h1, h2⟩ | ⟨h1, h2, c, sz, c', sz', h3, h4, h5, -⟩
    · simp only [h1, h2, ofUnknown, Out.mapErr, Out.bind_ok]
      exact upto_tag (grows_readTuple hq ha bs) fun x => .refl _
    · simp only [h1, h2, h3, h4, ofUnknown, Out.mapErr, Out.bind_ok, if_true, h5]
      exact .refl _
  | struct ha => exact upto_tag (grows_readFields hq ha [] bs) fun x => .refl _
  | array h1 h2 _ =>
    simp only [readTy, h2]
    split
    · exact .refl _
    · exact upto_tag (grows_readItems (fun bs => hq _ _ bs h1) _ bs) fun x => .refl _
  | @list i' j' sz sz' h1 h2 h3 h4 =>
    obtain ⟨t', u', ht', hu', hg'⟩ := hg.types _ _ h1
    have hmax : sz.max.toNat ≤ 0xffffffff ↔ sz'.max.toNat ≤ 0xffffffff := by
      have := h4.2.2.1
      unfold prefixWidth at this
      constructor <;> intro h <;> (revert this; repeat' split) <;> omega
    simp only [readTy, readList, ht', hu', hg'.isCharEnum, h2, h3, h4.byteSize, hmax]
    split
    · exact .refl _
    split
    · exact .refl _
    split
    · exact .refl _
    · refine upto_tag ?_ fun x => .refl _
      unfold readSeq
      refine upto_tag (.refl _) fun x => ?_
      simp only [hg.valSize]
      exact upto_tag (.refl _) fun _ => grows_readItems (fun bs => hq _ _ bs h1) _ _
  | set h1 h4 =>
    simp only [readTy, h4.byteSize]
    refine upto_tag ?_ fun x => .refl _
    unfold readSeq
    refine upto_tag (.refl _) fun x => ?_
    simp only [hg.valSize]
    exact upto_tag (.refl _) fun _ => grows_readItems (fun bs => hq _ _ bs h1) _ _
  | map h1 h2 h4 =>
    simp only [readTy, h4.byteSize]
    refine upto_tag ?_ fun x => .refl _
    unfold readMapSeq
    refine upto_tag (.refl _) fun x => ?_
    simp only [hg.valSize]
    exact upto_tag (.refl _) fun _ => grows_readPairs (fun bs => hq _ _ bs h1) (fun bs => hq _ _ bs h2) _ _

end

theorem grows_read (hg : E.Grows F Q) (hs : E.Sane) (hs' : F.Sane) : ∀ (n : Nat) (i j : SemId) (bs : Bytes), Q i j →
    Out.Upto (.err .enumTag) (read E n i bs) (read F n j bs)
  | 0, _, _, _, _ => .refl _
  | n + 1, i, j, bs, h => by
    obtain ⟨t, u, ht, hu, hgr⟩ := hg.types i j h
    simp only [read, ht, hu]
    exact grows_readTy hg hs hs' (fun i j bs h => grows_read hg hs hs' n i j bs h) ht hu hgr bs

/-! ## Writing -/

section
variable {rec rec' : Val → SemId → Out EErr Bytes}

theorem grows_writeItems {i j : SemId} (h : ∀ v, Out.Upto .panic (rec v i) (rec' v j)) : ∀ (l : List Val),
    Out.Upto .panic (writeItems rec i l) (writeItems rec' j l)
  | [] => .refl _
  | v :: l => by
    unfold writeItems
    exact upto_panic (h v) fun x => upto_panic (grows_writeItems h l) fun y => .refl _

theorem grows_writePairs {k i l j : SemId} (h : ∀ v, Out.Upto .panic (rec v k) (rec' v l))
    (h' : ∀ v, Out.Upto .panic (rec v i) (rec' v j)) : ∀ (m : List (Val × Val)),
    Out.Upto .panic (writePairs rec k i m) (writePairs rec' l j m)
  | [] => .refl _
  | (a, b) :: m => by
    unfold writePairs
    exact upto_panic (h a) fun x => upto_panic (h' b) fun y => upto_panic (grows_writePairs h h' m) fun z => .refl _

theorem grows_writeZip (hq : ∀ v i j, Q i j → Out.Upto .panic (rec v i) (rec' v j)) :
    ∀ (l : List Val) {ids jds : List SemId} (_ : All2 Q ids jds), Out.Upto .panic (writeZip rec l ids) (writeZip rec' l jds)
  | [], _, _, _ => by simp only [writeZip]; exact .refl _
  | _ :: _, [], [], _ => .refl _
  | v :: l, i :: ids, j :: jds, h => by
    unfold writeZip
    exact upto_panic (hq v i j h.1) fun x => upto_panic (grows_writeZip hq l h.2) fun y => .refl _
  | _ :: _, [], _ :: _, h => h.elim
  | _ :: _, _ :: _, [], h => h.elim

theorem grows_writeFields (hq : ∀ v i j, Q i j → Out.Upto .panic (rec v i) (rec' v j)) (vals : List (Name × Val)) :
    ∀ {fs gs : List (Name × SemId)} (_ : All2 (fun f g => f.1 = g.1 ∧ Q f.2 g.2) fs gs),
      Out.Upto .panic (writeFields rec vals fs) (writeFields rec' vals gs)
  | [], [], _ => .refl _
  | (n, i) :: fs, (m, j) :: gs, h => by
    obtain ⟨⟨h0, h1⟩, h2⟩ := h
    dsimp only at h0
    subst h0
    unfold writeFields
    split
    · exact .refl _
    · exact upto_panic (hq _ i j h1) fun x => upto_panic (grows_writeFields hq vals h2) fun y => .refl _
  | [], _ :: _, h => h.elim
  | _ :: _, [], h => h.elim

theorem upto_assert {debug a b : Bool} (h : a = true → b = true) :
    Out.Upto .panic (Out.debugAssert (ε := EErr) debug a) (Out.debugAssert debug b) := by
  unfold Out.debugAssert
  cases debug <;> cases a <;> cases b <;> simp_all [Out.Upto]

theorem upto_expect {α : Type} {R : α → α → Prop} {a b : Option α} {f g : α → Out EErr Bytes}
    (h : ∀ x, a = some x → ∃ y, b = some y ∧ R x y) (hf : ∀ x y, R x y → Out.Upto .panic (f x) (g y)) :
    Out.Upto .panic (Out.expect a >>= f) (Out.expect b >>= g) := by
  cases a with
  | none => exact .inr rfl
  | some x =>
    obtain ⟨y, rfl, hr⟩ := h x rfl
    exact hf x y hr

theorem grows_writeTy (hg : E.Grows F Q) (hs : E.Sane) (hs' : F.Sane)
    (hq : ∀ v i j, Q i j → Out.Upto .panic (rec v i) (rec' v j)) {i j : SemId} {t u : Ty SemId}
    (ht : E.find i = some t) (hu : F.find j = some u) (h : t.Grows E F Q u) (v : Val) :
    Out.Upto .panic (writeTy rec E v t) (writeTy rec' F v u) := by
  have hwf := hs.wf _ _ ht
  have hwf' := hs'.wf _ _ hu
  cases h with
  | primitive =>
    refine .inl ?_
    cases v with
    | num n => cases n <;> simp only [writeTy, writePrim, hg.primSize]
    | _ => simp only [writeTy, writePrim, hg.debug]
  | unicodeChar => exact .inl (by simp only [writeTy, hg.debug])
  | @enum vs us hm _ =>
    cases v with
    | enum tag =>
      cases tag with
      | ord t =>
        simp only [writeTy, writeEnum, hg.debug]
        refine upto_panic (upto_assert fun h => ?_) fun _ => .refl _
        simp only [Ty.enumHasTag, List.any_eq_true] at h ⊢
        obtain ⟨x, hx, hxt⟩ := h
        exact ⟨x, hm x hx, hxt⟩
      | name n =>
        simp only [writeTy, writeEnum]
        refine upto_expect (R := Eq) (fun t h => ⟨t, ?_, rfl⟩) ?_
        · exact (enumTagByName_iff hwf' _ _).mpr (hm _ ((enumTagByName_iff hwf _ _).mp h))
        · rintro x y rfl
          exact .refl _
    | _ => exact .refl _
  | @union vs us hm =>
    cases v with
    | union tag v =>
      cases tag with
      | ord t =>
        simp only [writeTy, writeUnion]
        refine upto_expect (R := Q) (fun k h => ?_) fun x y h => upto_panic (hq _ _ _ h) fun _ => .refl _
        obtain ⟨p, hp, rfl⟩ := Option.map_eq_some_iff.mp h
        obtain ⟨h1, h2⟩ := (unionByTag_iff hwf _ _).mp hp
        obtain ⟨l, h3, h4⟩ := hm _ h1
        exact ⟨l, Option.map_eq_some_iff.mpr ⟨(p.1, l), (unionByTag_iff hwf' _ _).mpr ⟨h3, h2⟩, rfl⟩, h4⟩
      | name n =>
        simp only [writeTy, writeUnion]
        refine upto_expect (R := fun p q => p.1 = q.1 ∧ Q p.2 q.2) (fun p h => ?_) fun x y h => ?_
        · obtain ⟨h1, h2⟩ := (unionByName_iff hwf _ _).mp h
          obtain ⟨l, h3, h4⟩ := hm _ h1
          exact ⟨(p.1, l), (unionByName_iff hwf' _ _).mpr ⟨h3, h2⟩, rfl, h4⟩
        · rw [h.1]
          exact upto_panic (hq _ _ _ h.2) fun _ => .refl _
    | _ => exact .refl _
  | tuple ha hw =>
    cases v with
    | tuple l =>
      simp only [writeTy, writeTuple, hg.debug, all2_length ha]
      exact upto_panic (.refl _) fun _ => grows_writeZip hq l ha
    | str s =>
      simp only [writeTy, writeTuple]
      split
      · rcases grows_isRString hg ha hw with ⟨h1, h2⟩ | ⟨h1, h2, c, sz, c', sz', h3, h4, h5, h6⟩
        · simp only [h1, h2]
          exact .refl _
        · simp only [h1, h2, h3, h4, h5, hg.debug]
          refine upto_panic (upto_assert fun h => ?_) fun _ => .refl _
          have := of_decide_eq_true h
          exact decide_eq_true (by omega)
      · exact .refl _
    | _ => exact .refl _
  | struct ha =>
    cases v with
    | struct fs =>
      simp only [writeTy, writeStruct, hg.debug, all2_length ha]
      exact upto_panic (.refl _) fun _ => grows_writeFields hq fs ha
    | _ => exact .refl _
  | array h1 h2 _ =>
    refine .inl ?_
    cases v <;> simp only [writeTy, writeArray, hg.debug]
  | list h1 _ _ h4 =>
    cases v with
    | list l =>
      simp only [writeTy, writeList, h4.byteSize]
      exact upto_panic (grows_writeItems (fun v => hq v _ _ h1) l) fun _ => .refl _
    | _ => exact .inl (by simp only [writeTy, writeList, h4.byteSize])
  | set h1 h4 =>
    cases v with
    | set l =>
      simp only [writeTy, writeSet, h4.byteSize]
      exact upto_panic (grows_writeItems (fun v => hq v _ _ h1) l) fun _ => .refl _
    | _ => exact .refl _
  | map h1 h2 h4 =>
    cases v with
    | map l =>
      simp only [writeTy, writeMap, h4.byteSize]
      exact upto_panic (grows_writePairs (fun v => hq v _ _ h1) (fun v => hq v _ _ h2) l) fun _ => .refl _
    | _ => exact .refl _

end

theorem grows_write (hg : E.Grows F Q) (hs : E.Sane) (hs' : F.Sane) : ∀ (n : Nat) (v : Val) (i j : SemId), Q i j →
    Out.Upto .panic (write E n v i) (write F n v j)
  | 0, _, _, _, _ => .refl _
  | n + 1, v, i, j, h => by
    obtain ⟨t, u, ht, hu, hgr⟩ := hg.types i j h
    simp only [write, hs.typeOf ht, hs'.typeOf hu]
    exact grows_writeTy hg hs hs' (fun v i j h => grows_write hg hs hs' n v i j h) ht hu hgr v

/-! ## Values -/

theorem grows_inhabits (hg : E.Grows F Q) {T U : Val → SemId → Prop} (hq : ∀ v i j, Q i j → T v i → U v j) {t u : Ty SemId}
    (h : t.Grows E F Q u) {v : Val} (hv : Inhabits E true T v t) : Inhabits F true U v u := by
  have size : ∀ {a b : Sizing} {n : Nat}, a.Grows b → SizeOk true a.min.toNat a.max.toNat n → SizeOk true b.min.toNat b.max.toNat n := by
    intro a b n h hn
    simp only [SizeOk, if_true] at hn ⊢
    exact ⟨Nat.le_trans h.1 hn.1, Nat.le_trans hn.2 h.2.1⟩
  have chars : ∀ {C D : List Variant} {s : Bytes}, (∀ v ∈ C, v ∈ D) → (∀ b ∈ s, CharOk true C b) → ∀ b ∈ s, CharOk true D b := by
    intro C D s h hs b hb
    have := hs b hb
    simp only [CharOk, if_true] at this ⊢
    obtain ⟨v, h1, h2⟩ := this
    exact ⟨v, h v h1, h2⟩
  cases h with
  | primitive =>
    generalize ht : Ty.primitive _ = t at hv
    cases hv <;> cases ht
    · exact .unit
    · exact .uint ‹_› ‹_› ‹_›
    · exact .byte ‹_›
    · exact .int ‹_› ‹_› ‹_› ‹_›
    · exact .bigUint ‹_› ‹_› (by rw [← hg.primSize]; assumption)
    · rename_i h1 h2 h3 h4
      rw [hg.primSize] at h3 h4
      exact .bigInt h1 h2 h3 h4
  | unicodeChar => cases hv with | unicodeChar h => exact .unicodeChar h
  | enum hm _ => cases hv with | enum h => exact .enum (hm _ h)
  | union hm =>
    cases hv with
    | union h hv =>
      obtain ⟨j, h1, h2⟩ := hm _ h
      exact .union h1 (hq _ _ _ h2 hv)
  | tuple ha hw =>
    cases hv with
    | tuple hn hv =>
      refine .tuple (fun A C sz hr => ?_) ?_
      · obtain ⟨_, _, _, hr⟩ := grows_rstring_back hg ha hr
        exact hn _ _ _ hr
      · clear hw hn
        rename_i ids jds l
        induction ids generalizing l jds with
        | nil =>
          cases l <;> cases jds <;> first | exact trivial | exact hv.elim | exact ha.elim
        | cons i ids ih =>
          cases l with
          | nil => exact hv.elim
          | cons v l =>
            cases jds with
            | nil => exact ha.elim
            | cons j jds => exact ⟨hq _ _ _ ha.1 hv.1, ih ha.2 hv.2⟩
    | rstring hr hc hcs hsz =>
      obtain ⟨A', C', sz', hr', hz, hA, hC⟩ := grows_rstring hg ha hr
      refine .rstring hr' (chars hA (s := [_]) (by simpa using hc) _ (by simp)) (chars hC hcs) ?_
      simp only [SizeOk, if_true] at hsz ⊢
      have := hz.1
      have := hz.2.1
      omega
    | rstringEmpty _ h => cases h
  | struct ha =>
    cases hv with
    | struct hv =>
      refine .struct ?_
      rename_i fs gs l
      induction fs generalizing l gs with
      | nil => cases l <;> cases gs <;> first | exact trivial | exact hv.elim | exact ha.elim
      | cons i fs ih =>
        cases l with
        | nil => exact hv.elim
        | cons v l =>
          cases gs with
          | nil => exact ha.elim
          | cons j gs => exact ⟨⟨hv.1.1.trans ha.1.1, hq _ _ _ ha.1.2 hv.1.2⟩, ih ha.2 hv.2⟩
  | array h1 h2 _ =>
    cases hv with
    | byteArray hb hl => exact .byteArray (by rw [← h2, hb]) hl
    | array hb hl hv => exact .array (by rw [← h2, hb]) hl fun v hm => hq _ _ _ h1 (hv v hm)
  | list h1 h2 h3 h4 =>
    cases hv with
    | asciiList hc hcs hsz =>
      obtain ⟨D, hD, hCD⟩ := grows_chars hg h1 hc
      exact .asciiList hD (chars hCD hcs) (size h4 hsz)
    | byteList hb hsz => exact .byteList (by rw [← h2, hb]) (size h4 hsz)
    | unicodeList hb hu hx hsz => exact .unicodeList (by rw [← h2, hb]) (by rw [← h3, hu]) hx (size h4 hsz)
    | list hb hu hn hmem hsz hv =>
      refine .list (by rw [← h2, hb]) (by rw [← h3, hu]) (fun C hC => ?_) (by rw [← hg.valSize]; exact hmem) (size h4 hsz)
        fun v hm => hq _ _ _ h1 (hv v hm)
      obtain ⟨D, hD⟩ := grows_chars_back hg h1 hC
      exact hn D hD
  | set h1 h4 =>
    cases hv with
    | set hmem hsz hv hd => exact .set (by rw [← hg.valSize]; exact hmem) (size h4 hsz) (fun v hm => hq _ _ _ h1 (hv v hm)) hd
  | map h1 h2 h4 =>
    cases hv with
    | map hmem hsz hv hd =>
      exact .map (by rw [← hg.valSize]; exact hmem) (size h4 hsz)
        (fun p hm => ⟨hq _ _ _ h1 (hv p hm).1, hq _ _ _ h2 (hv p hm).2⟩) hd

theorem grows_typed (hg : E.Grows F Q) : ∀ (n : Nat) (v : Val) (i j : SemId), Q i j → HasTyN E true n v i → HasTyN F true n v j
  | 0, _, _, _, _, h => h.elim
  | n + 1, v, i, j, h, hv => by
    obtain ⟨t, u, ht, hu, hgr⟩ := hg.types i j h
    obtain ⟨t', ht', hv⟩ := hv
    cases ht.symm.trans ht'
    exact ⟨u, hu, grows_inhabits hg (fun v i j h hv => grows_typed hg n v i j h hv) hgr hv⟩

end Verif
