import Verif.Spec.Equal
import Verif.Props.Access
import Verif.Props.Codec
import Verif.Props.Typify
import Verif.Lemmas.World
import Verif.Lemmas.Layout

/-!
# C95: equality of values
-/

namespace Verif

theorem sameAll_iff {l m : List Val} : Val.SameAll l m ↔ All2 Val.Same l m := by
  constructor
  · induction l generalizing m with
    | nil => intro h; cases h; trivial
    | cons v l ih => intro h; cases h with | cons h1 h2 => exact ⟨h1, ih h2⟩
  · induction l generalizing m with
    | nil => intro h; cases m with | nil => exact .nil | cons => exact h.elim
    | cons v l ih => intro h; cases m with | nil => exact h.elim | cons => exact .cons h.1 (ih h.2)

/-- Fields in the same order with the same values. -/
theorem sameFields_iff {fs hs : List (Name × Val)} :
    (fs.map Prod.fst = hs.map Prod.fst ∧ Val.SameAll (fs.map Prod.snd) (hs.map Prod.snd)) ↔
      All2 (fun f h => f.1 = h.1 ∧ f.2.Same h.2) fs hs := by
  rw [sameAll_iff]
  induction fs generalizing hs with
  | nil =>
    cases hs with
    | nil => simp [All2]
    | cons => simp [All2]
  | cons f fs ih =>
    cases hs with
    | nil => simp [All2]
    | cons h hs =>
      simp only [List.map_cons, List.cons.injEq, All2, ← ih]
      constructor
      · rintro ⟨⟨h1, h2⟩, h3, h4⟩; exact ⟨⟨h1, h3⟩, h2, h4⟩
      · rintro ⟨⟨h1, h3⟩, h2, h4⟩; exact ⟨⟨h1, h2⟩, h3, h4⟩

theorem samePairs_iff {l m : List (Val × Val)} :
    (Val.SameAll (l.map Prod.fst) (m.map Prod.fst) ∧ Val.SameAll (l.map Prod.snd) (m.map Prod.snd)) ↔
      All2 (fun p q => p.1.Same q.1 ∧ p.2.Same q.2) l m := by
  rw [sameAll_iff, sameAll_iff]
  induction l generalizing m with
  | nil => cases m <;> simp [All2]
  | cons p l ih =>
    cases m with
    | nil => simp [All2]
    | cons q m =>
      simp only [List.map_cons, All2, ← ih]
      constructor
      · rintro ⟨⟨h1, h2⟩, h3, h4⟩; exact ⟨⟨h1, h3⟩, h2, h4⟩
      · rintro ⟨⟨h1, h3⟩, h2, h4⟩; exact ⟨⟨h1, h2⟩, h3, h4⟩

/-! ### The code -/

theorem eqvList_iff {l m : List Val} : Val.eqvList l m = true ↔ All2 (fun v w => v.eqv w = true) l m := by
  induction l generalizing m with
  | nil => cases m <;> simp [Val.eqvList, All2]
  | cons v l ih => cases m <;> simp [Val.eqvList, All2, ih]

theorem eqvPairs_iff {l m : List (Val × Val)} :
    Val.eqvPairs l m = true ↔ All2 (fun p q => p.1.eqv q.1 = true ∧ p.2.eqv q.2 = true) l m := by
  induction l generalizing m with
  | nil => cases m <;> simp [Val.eqvPairs, All2]
  | cons p l ih =>
    obtain ⟨k, v⟩ := p
    cases m <;> simp [Val.eqvPairs, Val.eqvPair, All2, ih]

theorem eqvFields_iff {fs gs : List (Name × Val)} (hn : (gs.map Prod.fst).Nodup) :
    Val.eqvFields fs gs = true ↔ ∀ f ∈ fs, ∃ w, (f.1, w) ∈ gs ∧ f.2.eqv w = true := by
  induction fs with
  | nil => simp [Val.eqvFields]
  | cons f fs ih =>
    have h : Val.eqvField f gs = true ↔ ∃ w, (f.1, w) ∈ gs ∧ f.2.eqv w = true := by
      obtain ⟨n, v⟩ := f
      simp only [Val.eqvField, ← imGet_iff hn]
      cases imGet gs n <;> simp
    simp only [Val.eqvFields, Bool.and_eq_true, h, ih, List.forall_mem_cons]

theorem all2_imp_mem {α β : Type} {R S : α → β → Prop} : ∀ {l : List α} {m : List β},
    (∀ a ∈ l, ∀ b ∈ m, R a b → S a b) → All2 R l m → All2 S l m
  | [], [], _, _ => trivial
  | [], _ :: _, _, h => h.elim
  | _ :: _, [], _, h => h.elim
  | a :: l, b :: m, hi, h => ⟨hi a (by simp) b (by simp) h.1,
      all2_imp_mem (fun a ha b hb => hi a (by simp [ha]) b (by simp [hb])) h.2⟩

theorem perm_of_subset {α : Type} : ∀ {l m : List α}, l.Nodup → (∀ a ∈ l, a ∈ m) → l.length = m.length → l.Perm m
  | [], m, _, _, h => by
    have : m = [] := List.eq_nil_of_length_eq_zero h.symm
    rw [this]
  | a :: l, m, hn, hs, h => by
    obtain ⟨p, q, rfl⟩ := List.append_of_mem (hs a (by simp))
    rw [List.nodup_cons] at hn
    refine (List.Perm.cons a (perm_of_subset (m := p ++ q) hn.2 (fun b hb => ?_) ?_)).trans List.perm_middle.symm
    · have := hs b (by simp [hb])
      simp only [List.mem_append, List.mem_cons] at this ⊢
      rcases this with h | rfl | h
      · exact .inl h
      · exact absurd hb hn.1
      · exact .inr h
    · simp only [List.length_append, List.length_cons] at h ⊢
      omega

theorem all2_perm {α β : Type} {R : α → β → Prop} {hs gs : List β} (hp : hs.Perm gs) :
    ∀ {fs : List α}, All2 R fs hs → ∃ fs', fs'.Perm fs ∧ All2 R fs' gs := by
  induction hp with
  | nil => intro fs h; exact ⟨fs, .refl _, h⟩
  | cons b _ ih =>
    intro fs h
    match fs, h with
    | a :: fs, h =>
      obtain ⟨fs', h1, h2⟩ := ih h.2
      exact ⟨a :: fs', h1.cons a, h.1, h2⟩
  | swap b c l =>
    intro fs h
    match fs, h with
    | a :: a' :: fs, h => exact ⟨a' :: a :: fs, .swap a a' fs, h.2.1, h.1, h.2.2⟩
  | trans _ _ ih1 ih2 =>
    intro fs h
    obtain ⟨fs1, h1, h2⟩ := ih1 h
    obtain ⟨fs2, h3, h4⟩ := ih2 h2
    exact ⟨fs2, h3.trans h1, h4⟩

theorem nodup_of_keys {fs : List (Name × Val)} (h : (fs.map Prod.fst).Nodup) : fs.Nodup := by
  unfold List.Nodup at h ⊢
  rw [List.pairwise_map] at h
  exact h.imp fun hab e => hab (by rw [e])

/-- The equality of the code is sameness. -/
theorem eqv_iff_same (v w : Val) (hv : v.Keyed) (hw : w.Keyed) : v.eqv w = true ↔ v.Same w := by
  have hall : ∀ {l m : List Val}, (∀ x ∈ l, ∀ y ∈ m, x.eqv y = true ↔ x.Same y) →
      (Val.eqvList l m = true ↔ Val.SameAll l m) := fun h => by
    rw [eqvList_iff, sameAll_iff]
    exact ⟨all2_imp_mem fun a ha b hb => (h a ha b hb).mp, all2_imp_mem fun a ha b hb => (h a ha b hb).mpr⟩
  induction hv generalizing w with
  | unit =>
    cases hw <;> simp only [Val.eqv, Bool.false_eq_true, false_iff, true_iff] <;>
      first | exact .unit | (intro h; cases h)
  | num n =>
    cases hw with
    | num m =>
      simp only [Val.eqv, beq_iff_eq]
      exact ⟨fun h => h ▸ .num n, fun h => by cases h; rfl⟩
    | _ => simp only [Val.eqv, Bool.false_eq_true, false_iff]; intro h; cases h
  | str n =>
    cases hw with
    | str m =>
      simp only [Val.eqv, beq_iff_eq]
      exact ⟨fun h => h ▸ .str n, fun h => by cases h; rfl⟩
    | _ => simp only [Val.eqv, Bool.false_eq_true, false_iff]; intro h; cases h
  | bytes n =>
    cases hw with
    | bytes m =>
      simp only [Val.eqv, beq_iff_eq]
      exact ⟨fun h => h ▸ .bytes n, fun h => by cases h; rfl⟩
    | _ => simp only [Val.eqv, Bool.false_eq_true, false_iff]; intro h; cases h
  | enum n =>
    cases hw with
    | enum m =>
      simp only [Val.eqv, beq_iff_eq]
      exact ⟨fun h => h ▸ .enum n, fun h => by cases h; rfl⟩
    | _ => simp only [Val.eqv, Bool.false_eq_true, false_iff]; intro h; cases h
  | @union t v hv ih =>
    cases hw with
    | @union s w hw =>
      have := ih w hw
      simp only [Val.eqv, Bool.and_eq_true, beq_iff_eq, this]
      exact ⟨fun h => h.1 ▸ .union h.2, fun h => by cases h; exact ⟨rfl, by assumption⟩⟩
    | _ => simp only [Val.eqv, Bool.false_eq_true, false_iff]; intro h; cases h
  | @list l hv ih =>
    cases hw with
    | @list m hw =>
      simp only [Val.eqv, hall fun x hx y hy => ih x hx y (hw y hy)]
      exact ⟨.list, fun h => by cases h; assumption⟩
    | _ => simp only [Val.eqv, Bool.false_eq_true, false_iff]; intro h; cases h
  | @set l hv ih =>
    cases hw with
    | @set m hw =>
      simp only [Val.eqv, hall fun x hx y hy => ih x hx y (hw y hy)]
      exact ⟨.set, fun h => by cases h; assumption⟩
    | _ => simp only [Val.eqv, Bool.false_eq_true, false_iff]; intro h; cases h
  | @tuple l hv ih =>
    cases hw with
    | @tuple m hw =>
      simp only [Val.eqv, hall fun x hx y hy => ih x hx y (hw y hy)]
      exact ⟨.tuple, fun h => by cases h; assumption⟩
    | _ => simp only [Val.eqv, Bool.false_eq_true, false_iff]; intro h; cases h
  | @map l hk hv ihk ihv =>
    cases hw with
    | @map m hk' hw =>
      have hp : ∀ p ∈ l, ∀ q ∈ m, (p.1.eqv q.1 = true ∧ p.2.eqv q.2 = true) ↔ (p.1.Same q.1 ∧ p.2.Same q.2) :=
        fun p hp q hq => and_congr (ihk p hp q.1 (hk' q hq)) (ihv p hp q.2 (hw q hq))
      simp only [Val.eqv, eqvPairs_iff]
      constructor
      · intro h
        have := samePairs_iff.mpr (all2_imp_mem (fun p h1 q h2 => (hp p h1 q h2).mp) h)
        exact .map this.1 this.2
      · intro h
        cases h with
        | map h1 h2 => exact all2_imp_mem (fun p h1 q h2 => (hp p h1 q h2).mpr) (samePairs_iff.mp ⟨h1, h2⟩)
    | _ => simp only [Val.eqv, Bool.false_eq_true, false_iff]; intro h; cases h
  | @struct fs hn hv ih =>
    cases hw with
    | @struct gs hn' hw =>
      have hf : ∀ f ∈ fs, ∀ g ∈ gs, f.2.eqv g.2 = true ↔ f.2.Same g.2 := fun f h1 g h2 => ih f h1 g.2 (hw g h2)
      simp only [Val.eqv, Bool.and_eq_true, beq_iff_eq, eqvFields_iff hn']
      constructor
      · rintro ⟨hlen, h⟩
        obtain ⟨hs, hh⟩ : ∃ hs : List (Name × Val), All2 (fun f g => f.1 = g.1 ∧ g ∈ gs ∧ f.2.eqv g.2 = true) fs hs :=
          all2_exists fun f hf => by
            obtain ⟨w, h1, h2⟩ := h f hf
            exact ⟨(f.1, w), rfl, h1, h2⟩
        have hnames : fs.map Prod.fst = hs.map Prod.fst := by
          exact all2_eq (all2_map hh fun f g h => h.1)
        have hperm : hs.Perm gs := perm_of_subset (nodup_of_keys (hnames ▸ hn))
          (fun g hg => by obtain ⟨f, -, h⟩ := all2_right hh hg; exact h.2.1)
          (by rw [← hlen]; exact (all2_length hh).symm)
        have := sameFields_iff.mpr (all2_imp_mem (S := fun f h => f.1 = h.1 ∧ f.2.Same h.2)
          (fun f h1 g h2 h3 => ⟨h3.1, (hf f h1 g h3.2.1).mp h3.2.2⟩) hh)
        exact .struct hperm this.1 this.2
      · intro h
        cases h with
        | @struct _ _ hs hp h1 h2 =>
          have hh := sameFields_iff.mp ⟨h1, h2⟩
          refine ⟨by rw [← hp.length_eq]; exact all2_length hh, fun f hm => ?_⟩
          obtain ⟨g, hg, h3, h4⟩ := all2_left hh hm
          have hg' := hp.mem_iff.mp hg
          exact ⟨g.2, by rw [h3]; exact hg', (hf f hm g hg').mpr h4⟩
    | _ => simp only [Val.eqv, Bool.false_eq_true, false_iff]; intro h; cases h

/-! ### Sameness -/

theorem Val.Keyed.refl {v : Val} (h : v.Keyed) : v.Same v := by
  have hall : ∀ {l : List Val}, (∀ x ∈ l, x.Same x) → Val.SameAll l l := fun h => sameAll_iff.mpr (all2_refl h)
  induction h with
  | unit => exact .unit
  | num n => exact .num n
  | str s => exact .str s
  | bytes b => exact .bytes b
  | enum t => exact .enum t
  | union _ ih => exact .union ih
  | struct _ _ ih =>
    refine .struct (.refl _) rfl (hall fun x hx => ?_)
    obtain ⟨f, hf, rfl⟩ := List.mem_map.mp hx
    exact ih f hf
  | list _ ih => exact .list (hall ih)
  | set _ ih => exact .set (hall ih)
  | tuple _ ih => exact .tuple (hall ih)
  | map _ _ ih1 ih2 =>
    refine .map (hall fun x hx => ?_) (hall fun x hx => ?_)
    · obtain ⟨p, hp, rfl⟩ := List.mem_map.mp hx
      exact ih1 p hp
    · obtain ⟨p, hp, rfl⟩ := List.mem_map.mp hx
      exact ih2 p hp

theorem sameAll_symm {l : List Val} (h : ∀ x ∈ l, ∀ y, x.Same y → y.Same x) {m : List Val} (hs : Val.SameAll l m) :
    Val.SameAll m l :=
  sameAll_iff.mpr (all2_flip.mp (all2_imp_mem (S := fun a b => b.Same a) (fun a ha b _ => h a ha b) (sameAll_iff.mp hs)))

theorem Val.Keyed.symm {v : Val} (h : v.Keyed) : ∀ w, v.Same w → w.Same v := by
  induction h with
  | union _ ih => intro w h; cases h with | union h => exact .union (ih _ h)
  | @struct fs _ _ ih =>
    intro w h
    cases h with
    | @struct _ gs hs hp h1 h2 =>
      obtain ⟨fs', hp', h3⟩ := all2_perm hp (sameFields_iff.mp ⟨h1, h2⟩)
      have h4 : All2 (fun g f => g.1 = f.1 ∧ g.2.Same f.2) gs fs' := all2_flip.mp
        (all2_imp_mem (S := fun f g => g.1 = f.1 ∧ g.2.Same f.2)
          (fun f hf g _ h => ⟨h.1.symm, ih f (hp'.mem_iff.mp hf) _ h.2⟩) h3)
      have h5 := sameFields_iff.mpr h4
      exact .struct hp' h5.1 h5.2
  | list _ ih => intro w h; cases h with | list h => exact .list (sameAll_symm ih h)
  | set _ ih => intro w h; cases h with | set h => exact .set (sameAll_symm ih h)
  | tuple _ ih => intro w h; cases h with | tuple h => exact .tuple (sameAll_symm ih h)
  | map _ _ ih1 ih2 =>
    intro w h
    cases h with
    | map h1 h2 =>
      refine .map (sameAll_symm (fun x hx => ?_) h1) (sameAll_symm (fun x hx => ?_) h2)
      · obtain ⟨p, hp, rfl⟩ := List.mem_map.mp hx
        exact ih1 p hp
      · obtain ⟨p, hp, rfl⟩ := List.mem_map.mp hx
        exact ih2 p hp
  | unit => intro w h; cases h; exact .unit
  | num n => intro w h; cases h; exact .num n
  | str s => intro w h; cases h; exact .str s
  | bytes b => intro w h; cases h; exact .bytes b
  | enum t => intro w h; cases h; exact .enum t

theorem all2_trans_mem {α β γ : Type} {R : α → β → Prop} {S : β → γ → Prop} {T : α → γ → Prop} :
    ∀ {l : List α} {m : List β} {k : List γ}, (∀ a ∈ l, ∀ b c, R a b → S b c → T a c) → All2 R l m → All2 S m k → All2 T l k
  | [], [], [], _, _, _ => trivial
  | [], [], _ :: _, _, _, h => h.elim
  | [], _ :: _, _, _, h, _ => h.elim
  | _ :: _, [], _, _, h, _ => h.elim
  | _ :: _, _ :: _, [], _, _, h => h.elim
  | a :: l, b :: m, c :: k, hi, h1, h2 => ⟨hi a (by simp) b c h1.1 h2.1, all2_trans_mem (fun a ha => hi a (by simp [ha])) h1.2 h2.2⟩

theorem sameAll_trans {l : List Val} (h : ∀ x ∈ l, ∀ y z, x.Same y → y.Same z → x.Same z) {m k : List Val}
    (h1 : Val.SameAll l m) (h2 : Val.SameAll m k) : Val.SameAll l k :=
  sameAll_iff.mpr (all2_trans_mem (fun a ha b c => h a ha b c) (sameAll_iff.mp h1) (sameAll_iff.mp h2))

theorem Val.Keyed.trans {v : Val} (h : v.Keyed) : ∀ w x, v.Same w → w.Same x → v.Same x := by
  induction h with
  | union _ ih => intro w x h h'; cases h with | union h => cases h' with | union h' => exact .union (ih _ _ h h')
  | @struct fs _ _ ih =>
    intro w x h h'
    cases h with
    | @struct _ gs hs hp h1 h2 =>
      cases h' with
      | @struct _ ks ls hp' h1' h2' =>
        -- `fs ~ hs`, `hs` a permutation of `gs`, `gs ~ ls`, `ls` a permutation of `ks`
        have ha := sameFields_iff.mp ⟨h1, h2⟩
        have hb := all2_flip.mp (sameFields_iff.mp ⟨h1', h2'⟩)
        obtain ⟨ls', hq, hc⟩ := all2_perm hp.symm hb
        have hd : All2 (fun f l => f.1 = l.1 ∧ f.2.Same l.2) fs ls' :=
          all2_trans_mem (fun f hf g l e1 e2 => ⟨e1.1.trans e2.1, ih f hf _ _ e1.2 e2.2⟩) ha (all2_flip.mp hc)
        have he := sameFields_iff.mpr hd
        exact .struct (hq.trans hp') he.1 he.2
  | list _ ih => intro w x h h'; cases h with | list h => cases h' with | list h' => exact .list (sameAll_trans ih h h')
  | set _ ih => intro w x h h'; cases h with | set h => cases h' with | set h' => exact .set (sameAll_trans ih h h')
  | tuple _ ih => intro w x h h'; cases h with | tuple h => cases h' with | tuple h' => exact .tuple (sameAll_trans ih h h')
  | map _ _ ih1 ih2 =>
    intro w x h h'
    cases h with
    | map h1 h2 =>
      cases h' with
      | map h3 h4 =>
        refine .map (sameAll_trans (fun x hx => ?_) h1 h3) (sameAll_trans (fun x hx => ?_) h2 h4)
        · obtain ⟨p, hp, rfl⟩ := List.mem_map.mp hx
          exact ih1 p hp
        · obtain ⟨p, hp, rfl⟩ := List.mem_map.mp hx
          exact ih2 p hp
  | unit => intro w x h h'; cases h; exact h'
  | num n => intro w x h h'; cases h; exact h'
  | str s => intro w x h h'; cases h; exact h'
  | bytes b => intro w x h h'; cases h; exact h'
  | enum t => intro w x h h'; cases h; exact h'

/-! ### Typed values -/

/-- Typed values have different names for the fields of a structure. -/
theorem typed_keyed {E : Env} (hs : E.Sane) {b : Bool} : ∀ (n : Nat) (v : Val) (id : SemId), HasTyN E b n v id → v.Keyed := by
  intro n
  induction n with
  | zero => intro v id h; exact h.elim
  | succ n ih =>
    rintro v id ⟨t, ht, h⟩
    cases h with
    | unit => exact .unit
    | uint | byte | int | bigUint | bigInt => exact .num _
    | unicodeChar | rstring | rstringEmpty | asciiList | unicodeList => exact .str _
    | enum => exact .enum _
    | union h1 h2 => exact .union (ih _ _ h2)
    | tuple h1 h2 =>
      refine .tuple fun v hv => ?_
      obtain ⟨_, _, h⟩ := all2_left h2 hv
      exact ih _ _ h
    | @struct fs req h1 =>
      have hd : (fs.map Prod.fst).Nodup := fields_names h1 ▸ hs.fields _ _ ht
      refine .struct hd fun f hf => ?_
      obtain ⟨_, _, _, h⟩ := all2_left h1 hf
      exact ih _ _ h
    | byteArray | byteList => exact .bytes _
    | array _ _ h => exact .list fun v hv => ih _ _ (h v hv)
    | list _ _ _ _ _ h => exact .list fun v hv => ih _ _ (h v hv)
    | set _ _ h => exact .set fun v hv => ih _ _ (h v hv)
    | map _ _ h => exact .map (fun p hp => ih _ _ (h p hp).1) fun p hp => ih _ _ (h p hp).2

theorem sameAll_eq {l m : List Val} (h : ∀ x ∈ l, ∀ y ∈ m, x.Same y → x = y) (hs : Val.SameAll l m) : l = m :=
  all2_eq (all2_imp_mem (fun a ha b hb => h a ha b hb) (sameAll_iff.mp hs))

theorem perm_of_keys {hs gs : List (Name × Val)} (hp : hs.Perm gs) (hk : hs.map Prod.fst = gs.map Prod.fst)
    (hn : (gs.map Prod.fst).Nodup) : hs = gs := by
  have hget : ∀ {l : List (Name × Val)}, (l.map Prod.fst).Nodup → l = (l.map Prod.fst).map fun n => (n, (imGet l n).getD .unit) := by
    intro l hl
    rw [List.map_map]
    conv => lhs; rw [← List.map_id l]
    refine List.map_congr_left fun f hf => ?_
    simp only [id, Function.comp]
    rw [(imGet_iff hl).mpr hf]
    rfl
  have hn' : (hs.map Prod.fst).Nodup := hk ▸ hn
  rw [hget hn', hget hn, hk]
  refine List.map_congr_left fun n _ => ?_
  have : imGet hs n = imGet gs n := by
    apply Option.ext
    intro v
    rw [imGet_iff hn', imGet_iff hn]
    exact hp.mem_iff
  rw [this]

theorem all2_same {α : Type} {P Q : Val → α → Prop} (h : ∀ v w a, P v a → Q w a → v.Same w → v = w) :
    ∀ {l m : List Val} {k : List α}, All2 P l k → All2 Q m k → Val.SameAll l m → l = m
  | [], _, _, _, _, hs => by cases hs; rfl
  | _ :: _, [], _, _, _, hs => by cases hs
  | _ :: _, _ :: _, [], h1, _, _ => h1.elim
  | v :: l, w :: m, a :: k, h1, h2, hs => by
    cases hs with
    | cons hs1 hs2 => rw [h v w a h1.1 h2.1 hs1, all2_same h h1.2 h2.2 hs2]

theorem all2_fields {P Q : Val → SemId → Prop} (h : ∀ v w a, P v a → Q w a → v.Same w → v = w) :
    ∀ {fs gs : List (Name × Val)} {req : List (Name × SemId)}, All2 (fun f r => f.1 = r.1 ∧ P f.2 r.2) fs req →
      All2 (fun f r => f.1 = r.1 ∧ Q f.2 r.2) gs req → Val.SameAll (fs.map Prod.snd) (gs.map Prod.snd) → fs = gs
  | [], [], _, _, _, _ => rfl
  | [], _ :: _, _, _, _, hs => by cases hs
  | _ :: _, [], _, _, _, hs => by cases hs
  | _ :: _, _ :: _, [], h1, _, _ => h1.elim
  | f :: fs, g :: gs, r :: req, h1, h2, hs => by
    cases hs with
    | cons hs1 hs2 =>
      rw [all2_fields h h1.2 h2.2 hs2, Prod.ext (h1.1.1.trans h2.1.1.symm) (h _ _ _ h1.1.2 h2.1.2 hs1)]

/-- Values of the same type are the same only if they are equal. -/
theorem typed_same {E : Env} (hs : E.Sane) {b : Bool} : ∀ (n m : Nat) (v w : Val) (id : SemId), HasTyN E b n v id →
    HasTyN E b m w id → v.Same w → v = w := by
  intro n
  induction n with
  | zero => intro m v w id h; exact h.elim
  | succ n ihn =>
    intro m
    cases m with
    | zero => intro v w id _ h; exact h.elim
    | succ m =>
    have ih := ihn m
    rintro v w id ⟨t, ht, h⟩ ⟨t', ht', h'⟩ hsame
    rw [ht] at ht'
    cases ht'
    have items : ∀ {l k : List Val} {i : SemId}, (∀ v ∈ l, HasTyN E b n v i) → (∀ v ∈ k, HasTyN E b m v i) →
        Val.SameAll l k → l = k := fun h1 h2 hs => sameAll_eq (fun x hx y hy => ih x y _ (h1 x hx) (h2 y hy)) hs
    cases hsame with
    | unit => rfl
    | num => rfl
    | str => rfl
    | bytes => rfl
    | enum => rfl
    | union hsame =>
      cases h with
      | @union vs n t i v h1 h2 =>
        cases h' with
        | @union _ _ t' i' w h1' h2' =>
          have hw : VariantsWF (vs.map Prod.fst) := hs.wf _ _ ht
          have e := hw.name_inj (List.mem_map_of_mem (f := Prod.fst) h1) (List.mem_map_of_mem (f := Prod.fst) h1') rfl
          have e := pair_unique hw h1 h1' e
          cases e
          rw [ih _ _ _ h2 h2' hsame]
    | tuple hsame =>
      cases h with
      | tuple h1 h2 => cases h' with | tuple h1' h2' => rw [all2_same ih h2 h2' hsame]
    | struct hp hk hsame =>
      cases h with
      | struct h1 =>
        cases h' with
        | struct h1' =>
          have hd := hs.fields _ _ ht
          rw [Ty.FieldsDistinct, ← fields_names h1'] at hd
          have := perm_of_keys hp (by rw [← hk, fields_names h1, fields_names h1']) hd
          subst this
          rw [all2_fields ih h1 h1' hsame]
    | list hsame =>
      cases h with
      | array _ _ h =>
        cases h' with
        | array _ _ h' => rw [items h h' hsame]
      | list _ _ _ _ _ h =>
        cases h' with
        | list _ _ _ _ _ h' => rw [items h h' hsame]
    | set hsame =>
      cases h with | set _ _ h => cases h' with | set _ _ h' => rw [items h h' hsame]
    | @map l m hs1 hs2 =>
      cases h with
      | map _ _ h =>
        cases h' with
        | map _ _ h' =>
          have hp := samePairs_iff.mp ⟨hs1, hs2⟩
          congr 1
          exact all2_eq (all2_imp_mem (fun p hp q hq e => Prod.ext (ih _ _ _ (h p hp).1 (h' q hq).1 e.1)
            (ih _ _ _ (h p hp).2 (h' q hq).2 e.2)) hp)

/-! ## C95 -/

/-- **C95**: two values are equal if and only if they have equal parts in the same places, the fields of structures in
whatever order. -/
theorem C95_equality (v w : Val) (hv : v.Keyed) (hw : w.Keyed) : v.eqv w = true ↔ v.Same w := eqv_iff_same v w hv hw

/-- **C95**: equality of values is an equivalence. -/
theorem C95_equivalence : (∀ v : Val, v.Keyed → v.eqv v = true) ∧
    (∀ v w : Val, v.Keyed → w.Keyed → v.eqv w = w.eqv v) ∧
    ∀ v w x : Val, v.Keyed → w.Keyed → x.Keyed → v.eqv w = true → w.eqv x = true → v.eqv x = true := by
  refine ⟨fun v hv => (eqv_iff_same v v hv hv).mpr hv.refl, fun v w hv hw => ?_, fun v w x hv hw hx h h' => ?_⟩
  · rw [Bool.eq_iff_iff, eqv_iff_same v w hv hw, eqv_iff_same w v hw hv]
    exact ⟨hv.symm w, hw.symm v⟩
  · rw [eqv_iff_same _ _ hv hw] at h
    rw [eqv_iff_same _ _ hw hx] at h'
    exact (eqv_iff_same _ _ hv hx).mpr (hv.trans _ _ h h')

/-- **C95**: values of the same type are equal only if they are the same in memory, the order of fields included. -/
theorem C95_typed (E : Env) (hs : E.Sane) (b : Bool) (v w : Val) (id : SemId) (hv : Has E b v id) (hw : Has E b w id) :
    v.eqv w = true ↔ v = w := by
  obtain ⟨n, hv⟩ := hv
  obtain ⟨m, hw⟩ := hw
  constructor
  · intro h
    rw [eqv_iff_same v w (typed_keyed hs n v id hv) (typed_keyed hs m w id hw)] at h
    exact typed_same hs n m v w id hv hw h
  · rintro rfl
    exact typed_eqv hs n v id hv

/-- **C95**: the values read from two pieces of data are equal if and only if the data are (strings below 4 GiB). -/
theorem C95_read (E : Env) (hs : E.Sane) (hsm : E.SmallStrings) (fuel : Nat) (id : SemId) (b₁ b₂ : Bytes) (v w : Val)
    (h₁ : deserialize E fuel id b₁ = .ok v) (h₂ : deserialize E fuel id b₂ = .ok w) : v.eqv w = true ↔ b₁ = b₂ := by
  have hrest : ∀ {b v}, deserialize E fuel id b = .ok v → read E fuel id b = .ok (v, []) := by
    intro b v h
    obtain ⟨⟨x, rest⟩, h1, h2⟩ := Out.bind_eq_ok.mp h
    dsimp only at h2
    by_cases hr : rest.length = 0
    · rw [if_neg (by simp [hr])] at h2
      cases h2
      rw [h1, List.eq_nil_of_length_eq_zero hr]
    · rw [if_pos hr] at h2
      cases h2
  have r₁ := hrest h₁
  have r₂ := hrest h₂
  rw [C95_typed E hs false v w id ⟨fuel, C32_shape_partial E hs hsm fuel id _ _ _ r₁⟩
    ⟨fuel, C32_shape_partial E hs hsm fuel id _ _ _ r₂⟩]
  constructor
  · rintro rfl
    obtain ⟨c, e1, e2⟩ := C30_injective E hs fuel id _ _ _ _ v r₁ r₂
    rw [e1, e2]
  · rintro rfl
    rw [h₁] at h₂
    cases h₂
    rfl

/-- **C95**: in the sets and maps of values which meet all limits, no item and no key appears twice. -/
theorem C95_distinct (E : Env) (hs : E.Sane) (id : SemId) (v : Val) (h : WellTyped E v id) :
    (∀ l, v = .set l → l.Nodup) ∧ ∀ l, v = .map l → (l.map Prod.fst).Nodup := by
  obtain ⟨n, h⟩ := h
  cases n with
  | zero => exact h.elim
  | succ n =>
    obtain ⟨t, ht, h⟩ := h
    constructor
    · rintro l rfl
      cases h with
      | set _ _ h1 h2 =>
        refine (h2 rfl).imp_of_mem fun ha _ hab e => ?_
        rw [← e, typed_eqv hs n _ _ (h1 _ ha)] at hab
        cases hab
    · rintro l rfl
      cases h with
      | map _ _ h1 h2 =>
        refine (h2 rfl).imp_of_mem fun ha _ hab e => ?_
        obtain ⟨p, hp, rfl⟩ := List.mem_map.mp ha
        rw [← e, typed_eqv hs n _ _ (h1 _ hp).1] at hab
        cases hab

/-! ### Cases which meet the hypotheses -/

/-- Two structures with the fields in another order. -/
def exOrderA : Val := .struct [(n!"x", .num (.uint 1)), (n!"y", .list [.str [65], .unit])]
/-- The other one. -/
def exOrderB : Val := .struct [(n!"y", .list [.str [65], .unit]), (n!"x", .num (.uint 1))]

example : exOrderA.Keyed ∧ exOrderB.Keyed ∧ exOrderA.eqv exOrderB = true ∧ exOrderA ≠ exOrderB := by
  refine ⟨?_, ?_, by decide, fun h => by simp [exOrderA, exOrderB] at h⟩
  · refine .struct (by decide) fun f hf => ?_
    simp only [List.mem_cons, List.not_mem_nil, or_false] at hf
    rcases hf with rfl | rfl
    · exact .num _
    · exact .list fun v hv => by
        simp only [List.mem_cons, List.not_mem_nil, or_false] at hv
        rcases hv with rfl | rfl
        · exact .str _
        · exact .unit
  · refine .struct (by decide) fun f hf => ?_
    simp only [List.mem_cons, List.not_mem_nil, or_false] at hf
    rcases hf with rfl | rfl
    · exact .list fun v hv => by
        simp only [List.mem_cons, List.not_mem_nil, or_false] at hv
        rcases hv with rfl | rfl
        · exact .str _
        · exact .unit
    · exact .num _

example (debug : Bool) : (exE debug).Sane ∧ (exE debug).SmallStrings ∧
    deserialize (exE debug) 5 (Id32.rep 14) exBytes = .ok exVal ∧ Has (exE debug) false exVal (Id32.rep 14) ∧
    WellTyped (exE debug) exVal (Id32.rep 14) :=
  ⟨exE_sane debug, (Supported.small (exE_sane debug) (exE_supported debug)).1, by cases debug <;> rfl, exVal_has debug,
    4, exVal_wellTyped debug⟩

example (debug : Bool) : WellTyped (exE debug) (.set [.num (.uint 7), .num (.uint 9)]) (Id32.rep 11) := by
  refine ⟨2, _, rfl, .set (show _ * 24 < _ by decide) (show _ ∧ _ by decide) ?_ ?_⟩
  · intro v hv
    have : v = .num (.uint 7) ∨ v = .num (.uint 9) := by simpa using hv
    rcases this with rfl | rfl <;>
      exact ⟨_, rfl, .uint (n := 1) (by decide) (by decide) (by decide)⟩
  · intro _
    simp [Val.eqv]

end Verif
