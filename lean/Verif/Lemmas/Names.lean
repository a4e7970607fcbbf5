import Verif.Spec.Names
import Verif.Lemmas.Codec

/-! # Lemmas on types which differ in names only -/

namespace Verif

theorem SameRest.bind {α β γ δ : Type} {o : Out DErr (RdPair α)} {p : Out DErr (RdPair β)} {f : RdPair α → Out DErr (RdPair γ)}
    {g : RdPair β → Out DErr (RdPair δ)} (h : SameRest o p) (hf : ∀ a b rest, SameRest (f (a, rest)) (g (b, rest))) :
    SameRest (o >>= f) (p >>= g) := by
  cases o <;> cases p <;> first | exact h.elim | exact trivial | skip
  · rename_i a b
    obtain ⟨a, rest⟩ := a
    obtain ⟨b, rest'⟩ := b
    cases (show rest = rest' from h)
    exact hf a b rest
  · exact h

theorem SameRest.same {α : Type} (o : Out DErr (RdPair α)) : SameRest o o := by
  cases o <;> first | rfl | exact trivial

theorem SameRest.bindSame {α γ δ : Type} (o : Out DErr α) {f : α → Out DErr (RdPair γ)} {g : α → Out DErr (RdPair δ)}
    (hf : ∀ a, SameRest (f a) (g a)) : SameRest (o >>= f) (o >>= g) := by
  cases o <;> first | exact hf _ | rfl | exact trivial

variable {E F : Env} {R : SemId → SemId → Prop}

section
variable {rd rd' : SemId → Bytes → Out DErr (RdPair Val)} (h : ∀ i j bs, R i j → SameRest (rd i bs) (rd' j bs))
include h

theorem same_items {i j : SemId} (hr : R i j) : ∀ n bs, SameRest (readItems rd i n bs) (readItems rd' j n bs)
  | 0, _ => rfl
  | n + 1, bs => .bind (h i j bs hr) fun _ _ rest => .bind (same_items hr n rest) fun _ _ _ => rfl

theorem same_pairs {k i l j : SemId} (hk : R k l) (hr : R i j) : ∀ n bs, SameRest (readPairs rd k i n bs) (readPairs rd' l j n bs)
  | 0, _ => rfl
  | n + 1, bs => .bind (h k l bs hk) fun _ _ rest => .bind (h i j rest hr) fun _ _ rest =>
      .bind (same_pairs hk hr n rest) fun _ _ _ => rfl

theorem same_tuple : ∀ {ids jds : List SemId}, All2 R ids jds → ∀ bs, SameRest (readTuple rd ids bs) (readTuple rd' jds bs)
  | [], [], _, _ => rfl
  | i :: _, j :: _, ha, bs => .bind (h i j bs ha.1) fun _ _ rest => .bind (same_tuple ha.2 rest) fun _ _ _ => rfl

theorem same_struct : ∀ {req sec : List (Name × SemId)}, All2 R (req.map Prod.snd) (sec.map Prod.snd) →
    ∀ acc acc' bs, SameRest (readFields rd req acc bs) (readFields rd' sec acc' bs)
  | [], [], _, _, _, _ => rfl
  | (_, i) :: _, (_, j) :: _, ha, _, _, bs => .bind (h i j bs ha.1) fun _ _ rest => same_struct ha.2 _ _ rest

theorem same_named : ∀ {ids : List SemId} {sec : List (Name × SemId)}, All2 R ids (sec.map Prod.snd) →
    ∀ acc bs, SameRest (readTuple rd ids bs) (readFields rd' sec acc bs)
  | [], [], _, _, _ => rfl
  | i :: ids, (m, j) :: sec, ha, acc, bs => by
    unfold readTuple readFields
    refine .bind (h i j bs ha.1) fun v w rest => ?_
    have := same_named ha.2 (imInsert acc m w) rest
    revert this
    dsimp only
    cases readTuple rd ids rest with
    | ok a => exact fun h => by cases hx : readFields rd' sec (imInsert acc m w) rest <;> rw [hx] at h <;> exact h
    | err e => exact fun h => h
    | panic => exact fun h => h
    | diverge => exact fun h => h

theorem same_unnamed : ∀ {req : List (Name × SemId)} {jds : List SemId}, All2 R (req.map Prod.snd) jds →
    ∀ acc bs, SameRest (readFields rd req acc bs) (readTuple rd' jds bs)
  | [], [], _, _, _ => rfl
  | (m, i) :: req, j :: jds, ha, acc, bs => by
    unfold readTuple readFields
    refine .bind (h i j bs ha.1) fun v w rest => ?_
    have := same_unnamed ha.2 (imInsert acc m v) rest
    revert this
    dsimp only
    cases readTuple rd' jds rest with
    | ok a => exact fun h => by cases hx : readFields rd req (imInsert acc m v) rest <;> rw [hx] at h <;> exact h
    | err e => exact fun h => h
    | panic => exact fun h => h
    | diverge => exact fun h => h

end

/-- What a relation between types which differ in names only provides. -/
def Renames (E F : Env) (R : SemId → SemId → Prop) : Prop :=
  ∀ x y, R x y → ∃ t u, E.find x = some t ∧ F.find y = some u ∧ Renamed E F R t u

theorem tags_all {vs ws : List Variant} (h : vs.map Variant.tag = ws.map Variant.tag) (P : Byte → Bool) :
    (vs.all fun v => P v.tag) = ws.all fun v => P v.tag := by
  have e : ∀ l : List Variant, (l.all fun v => P v.tag) = (l.map Variant.tag).all P := fun l => by
    rw [List.all_map]; rfl
  rw [e, e, h]

theorem renamed_charEnum {t u : Ty SemId} (h : Renamed E F R t u) : t.isCharEnum = u.isCharEnum := by
  cases h <;> first | rfl | skip
  rename_i vs ws ht
  exact tags_all ht fun b => 32 ≤ b.toNat && b.toNat ≤ 127

theorem enum_found : ∀ {vs ws : List Variant}, vs.map Variant.tag = ws.map Variant.tag → ∀ t,
    (Ty.enumNameByTag vs t).isSome = (Ty.enumNameByTag ws t).isSome
  | [], [], _, _ => rfl
  | [], _ :: _, h, _ => by simp at h
  | _ :: _, [], h, _ => by simp at h
  | v :: vs, w :: ws, h, t => by
    simp only [List.map_cons, List.cons.injEq] at h
    have ih := enum_found h.2 t
    unfold Ty.enumNameByTag at ih ⊢
    rw [List.find?_cons, List.find?_cons, h.1]
    cases w.tag == t
    · exact ih
    · rfl

theorem union_found : ∀ {vs ws : List (Variant × SemId)}, All2 (fun p q => p.1.tag = q.1.tag ∧ R p.2 q.2) vs ws → ∀ t,
    (Ty.unionByTag vs t = none ∧ Ty.unionByTag ws t = none) ∨
    ∃ p q, Ty.unionByTag vs t = some p ∧ Ty.unionByTag ws t = some q ∧ R p.2 q.2
  | [], [], _, _ => .inl ⟨rfl, rfl⟩
  | v :: vs, w :: ws, h, t => by
    have ih := union_found h.2 t
    unfold Ty.unionByTag at ih ⊢
    rw [List.find?_cons, List.find?_cons, h.1.1]
    cases w.1.tag == t
    · exact ih
    · exact .inr ⟨v, w, rfl, rfl, h.1.2⟩

theorem renamed_find (hR : Renames E F R) {x y : SemId} (h : R x y) :
    ∃ t u, E.find x = some t ∧ F.find y = some u ∧ Renamed E F R t u := hR x y h

/-- What is known of pairs: whether they are restricted strings, and the sizing then. -/
inductive SamePair : Out SemId Bool → Out SemId (Option (SemId × Sizing)) → Out SemId Bool → Out SemId (Option (SemId × Sizing)) → Prop
  | no {o p} : SamePair (.ok false) o (.ok false) p
  | yes {c d sz} : SamePair (.ok true) (.ok (some (c, sz))) (.ok true) (.ok (some (d, sz)))
  | panic {o p} : SamePair .panic o .panic p

theorem same_pair (hb : E.SameBuild F) (hR : Renames E F R) : ∀ {ids jds : List SemId}, All2 R ids jds →
    SamePair (E.isRString ids) (E.rstringSizing ids) (F.isRString jds) (F.rstringSizing jds)
  | [], [], _ => .no
  | [_], [_], _ => .no
  | _ :: _ :: _ :: _, _ :: _ :: _ :: _, _ => by
    unfold Env.isRString
    rw [if_pos (by simp), if_pos (by simp)]
    exact .no
  | [a, b], [a', b'], h => by
    obtain ⟨ha, hb', -⟩ := h
    obtain ⟨t, u, ht, hu, htu⟩ := hR _ _ ha
    obtain ⟨t', u', ht', hu', htu'⟩ := hR _ _ hb'
    have e1 : E.isRString [a, b] = (do
        match ← E.rstringSizing [a, b] with
        | none => pure false
        | some (rest, _) =>
          match E.find a with
          | none => .err a
          | some t => if !t.isCharEnum then pure false else match E.find rest with
            | none => .err rest
            | some u => pure u.isCharEnum) := rfl
    have e2 : F.isRString [a', b'] = (do
        match ← F.rstringSizing [a', b'] with
        | none => pure false
        | some (rest, _) =>
          match F.find a' with
          | none => .err a'
          | some t => if !t.isCharEnum then pure false else match F.find rest with
            | none => .err rest
            | some u => pure u.isCharEnum) := rfl
    have s1 : E.rstringSizing [a, b] = (match E.find b with
      | none => .err b
      | some (.list rest sz) => if E.debug && (sz.min == -1 || sz.max == -1) then .panic else pure (some (rest, ⟨sz.min + 1, sz.max + 1⟩))
      | some _ => pure none) := rfl
    have s2 : F.rstringSizing [a', b'] = (match F.find b' with
      | none => .err b'
      | some (.list rest sz) => if F.debug && (sz.min == -1 || sz.max == -1) then .panic else pure (some (rest, ⟨sz.min + 1, sz.max + 1⟩))
      | some _ => pure none) := rfl
    rw [e1, e2, s1, s2, ht', hu', ht, hu, hb.1]
    cases htu' with
    | list hr =>
      rename_i i j sz _ _
      obtain ⟨x, y, hx, hy, hxy⟩ := hR _ _ hr
      dsimp only
      by_cases hp : (F.debug && (sz.min == -1 || sz.max == -1)) = true
      · rw [if_pos hp, if_pos hp]; exact .panic
      · rw [if_neg hp, if_neg hp]
        simp only [Out.pure_eq, Out.bind_ok, hx, hy, renamed_charEnum htu, renamed_charEnum hxy]
        cases u.isCharEnum
        · exact .no
        · cases y.isCharEnum
          · exact .no
          · exact .yes
    | _ => exact .no

theorem same_tupleTy {rd rd' : SemId → Bytes → Out DErr (RdPair Val)} (h : ∀ i j bs, R i j → SameRest (rd i bs) (rd' j bs))
    (hb : E.SameBuild F) (hR : Renames E F R) {ids jds : List SemId} (ha : All2 R ids jds) (bs : Bytes) :
    SameRest (readTupleTy rd E ids bs) (readTupleTy rd' F jds bs) := by
  have hp := same_pair hb hR ha
  unfold readTupleTy
  generalize E.isRString ids = x at hp ⊢
  generalize E.rstringSizing ids = y at hp ⊢
  generalize F.isRString jds = z at hp ⊢
  generalize F.rstringSizing jds = w at hp ⊢
  cases hp with
  | no => exact .bind (same_tuple h ha bs) fun _ _ _ => rfl
  | yes => exact .same _
  | panic => exact trivial

theorem nameless_false {ids : List SemId} (hn : E.Nameless ids) (hcl : ∀ r ∈ ids, ∃ u, E.find r = some u ∧ ∀ s ∈ u.refs, ∃ w, E.find s = some w) :
    E.isRString ids = .ok false := by
  refine isRString_false hn.1 (fun r hr => ?_) fun a b he c sz hf => ?_
  · obtain ⟨u, hu, -⟩ := hcl r hr
    exact ⟨u, hu⟩
  · obtain ⟨u, hu, hr⟩ := hcl b (by rw [he]; simp)
    rw [hf] at hu
    cases hu
    exact ⟨hr c (by simp [Ty.refs]), .inr (hn.2 a b c sz he hf)⟩

theorem same_readTy {rd rd' : SemId → Bytes → Out DErr (RdPair Val)} (h : ∀ i j bs, R i j → SameRest (rd i bs) (rd' j bs))
    (hb : E.SameBuild F) (hE : E.Sane) (hF : F.Sane) (hR : Renames E F R) {x y spec spec' : SemId} {t u : Ty SemId}
    (hx : E.find x = some t) (hy : F.find y = some u) (htu : Renamed E F R t u)
    (bs : Bytes) : SameRest (readTy rd E spec t bs) (readTy rd' F spec' u bs) := by
  have seq : ∀ {i j : SemId} (w : Nat), R i j → ∀ bs, SameRest (readSeq rd E i w bs) (readSeq rd' F j w bs) := fun w hr bs => by
    unfold readSeq
    rw [hb.2]
    exact .bindSame _ fun p => .bindSame _ fun _ => same_items h hr _ _
  have closedE : ∀ {x : SemId} {t : Ty SemId}, E.find x = some t → ∀ r ∈ t.refs, ∃ u, E.find r = some u ∧ ∀ s ∈ u.refs, ∃ w, E.find s = some w :=
    fun hf r hr => by
      obtain ⟨u, hu⟩ := hE.closed _ _ hf r hr
      exact ⟨u, hu, fun s hs => hE.closed _ _ hu s hs⟩
  have closedF : ∀ {x : SemId} {t : Ty SemId}, F.find x = some t → ∀ r ∈ t.refs, ∃ u, F.find r = some u ∧ ∀ s ∈ u.refs, ∃ w, F.find s = some w :=
    fun hf r hr => by
      obtain ⟨u, hu⟩ := hF.closed _ _ hf r hr
      exact ⟨u, hu, fun s hs => hF.closed _ _ hu s hs⟩
  cases htu with
  | primitive p => exact .same _
  | char => exact trivial
  | enum ht =>
    refine .bindSame _ fun p => ?_
    have hf := enum_found ht (BitVec.ofNat 8 p.1)
    revert hf
    dsimp only
    cases Ty.enumNameByTag _ (BitVec.ofNat 8 p.1) <;> cases Ty.enumNameByTag _ (BitVec.ofNat 8 p.1) <;> intro hf <;>
      first | rfl | cases hf
  | union ha =>
    refine .bindSame _ fun p => ?_
    dsimp only
    rcases union_found ha (BitVec.ofNat 8 p.1) with ⟨h1, h2⟩ | ⟨a, b, h1, h2, hr⟩
    · rw [h1, h2]; rfl
    · rw [h1, h2]
      exact .bind (h _ _ _ hr) fun _ _ _ => rfl
  | tuple ha => exact same_tupleTy h hb hR ha bs
  | struct ha => exact .bind (same_struct h ha _ _ bs) fun _ _ _ => rfl
  | named hn ha =>
    unfold readTy readTupleTy
    dsimp only
    rw [nameless_false hn (closedE hx)]
    exact .bind (same_named h ha _ bs) fun _ _ _ => rfl
  | unnamed hn ha =>
    unfold readTy readTupleTy
    dsimp only
    rw [nameless_false hn (closedF hy)]
    exact .bind (same_unnamed h ha _ bs) fun _ _ _ => rfl
  | array hr hi =>
    rename_i i j len
    unfold readTy
    dsimp only
    rw [hi]
    cases j.isByte F.H
    · exact .bind (same_items h hr _ bs) fun _ _ _ => rfl
    · exact .same _
  | list hr hi hu =>
    rename_i i j sz
    obtain ⟨t, u, ht, hu', htu⟩ := hR _ _ hr
    unfold readTy readList
    dsimp only
    rw [ht, hu', hi, hu]
    dsimp only
    rw [renamed_charEnum htu]
    split
    · exact .same _
    · split
      · exact .same _
      · split
        · exact .same _
        · exact .bind (seq _ hr bs) fun _ _ _ => rfl
  | set hr => exact .bind (seq _ hr bs) fun _ _ _ => rfl
  | map hk hr =>
    refine .bind ?_ fun _ _ _ => rfl
    unfold readMapSeq
    rw [hb.2]
    exact .bindSame _ fun p => .bindSame _ fun _ => same_pairs h hk hr _ _

theorem same_read (hb : E.SameBuild F) (hE : E.Sane) (hF : F.Sane) (hR : Renames E F R) : ∀ fuel x y bs, R x y →
    SameRest (read E fuel x bs) (read F fuel y bs)
  | 0, _, _, _, _ => trivial
  | fuel + 1, x, y, bs, h => by
    obtain ⟨t, u, ht, hu, htu⟩ := hR _ _ h
    unfold read
    rw [ht, hu]
    exact same_readTy (fun i j bs hr => same_read hb hE hF hR fuel i j bs hr) hb hE hF hR ht hu htu bs

theorem renames_all_flip {α β : Type} {S : α → β → Prop} {T : β → α → Prop} (hst : ∀ x y, S x y → T y x) :
    ∀ {l : List α} {m : List β}, All2 S l m → All2 T m l
  | [], [], _ => trivial
  | [], _ :: _, h => h.elim
  | _ :: _, [], h => h.elim
  | _ :: _, _ :: _, h => ⟨hst _ _ h.1, renames_all_flip hst h.2⟩

theorem renames_all_comp {α β γ : Type} {S : α → β → Prop} {T : β → γ → Prop} {U : α → γ → Prop} (hst : ∀ x y z, S x y → T y z → U x z) :
    ∀ {l : List α} {m : List β} {n : List γ}, All2 S l m → All2 T m n → All2 U l n
  | [], [], [], _, _ => trivial
  | [], [], _ :: _, _, h => h.elim
  | [], _ :: _, _, h, _ => h.elim
  | _ :: _, [], _, h, _ => h.elim
  | _ :: _, _ :: _, [], _, h => h.elim
  | _ :: _, _ :: _, _ :: _, h, k => ⟨hst _ _ _ h.1 k.1, renames_all_comp hst h.2 k.2⟩

theorem renames_all_refl {α : Type} {S : α → α → Prop} : ∀ {l : List α}, (∀ x ∈ l, S x x) → All2 S l l
  | [], _ => trivial
  | _ :: _, h => ⟨h _ List.mem_cons_self, renames_all_refl fun x hx => h x (List.mem_cons_of_mem _ hx)⟩

theorem renames_flip {E F : Env} {R : SemId → SemId → Prop} (hR : Renames E F R) : Renames F E fun y x => R x y := by
  intro y x h
  obtain ⟨t, u, ht, hu, htu⟩ := hR x y h
  refine ⟨u, t, hu, ht, ?_⟩
  cases htu with
  | primitive p => exact .primitive p
  | char => exact .char
  | enum h => exact .enum h.symm
  | union h => exact .union (renames_all_flip (fun _ _ h => ⟨h.1.symm, h.2⟩) h)
  | tuple h => exact .tuple (renames_all_flip (fun _ _ h => h) h)
  | struct h => exact .struct (renames_all_flip (fun _ _ h => h) h)
  | named hn h => exact .unnamed hn (renames_all_flip (fun _ _ h => h) h)
  | unnamed hn h => exact .named hn (renames_all_flip (fun _ _ h => h) h)
  | array h1 h2 => exact .array h1 h2.symm
  | list h1 h2 h3 => exact .list h1 h2.symm h3.symm
  | set h => exact .set h
  | map h1 h2 => exact .map h1 h2

theorem renames_enum {E F : Env} {R : SemId → SemId → Prop} (hR : Renames E F R) {x y : SemId} (h : R x y) {A : List Variant}
    (hA : CharVariants A) (hf : E.find x = some (.enum A)) : ∃ B, F.find y = some (.enum B) ∧ CharVariants B := by
  obtain ⟨t, u, ht, hu, htu⟩ := hR x y h
  rw [hf] at ht
  cases ht
  cases htu with
  | @enum _ ws he =>
    refine ⟨ws, hu, fun v hv => ?_⟩
    obtain ⟨w, hw, hvw⟩ := List.mem_map.mp (he ▸ List.mem_map.mpr ⟨v, hv, rfl⟩ : v.tag ∈ A.map Variant.tag)
    exact hvw ▸ hA w hw

theorem renames_list {E F : Env} {R : SemId → SemId → Prop} (hR : Renames E F R) {x y i : SemId} {sz : Sizing} (h : R x y)
    (hf : E.find x = some (.list i sz)) : ∃ j, F.find y = some (.list j sz) ∧ R i j := by
  obtain ⟨t, u, ht, hu, htu⟩ := hR x y h
  rw [hf] at ht
  cases ht
  cases htu with
  | list h1 => exact ⟨_, hu, h1⟩

theorem nameless_back {E F : Env} {R : SemId → SemId → Prop} (hR : Renames E F R) {ids jds : List SemId} (h : All2 R ids jds)
    (hn : F.Nameless jds) : E.Nameless ids := by
  refine ⟨?_, ?_⟩
  · rintro A C sz ⟨a, b, c, rfl, ha, hA, hb, hc, hC⟩
    match jds, h with
    | [a', b'], h =>
      obtain ⟨A', h1, h2⟩ := renames_enum hR h.1 hA ha
      obtain ⟨c', h3, h4⟩ := renames_list hR h.2.1 hb
      obtain ⟨C', h5, h6⟩ := renames_enum hR h4 hC hc
      exact hn.1 A' C' sz ⟨a', b', c', rfl, h1, h2, h3, h5, h6⟩
  · rintro a b c sz rfl hb
    match jds, h with
    | [a', b'], h =>
      obtain ⟨c', h3, _⟩ := renames_list hR h.2.1 hb
      exact hn.2 a' b' c' sz rfl h3

theorem renames_comp {E F G : Env} {R S : SemId → SemId → Prop} (hR : Renames E F R) (hS : Renames F G S) :
    Renames E G fun x z => ∃ y, R x y ∧ S y z := by
  rintro x z ⟨y, hx, hz⟩
  obtain ⟨t, u, ht, hu, htu⟩ := hR x y hx
  obtain ⟨u', w, hu', hw, huw⟩ := hS y z hz
  rw [hu] at hu'
  cases hu'
  have comp : ∀ {l m n : List SemId}, All2 R l m → All2 S m n → All2 (fun x z => ∃ y, R x y ∧ S y z) l n :=
    fun h k => renames_all_comp (fun _ y _ h k => ⟨y, h, k⟩) h k
  refine ⟨t, w, ht, hw, ?_⟩
  cases htu with
  | primitive p => cases huw; exact .primitive p
  | char => cases huw; exact .char
  | enum h => cases huw with
    | enum k => exact .enum (h.trans k)
  | union h => cases huw with
    | union k => exact .union (renames_all_comp (fun _ y _ h k => ⟨h.1.trans k.1, y.2, h.2, k.2⟩) h k)
  | tuple h => cases huw with
    | tuple k => exact .tuple (comp h k)
    | named hn k => exact .named (nameless_back hR h hn) (comp h k)
  | struct h => cases huw with
    | struct k => exact .struct (comp h k)
    | unnamed hn k => exact .unnamed hn (comp h k)
  | named hn h => cases huw with
    | struct k => exact .named hn (comp h k)
    | unnamed _ k => exact .tuple (comp h k)
  | unnamed hn h => cases huw with
    | tuple k => exact .unnamed (nameless_back (renames_flip hS) (renames_all_flip (fun _ _ h => h) k) hn) (comp h k)
    | named _ k => exact .struct (comp h k)
  | array h1 h2 => cases huw with
    | array k1 k2 => exact .array ⟨_, h1, k1⟩ (h2.trans k2)
  | list h1 h2 h3 => cases huw with
    | list k1 k2 k3 => exact .list ⟨_, h1, k1⟩ (h2.trans k2) (h3.trans k3)
  | set h => cases huw with
    | set k => exact .set ⟨_, h, k⟩
  | map h1 h2 => cases huw with
    | map k1 k2 => exact .map ⟨_, h1, k1⟩ ⟨_, h2, k2⟩

theorem renames_refl {E : Env} (hs : E.Sane) : Renames E E fun x y => x = y ∧ ∃ t, E.find x = some t := by
  rintro x y ⟨rfl, t, ht⟩
  refine ⟨t, t, ht, ht, ?_⟩
  have hr : ∀ r ∈ t.refs, r = r ∧ ∃ u, E.find r = some u := fun r h => ⟨rfl, hs.closed x t ht r h⟩
  cases t with
  | primitive p => exact .primitive p
  | unicodeChar => exact .char
  | enum vs => exact .enum rfl
  | union vs => exact .union (renames_all_refl fun p hp => ⟨rfl, hr _ (List.mem_map.mpr ⟨p, hp, rfl⟩)⟩)
  | tuple ids => exact .tuple (renames_all_refl hr)
  | struct req => exact .struct (renames_all_refl hr)
  | array i len => exact .array (hr _ List.mem_cons_self) rfl
  | list i sz => exact .list (hr _ List.mem_cons_self) rfl rfl
  | set i sz => exact .set (hr _ List.mem_cons_self)
  | map k i sz => exact .map (hr _ List.mem_cons_self) (hr _ (List.mem_cons_of_mem _ List.mem_cons_self))

end Verif
