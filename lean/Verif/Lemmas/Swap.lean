import Verif.Spec.Swap
import Verif.Lemmas.Place

/-! # Replacing a part of the data -/

namespace Verif

open Out (LE)

/-- What the first reader reads, the others read too, in data of the same length. -/
def Takes {α : Type} (f : Bytes → Out DErr (RdPair α)) (f' : Nat → Bytes → Out DErr (RdPair α)) : Prop :=
  ∀ bs a rest, f bs = .ok (a, rest) → ∃ c, bs = c ++ rest ∧ ∀ m y, f' m (c ++ y) = .ok (a, y)

theorem Takes.of {α : Type} {f : Bytes → Out DErr (RdPair α)} {f' : Nat → Bytes → Out DErr (RdPair α)} (h : LocalRd f)
    (hm : ∀ m bs, LE (f bs) (f' m bs)) : Takes f f' := by
  intro bs a rest ha
  obtain ⟨c, h1, h2, -⟩ := h bs a rest ha
  exact ⟨c, h1, fun m y => (hm m _).ok (h2 y)⟩

/-- If the first reader reads `v`, the data has a piece as described by `G`; replacing it by one of those of `G'` makes the other
readers read `v'`. -/
def Patch (G : Bytes → Prop) (G' : Nat → Bytes → Prop) {α : Type} (f : Bytes → Out DErr (RdPair α))
    (f' : Nat → Bytes → Out DErr (RdPair α)) (v v' : α) : Prop :=
  ∀ bs rest, f bs = .ok (v, rest) → ∃ pre d post, bs = pre ++ (d ++ (post ++ rest)) ∧ G d ∧
    ∀ m d', G' m d' → ∀ y, f' m (pre ++ (d' ++ (post ++ y))) = .ok (v', y)

variable {G : Bytes → Prop} {G' : Nat → Bytes → Prop} {α β : Type}

theorem Patch.never {f : Bytes → Out DErr (RdPair α)} {f' : Nat → Bytes → Out DErr (RdPair α)} {v v' : α}
    (h : ∀ bs r, f bs ≠ .ok (v, r)) : Patch G G' f f' v v' := fun bs r hr => absurd hr (h bs r)

theorem Patch.first {f : Bytes → Out DErr (RdPair α)} {f' : Nat → Bytes → Out DErr (RdPair α)}
    {g : RdPair α → Out DErr (RdPair β)} {g' : Nat → RdPair α → Out DErr (RdPair β)} {a a' : α} {v v' : β}
    (hf : Patch G G' f f' a a') (hi : ∀ x b r, g (x, b) = .ok (v, r) → x = a)
    (hg : ∀ b r, g (a, b) = .ok (v, r) → ∃ c, b = c ++ r ∧ ∀ m y, g' m (a', c ++ y) = .ok (v', y)) :
    Patch G G' (fun bs => f bs >>= g) (fun m bs => f' m bs >>= g' m) v v' := by
  intro bs rest h
  obtain ⟨⟨x, b⟩, h1, h2⟩ := Out.bind_eq_ok.mp h
  cases hi x b rest h2
  obtain ⟨c, rfl, h3⟩ := hg b rest h2
  obtain ⟨pre, d, post, h4, h5, h6⟩ := hf bs _ h1
  refine ⟨pre, d, post ++ c, by rw [h4]; simp, h5, fun m d' hd y => ?_⟩
  have := h6 m d' hd (c ++ y)
  dsimp only
  rw [List.append_assoc post c y, this]
  exact h3 m y

theorem Patch.second {f : Bytes → Out DErr (RdPair α)} {f' : Nat → Bytes → Out DErr (RdPair α)}
    {g : RdPair α → Out DErr (RdPair β)} {g' : Nat → RdPair α → Out DErr (RdPair β)} {v v' : β}
    (hf : Takes f f') (hg : ∀ a, Patch G G' (fun bs => g (a, bs)) (fun m bs => g' m (a, bs)) v v') :
    Patch G G' (fun bs => f bs >>= g) (fun m bs => f' m bs >>= g' m) v v' := by
  intro bs rest h
  obtain ⟨⟨x, b⟩, h1, h2⟩ := Out.bind_eq_ok.mp h
  obtain ⟨c, rfl, h3⟩ := hf bs x b h1
  obtain ⟨pre, d, post, h4, h5, h6⟩ := hg x b rest h2
  refine ⟨c ++ pre, d, post, by rw [h4]; simp, h5, fun m d' hd y => ?_⟩
  dsimp only
  rw [List.append_assoc c pre, h3]
  exact h6 m d' hd y

theorem Patch.map {f : Bytes → Out DErr (RdPair α)} {f' : Nat → Bytes → Out DErr (RdPair α)} {a a' : α} (F : α → β) 
    (hF : ∀ x, F x = F a → x = a) (hf : Patch G G' f f' a a') :
    Patch G G' (fun bs => f bs >>= fun p => .ok (F p.1, p.2)) (fun m bs => f' m bs >>= fun p => .ok (F p.1, p.2)) (F a) (F a') :=
  hf.first (g' := fun _ p => .ok (F p.1, p.2)) (fun x b r h => hF x (by injection h with h; exact (Prod.mk.inj h).1)) (fun b r h => ⟨[], by cases h; rfl, fun m y => rfl⟩)

variable {E : Env} {rd : SemId → Bytes → Out DErr (RdPair Val)} {rd' : Nat → SemId → Bytes → Out DErr (RdPair Val)}

variable (hl : ∀ i, LocalRd (rd i)) (hm : ∀ m i bs, LE (rd i bs) (rd' m i bs))
include hl hm

theorem patch_items {b : SemId} {w w' : Val} (h : Patch G G' (rd b) (fun m => rd' m b) w w') (r : List Val) : ∀ (n : Nat) (l : List Val),
    Patch G G' (readItems rd b n) (fun m => readItems (rd' m) b n) (l ++ w :: r) (l ++ w' :: r)
  | 0, l => .never fun bs r h => by
      simp only [readItems] at h
      injection h with h
      have := (Prod.mk.inj h).1
      simp at this
  | n + 1, [] => by
    refine h.first (g := fun p => readItems rd b n p.2 >>= fun q => .ok (p.1 :: q.1, q.2))
      (g' := fun m p => readItems (rd' m) b n p.2 >>= fun q => .ok (p.1 :: q.1, q.2)) (fun x c r h => ?_) (fun c q h => ?_)
    · obtain ⟨⟨y, z⟩, h1, h2⟩ := Out.bind_eq_ok.mp h
      cases h2
      rfl
    · obtain ⟨⟨y, z⟩, h1, h2⟩ := Out.bind_eq_ok.mp h
      cases h2
      obtain ⟨d, h3, h4⟩ := Takes.of (f' := fun m => readItems (rd' m) b n) (readItems_local hl b n) (fun m => readItems_le (fun bs => hm m b bs) n) _ _ _ h1
      refine ⟨d, h3, fun m y => ?_⟩
      dsimp only at h4 ⊢
      rw [h4 m y]
      rfl
  | n + 1, x :: l => by
    refine Patch.second (g := fun p => readItems rd b n p.2 >>= fun q => .ok (p.1 :: q.1, q.2))
      (g' := fun m p => readItems (rd' m) b n p.2 >>= fun q => .ok (p.1 :: q.1, q.2))
      (Takes.of (f' := fun m => rd' m b) (hl b) (fun m => hm m b)) fun z => ?_
    by_cases hz : z = x
    · subst hz
      exact (patch_items h r n l).map (z :: ·) (fun y hy => (List.cons.inj hy).2)
    · refine .never fun bs q h => ?_
      obtain ⟨⟨y, s⟩, h1, h2⟩ := Out.bind_eq_ok.mp h
      cases h2
      exact hz rfl

theorem takes_pairs {b c : SemId} (n : Nat) : Takes (readPairs rd b c n) fun m => readPairs (rd' m) b c n :=
  Takes.of (readPairs_local hl b c n) fun m => readPairs_le (fun bs => hm m b bs) (fun bs => hm m c bs) n

theorem takes_tuple (ids : List SemId) : Takes (readTuple rd ids) fun m => readTuple (rd' m) ids :=
  Takes.of (readTuple_local hl ids) fun m => readTuple_le fun r _ bs => hm m r bs

theorem patch_keys {b c : SemId} {w w' : Val} (h : Patch G G' (rd b) (fun m => rd' m b) w w') (x : Val) (r : List (Val × Val)) :
    ∀ (n : Nat) (l : List (Val × Val)),
    Patch G G' (readPairs rd b c n) (fun m => readPairs (rd' m) b c n) (l ++ (w, x) :: r) (l ++ (w', x) :: r)
  | 0, l => .never fun bs r h => by
      simp only [readPairs] at h
      injection h with h
      have := (Prod.mk.inj h).1
      simp at this
  | n + 1, [] => by
    refine h.first (g := fun p => rd c p.2 >>= fun q => readPairs rd b c n q.2 >>= fun s => .ok ((p.1, q.1) :: s.1, s.2))
      (g' := fun m p => rd' m c p.2 >>= fun q => readPairs (rd' m) b c n q.2 >>= fun s => .ok ((p.1, q.1) :: s.1, s.2))
      (fun x c r h => ?_) (fun e q h => ?_)
    · obtain ⟨⟨y, z⟩, h1, h2⟩ := Out.bind_eq_ok.mp h
      obtain ⟨⟨y', z'⟩, h3, h4⟩ := Out.bind_eq_ok.mp h2
      cases h4
      rfl
    · obtain ⟨⟨y, z⟩, h1, h2⟩ := Out.bind_eq_ok.mp h
      obtain ⟨⟨y', z'⟩, h3, h4⟩ := Out.bind_eq_ok.mp h2
      cases h4
      obtain ⟨d, h5, h6⟩ := Takes.of (f' := fun m => rd' m c) (hl c) (fun m => hm m c) _ _ _ h1
      obtain ⟨d', h7, h8⟩ := takes_pairs hl hm n _ _ _ h3
      dsimp only at h5 h7
      refine ⟨d ++ d', by rw [h5, h7, List.append_assoc], fun m y => ?_⟩
      dsimp only at h6 h8 ⊢
      rw [List.append_assoc, h6, Out.bind_ok, h8]
      rfl
  | n + 1, p :: l => by
    refine Patch.second (g := fun p => rd c p.2 >>= fun q => readPairs rd b c n q.2 >>= fun s => .ok ((p.1, q.1) :: s.1, s.2))
      (g' := fun m p => rd' m c p.2 >>= fun q => readPairs (rd' m) b c n q.2 >>= fun s => .ok ((p.1, q.1) :: s.1, s.2))
      (Takes.of (f' := fun m => rd' m b) (hl b) (fun m => hm m b)) fun z => ?_
    refine Patch.second (g := fun q => readPairs rd b c n q.2 >>= fun s => .ok ((z, q.1) :: s.1, s.2))
      (g' := fun m q => readPairs (rd' m) b c n q.2 >>= fun s => .ok ((z, q.1) :: s.1, s.2))
      (Takes.of (f' := fun m => rd' m c) (hl c) (fun m => hm m c)) fun z' => ?_
    by_cases hz : (z, z') = p
    · subst hz
      exact (patch_keys h x r n l).map ((z, z') :: ·) (fun y hy => (List.cons.inj hy).2)
    · refine .never fun bs q h => ?_
      obtain ⟨⟨y, s⟩, h1, h2⟩ := Out.bind_eq_ok.mp h
      cases h2
      exact hz rfl

theorem patch_values {b c : SemId} {w w' : Val} (h : Patch G G' (rd c) (fun m => rd' m c) w w') (x : Val) (r : List (Val × Val)) :
    ∀ (n : Nat) (l : List (Val × Val)),
    Patch G G' (readPairs rd b c n) (fun m => readPairs (rd' m) b c n) (l ++ (x, w) :: r) (l ++ (x, w') :: r)
  | 0, l => .never fun bs r h => by
      simp only [readPairs] at h
      injection h with h
      have := (Prod.mk.inj h).1
      simp at this
  | n + 1, [] => by
    refine Patch.second (g := fun p => rd c p.2 >>= fun q => readPairs rd b c n q.2 >>= fun s => .ok ((p.1, q.1) :: s.1, s.2))
      (g' := fun m p => rd' m c p.2 >>= fun q => readPairs (rd' m) b c n q.2 >>= fun s => .ok ((p.1, q.1) :: s.1, s.2))
      (Takes.of (f' := fun m => rd' m b) (hl b) (fun m => hm m b)) fun z => ?_
    by_cases hz : z = x
    · subst hz
      refine h.first (g := fun q => readPairs rd b c n q.2 >>= fun s => .ok ((z, q.1) :: s.1, s.2))
        (g' := fun m q => readPairs (rd' m) b c n q.2 >>= fun s => .ok ((z, q.1) :: s.1, s.2)) (fun x c r h => ?_) (fun e q h => ?_)
      · obtain ⟨⟨y, z⟩, h1, h2⟩ := Out.bind_eq_ok.mp h
        cases h2
        rfl
      · obtain ⟨⟨y, z⟩, h1, h2⟩ := Out.bind_eq_ok.mp h
        cases h2
        obtain ⟨d, h3, h4⟩ := takes_pairs hl hm n _ _ _ h1
        refine ⟨d, h3, fun m y => ?_⟩
        dsimp only at h4 ⊢
        rw [h4 m y]
        rfl
    · refine .never fun bs q h => ?_
      obtain ⟨⟨y, s⟩, h1, h2⟩ := Out.bind_eq_ok.mp h
      obtain ⟨⟨y', s'⟩, h3, h4⟩ := Out.bind_eq_ok.mp h2
      cases h4
      exact hz rfl
  | n + 1, p :: l => by
    refine Patch.second (g := fun p => rd c p.2 >>= fun q => readPairs rd b c n q.2 >>= fun s => .ok ((p.1, q.1) :: s.1, s.2))
      (g' := fun m p => rd' m c p.2 >>= fun q => readPairs (rd' m) b c n q.2 >>= fun s => .ok ((p.1, q.1) :: s.1, s.2))
      (Takes.of (f' := fun m => rd' m b) (hl b) (fun m => hm m b)) fun z => ?_
    refine Patch.second (g := fun q => readPairs rd b c n q.2 >>= fun s => .ok ((z, q.1) :: s.1, s.2))
      (g' := fun m q => readPairs (rd' m) b c n q.2 >>= fun s => .ok ((z, q.1) :: s.1, s.2))
      (Takes.of (f' := fun m => rd' m c) (hl c) (fun m => hm m c)) fun z' => ?_
    by_cases hz : (z, z') = p
    · subst hz
      exact (patch_values h x r n l).map ((z, z') :: ·) (fun y hy => (List.cons.inj hy).2)
    · refine .never fun bs q h => ?_
      obtain ⟨⟨y, s⟩, h1, h2⟩ := Out.bind_eq_ok.mp h
      cases h2
      exact hz rfl

theorem patch_tuple {b : SemId} {w w' : Val} (h : Patch G G' (rd b) (fun m => rd' m b) w w') (r : List Val) :
    ∀ (ids : List SemId) (l : List Val), ids[l.length]? = some b →
    Patch G G' (readTuple rd ids) (fun m => readTuple (rd' m) ids) (l ++ w :: r) (l ++ w' :: r)
  | [], l, hi => by simp at hi
  | i :: ids, [], hi => by
    cases hi
    refine h.first (g := fun p => readTuple rd ids p.2 >>= fun q => .ok (p.1 :: q.1, q.2))
      (g' := fun m p => readTuple (rd' m) ids p.2 >>= fun q => .ok (p.1 :: q.1, q.2)) (fun x c r h => ?_) (fun c q h => ?_)
    · obtain ⟨⟨y, z⟩, h1, h2⟩ := Out.bind_eq_ok.mp h
      cases h2
      rfl
    · obtain ⟨⟨y, z⟩, h1, h2⟩ := Out.bind_eq_ok.mp h
      cases h2
      obtain ⟨d, h3, h4⟩ := takes_tuple hl hm ids _ _ _ h1
      refine ⟨d, h3, fun m y => ?_⟩
      dsimp only at h4 ⊢
      rw [h4 m y]
      rfl
  | i :: ids, x :: l, hi => by
    refine Patch.second (g := fun p => readTuple rd ids p.2 >>= fun q => .ok (p.1 :: q.1, q.2))
      (g' := fun m p => readTuple (rd' m) ids p.2 >>= fun q => .ok (p.1 :: q.1, q.2))
      (Takes.of (f' := fun m => rd' m i) (hl i) (fun m => hm m i)) fun z => ?_
    by_cases hz : z = x
    · subst hz
      exact (patch_tuple h r ids l (by simpa using hi)).map (z :: ·) (fun y hy => (List.cons.inj hy).2)
    · refine .never fun bs q h => ?_
      obtain ⟨⟨y, s⟩, h1, h2⟩ := Out.bind_eq_ok.mp h
      cases h2
      exact hz rfl

omit hl hm

theorem fields_tuple {rd : SemId → Bytes → Out DErr (RdPair Val)} : ∀ (req : List (Name × SemId)) (acc : List (Name × Val)) (bs : Bytes),
    (acc.map Prod.fst ++ req.map Prod.fst).Nodup →
    readFields rd req acc bs = readTuple rd (req.map Prod.snd) bs >>= fun p => .ok (acc ++ (req.map Prod.fst).zip p.1, p.2)
  | [], acc, bs, _ => by simp [readFields, readTuple]
  | (n, i) :: req, acc, bs, hn => by
    have hni : n ∉ acc.map Prod.fst := by
      intro hm
      rw [List.nodup_append] at hn
      exact hn.2.2 n hm n (by simp) rfl
    simp only [readFields, readTuple, List.map_cons]
    cases h : rd i bs with
    | ok p =>
      simp only [Out.bind_ok]
      rw [imInsert_append hni, fields_tuple req _ _ (by simpa using hn)]
      cases readTuple rd (req.map Prod.snd) p.2 <;> simp
    | err e => rfl
    | panic => rfl
    | diverge => rfl

theorem readTuple_count {rd : SemId → Bytes → Out DErr (RdPair Val)} : ∀ {ids : List SemId} {bs rest : Bytes} {l : List Val},
    readTuple rd ids bs = .ok (l, rest) → l.length = ids.length
  | [], _, _, _, h => by cases h; rfl
  | i :: ids, _, _, _, h => by
    obtain ⟨⟨v, b1⟩, h1, h2⟩ := Out.bind_eq_ok.mp h
    obtain ⟨⟨vs, b2⟩, h3, h4⟩ := Out.bind_eq_ok.mp h2
    cases h4
    simp [readTuple_count h3]

theorem zip_self {α β : Type} (l : List (α × β)) : (l.map Prod.fst).zip (l.map Prod.snd) = l := by
  induction l with
  | nil => rfl
  | cons p l ih => simp [ih]

include hl hm

theorem patch_fields {req : List (Name × SemId)} (hd : (req.map Prod.fst).Nodup) {n : Name} {b : SemId} (hb : (n, b) ∈ req)
    {w w' : Val} (h : Patch G G' (rd b) (fun m => rd' m b) w w') (l r : List (Name × Val)) :
    Patch G G' (readFields rd req []) (fun m => readFields (rd' m) req []) (l ++ (n, w) :: r) (l ++ (n, w') :: r) := by
  intro bs rest hr
  rw [fields_tuple req [] bs (by simpa using hd)] at hr
  obtain ⟨⟨vals, c⟩, h1, h2⟩ := Out.bind_eq_ok.mp hr
  injection h2 with h2
  have h3 : c = rest := congrArg Prod.snd h2
  replace h2 : [] ++ (req.map Prod.fst).zip vals = l ++ (n, w) :: r := congrArg Prod.fst h2
  subst h3
  rw [List.nil_append] at h2
  have hlen := readTuple_count h1
  rw [List.length_map] at hlen
  have hn : req.map Prod.fst = l.map Prod.fst ++ n :: r.map Prod.fst := by
    have := congrArg (List.map Prod.fst) h2
    rw [List.map_fst_zip (by simp [hlen])] at this
    simpa using this
  have hv : vals = l.map Prod.snd ++ w :: r.map Prod.snd := by
    have := congrArg (List.map Prod.snd) h2
    rw [List.map_snd_zip (by simp [hlen])] at this
    simpa using this
  have hk : l.length < req.length := by
    have := congrArg List.length hn
    simp at this
    omega
  have hkn : req[l.length].1 = n := by
    have h4 : (req.map Prod.fst)[l.length]? = some n := by rw [hn]; simp
    rw [List.getElem?_map, List.getElem?_eq_getElem hk] at h4
    simpa using h4
  have hkb : req[l.length].2 = b := by
    have h6 := (fieldTy_iff hd n req[l.length].2).mpr (by rw [← hkn]; exact List.getElem_mem hk)
    rw [(fieldTy_iff hd _ _).mpr hb] at h6
    cases h6
    rfl
  have hi : (req.map Prod.snd)[(l.map Prod.snd).length]? = some b := by
    rw [List.getElem?_map, List.length_map, List.getElem?_eq_getElem hk, Option.map_some, hkb]
  subst hv
  obtain ⟨pre, d, post, h4, h5, h6⟩ := patch_tuple hl hm h (r.map Prod.snd) _ _ hi bs c h1
  refine ⟨pre, d, post, h4, h5, fun m d' hd' y => ?_⟩
  dsimp only at h6 ⊢
  rw [fields_tuple req [] _ (by simpa using hd), h6 m d' hd' y, Out.bind_ok, hn, List.nil_append]
  congr 2
  dsimp only
  rw [List.zip_append (by simp), List.zip_cons_cons, zip_self, zip_self]

theorem patch_seq {b : SemId} {w w' : Val} (h : Patch G G' (rd b) (fun m => rd' m b) w w') (k : Nat) (l r : List Val) :
    Patch G G' (readSeq rd E b k) (fun m => readSeq (rd' m) E b k) (l ++ w :: r) (l ++ w' :: r) := by
  refine Patch.second (g := fun p => withCapacity E.valSize p.1 >>= fun _ => readItems rd b p.1 p.2)
    (g' := fun m p => withCapacity E.valSize p.1 >>= fun _ => readItems (rd' m) b p.1 p.2)
    (Takes.of (f' := fun _ => readLe k) (readLe_local k) fun _ _ => LE.refl _) fun n => ?_
  dsimp only
  cases withCapacity E.valSize n with
  | ok _ => exact patch_items hl hm h r n l
  | _ => exact .never fun bs r h => by cases h

theorem patch_mapKey {b c : SemId} {w w' : Val} (h : Patch G G' (rd b) (fun m => rd' m b) w w') (x : Val) (k : Nat) (l r : List (Val × Val)) :
    Patch G G' (readMapSeq rd E b c k) (fun m => readMapSeq (rd' m) E b c k) (l ++ (w, x) :: r) (l ++ (w', x) :: r) := by
  refine Patch.second (g := fun p => withCapacity (2 * E.valSize) p.1 >>= fun _ => readPairs rd b c p.1 p.2)
    (g' := fun m p => withCapacity (2 * E.valSize) p.1 >>= fun _ => readPairs (rd' m) b c p.1 p.2)
    (Takes.of (f' := fun _ => readLe k) (readLe_local k) fun _ _ => LE.refl _) fun n => ?_
  dsimp only
  cases withCapacity (2 * E.valSize) n with
  | ok _ => exact patch_keys hl hm h x r n l
  | _ => exact .never fun bs r h => by cases h

theorem patch_mapValue {b c : SemId} {w w' : Val} (h : Patch G G' (rd c) (fun m => rd' m c) w w') (x : Val) (k : Nat) (l r : List (Val × Val)) :
    Patch G G' (readMapSeq rd E b c k) (fun m => readMapSeq (rd' m) E b c k) (l ++ (x, w) :: r) (l ++ (x, w') :: r) := by
  refine Patch.second (g := fun p => withCapacity (2 * E.valSize) p.1 >>= fun _ => readPairs rd b c p.1 p.2)
    (g' := fun m p => withCapacity (2 * E.valSize) p.1 >>= fun _ => readPairs (rd' m) b c p.1 p.2)
    (Takes.of (f' := fun _ => readLe k) (readLe_local k) fun _ _ => LE.refl _) fun n => ?_
  dsimp only
  cases withCapacity (2 * E.valSize) n with
  | ok _ => exact patch_values hl hm h x r n l
  | _ => exact .never fun bs r h => by cases h

omit hl hm

/-- The bytes are the data of the value. -/
def DataOf (E : Env) (i : SemId) (w : Val) (n : Nat) (d : Bytes) : Prop := ∀ x, read E n i (d ++ x) = .ok (w, x)

theorem DataOf.mono {i : SemId} {w : Val} {n m : Nat} {d : Bytes} (h : n ≤ m) (hd : DataOf E i w n d) : DataOf E i w m d :=
  fun x => read_mono h (hd x)

theorem Patch.mono {G₂ : Bytes → Prop} {f : Bytes → Out DErr (RdPair α)} {f' : Nat → Bytes → Out DErr (RdPair α)} {v v' : α}
    (hG : ∀ d, G d → G₂ d) (h : Patch G G' f f' v v') : Patch G₂ G' f f' v v' := by
  intro bs rest hr
  obtain ⟨pre, d, post, h1, h2, h3⟩ := h bs rest hr
  exact ⟨pre, d, post, h1, hG d h2, h3⟩

theorem readAscii_never {k : Nat} {bs r : Bytes} {v : Val} (hv : ∀ s, v ≠ .str s) : readAscii k bs ≠ .ok (v, r) := by
  intro h
  simp only [readAscii] at h
  obtain ⟨⟨_, _⟩, -, h⟩ := Out.bind_eq_ok.mp h
  obtain ⟨⟨_, _⟩, -, h⟩ := Out.bind_eq_ok.mp h
  dsimp only at h
  split at h
  · cases h
    exact hv _ rfl
  · cases h

theorem patch_layer {a i : SemId} {t : Ty SemId} {v v' w : Val} (hf : E.find a = some t)
    (h : ∀ n, Patch (DataOf E i w n) G' (readTy (read E n) E a t) (fun m => readTy (read E (n + m)) E a t) v v') :
    ∀ n, Patch (DataOf E i w n) G' (read E n a) (fun m => read E (n + m) a) v v'
  | 0 => .never fun _ _ h => by cases h
  | n + 1 => by
    intro bs rest hr
    simp only [read, hf] at hr
    obtain ⟨pre, d, post, h1, h2, h3⟩ := h n bs rest hr
    refine ⟨pre, d, post, h1, h2.mono (Nat.le_succ n), fun m d' hd y => ?_⟩
    dsimp only
    rw [Nat.succ_add]
    simp only [read, hf]
    exact h3 m d' hd y

theorem swap_read (hs : E.Sane) {a i : SemId} {v v' w w' : Val} (h : Swap E a v v' i w w') : ∀ n,
    Patch (DataOf E i w n) (DataOf E i w') (read E n a) (fun m => read E (n + m) a) v v' := by
  have hl : ∀ n j, LocalRd (read E n j) := read_local E
  have hm : ∀ n m j bs, LE (read E n j bs) (read E (n + m) j bs) :=
    fun n m j bs => read_le (Env.Agree.refl E) (Nat.le_add_right n m) trivial bs
  induction h with
  | here a v v' =>
    intro n bs rest h
    obtain ⟨d, h1, h2, -⟩ := read_local E n a bs v rest h
    refine ⟨[], d, [], by simpa using h1, h2, fun m d' hd y => ?_⟩
    exact hd.mono (Nat.le_add_left m n) y
  | @listItem a b i sz w w' u u' l r hf _ ih =>
    refine patch_layer hf fun n => ?_
    show Patch _ _ (fun bs => readTy (read E n) E a (.list b sz) bs) (fun m bs => readTy (read E (n + m)) E a (.list b sz) bs) _ _
    simp only [readTy, readList]
    cases E.find b with
    | none => exact .never fun _ _ h => by cases h
    | some t =>
      dsimp only
      split
      · exact .never fun _ _ => readAscii_never fun s h => by cases h
      · split
        · refine .never fun bs q h => ?_
          simp only [readBlob] at h
          obtain ⟨⟨_, _⟩, -, h⟩ := Out.bind_eq_ok.mp h
          obtain ⟨⟨_, _⟩, -, h⟩ := Out.bind_eq_ok.mp h
          cases h
        · split
          · refine .never fun bs q h => ?_
            simp only [readString] at h
            obtain ⟨⟨_, _⟩, -, h⟩ := Out.bind_eq_ok.mp h
            obtain ⟨⟨_, _⟩, -, h⟩ := Out.bind_eq_ok.mp h
            dsimp only at h
            split at h <;> cases h
          · exact (patch_seq (hl n) (hm n) (ih n) _ l r).map Val.list fun x hx => Val.list.inj hx
  | @arrayItem a b i len w w' u u' l r hf _ ih =>
    refine patch_layer hf fun n => ?_
    show Patch _ _ (fun bs => readTy (read E n) E a (.array b len) bs) (fun m bs => readTy (read E (n + m)) E a (.array b len) bs) _ _
    simp only [readTy]
    split
    · refine .never fun bs q h => ?_
      obtain ⟨⟨_, _⟩, -, h⟩ := Out.bind_eq_ok.mp h
      cases h
    · exact (patch_items (hl n) (hm n) (ih n) r _ l).map Val.list fun x hx => Val.list.inj hx
  | @setItem a b i sz w w' u u' l r hf _ ih =>
    exact patch_layer hf fun n => (patch_seq (hl n) (hm n) (ih n) _ l r).map Val.set fun x hx => Val.set.inj hx
  | @mapKey a b c i sz w w' u u' l r x hf _ ih =>
    exact patch_layer hf fun n => (patch_mapKey (hl n) (hm n) (ih n) x _ l r).map Val.map fun x hx => Val.map.inj hx
  | @mapValue a b c i sz w w' u u' l r x hf _ ih =>
    exact patch_layer hf fun n => (patch_mapValue (hl n) (hm n) (ih n) x _ l r).map Val.map fun x hx => Val.map.inj hx
  | @tupleField a b i ids w w' u u' l r hf hi _ ih =>
    refine patch_layer hf fun n => ?_
    show Patch _ _ (fun bs => readTy (read E n) E a (.tuple ids) bs) (fun m bs => readTy (read E (n + m)) E a (.tuple ids) bs) _ _
    simp only [readTy, readTupleTy]
    cases ofUnknown (E.isRString ids) with
    | ok q =>
      cases q with
      | true =>
        refine .never fun bs q h => ?_
        simp only [Out.bind_ok, if_true] at h
        obtain ⟨o, -, h⟩ := Out.bind_eq_ok.mp h
        split at h
        · exact readAscii_never (fun s h => by cases h) h
        · cases h
      | false => exact (patch_tuple (hl n) (hm n) (ih n) r ids l hi).map Val.tuple fun x hx => Val.tuple.inj hx
    | _ => exact .never fun _ _ h => by cases h
  | @structField a b i req n w w' u u' l r hf hb _ ih =>
    exact patch_layer hf fun k => (patch_fields (hl k) (hm k) (hs.fields _ _ hf) hb (ih k) l r).map Val.struct fun x hx => Val.struct.inj hx
  | @variant a b i vs n t w w' u u' hf hb _ ih =>
    refine patch_layer hf fun k => ?_
    have hwf : VariantsWF _ := hs.wf _ _ hf
    refine Patch.second (f := readLe 1) (f' := fun _ => readLe 1)
      (Takes.of (readLe_local 1) fun _ _ => LE.refl _) fun t' => ?_
    dsimp only
    cases hq : Ty.unionByTag vs (BitVec.ofNat 8 t') with
    | none => exact .never fun _ _ h => by cases h
    | some q =>
      by_cases hn : q.1.name = n
      · obtain ⟨hq1, -⟩ := (unionByTag_iff hwf q _).mp hq
        have h5 := (unionTyByName_iff hwf _ _).mpr ⟨_, hb⟩
        rw [← hn, (unionTyByName_iff hwf q.1.name q.2).mpr ⟨q.1.tag, hq1⟩] at h5
        have h6 : q.2 = b := Option.some.inj h5
        have := (h6 ▸ ih k : Patch _ _ (read E k q.2) (fun m => read E (k + m) q.2) w w').map (Val.union (.name q.1.name)) fun x hx => (Val.union.inj hx).2
        rw [hn] at this
        subst hn
        exact this
      · refine .never fun bs r h => ?_
        obtain ⟨⟨y, s⟩, h1, h2⟩ := Out.bind_eq_ok.mp h
        cases h2
        exact hn rfl

end Verif
