import Verif.Spec.Notation
import Verif.Lemmas.TypifyExact

/-! # Which ways to write a value are understood -/

namespace Verif

variable {E : Env}

theorem all3_length {α β γ : Type} {R : α → β → γ → Prop} : ∀ {l : List α} {m : List β} {k : List γ}, All3 R l m k →
    l.length = m.length ∧ m.length = k.length
  | [], [], [], _ => ⟨rfl, rfl⟩
  | _ :: _, _ :: _, _ :: _, h => by
    have := all3_length h.2
    simp [this]
  | [], _ :: _, _, h => by simp [All3] at h
  | [], [], _ :: _, h => by simp [All3] at h
  | _ :: _, [], _, h => by simp [All3] at h
  | _ :: _, _ :: _, [], h => by simp [All3] at h

section
variable {rec : Val → SemId → Out TErr Val}

theorem typifyZip_zipped : ∀ {l ws : List Val} {ids : List SemId}, typifyZip rec l ids = .ok ws →
    ws.length = ids.length → ∃ a b, l = a ++ b ∧ All3 (fun v i w => rec v i = .ok w) a ids ws
  | [], ws, ids, h, hl => by
    cases h
    cases ids with
    | nil => exact ⟨[], [], rfl, trivial⟩
    | cons => simp at hl
  | v :: l, ws, [], h, hl => by
    cases h
    exact ⟨[], v :: l, rfl, trivial⟩
  | v :: l, ws, i :: ids, h, hl => by
    obtain ⟨w, h1, h2⟩ := Out.bind_eq_ok.mp h
    obtain ⟨ws', h3, h4⟩ := Out.bind_eq_ok.mp h2
    cases h4
    obtain ⟨a, b, rfl, h5⟩ := typifyZip_zipped h3 (by simpa using hl)
    exact ⟨v :: a, b, rfl, h1, h5⟩

theorem zipped_typifyZip : ∀ {a b ws : List Val} {ids : List SemId}, All3 (fun v i w => rec v i = .ok w) a ids ws →
    typifyZip rec (a ++ b) ids = .ok ws
  | [], b, [], [], _ => by cases b <;> rfl
  | v :: a, b, w :: ws, i :: ids, h => by
    have := zipped_typifyZip (b := b) h.2
    simp only [List.cons_append, typifyZip, h.1, this, Out.bind_ok, Out.pure_eq]
  | [], _, _ :: _, _, h => by simp [All3] at h
  | [], _, [], _ :: _, h => by simp [All3] at h
  | _ :: _, _, [], _, h => by simp [All3] at h
  | _ :: _, _, _ :: _, [], h => by simp [All3] at h

theorem typifyMapFields_each {req : List (Name × SemId)} : ∀ {es : List (Val × Val)} {acc new : List (Name × Val)},
    (es.Pairwise fun a b => ∀ s, a.1 = .str s → b.1 ≠ .str s) → (∀ e ∈ es, ∀ n ∈ acc.map Prod.fst, e.1 ≠ .str n.bytes) →
    typifyMapFields rec req es acc = .ok new →
    ∃ ws, new = acc ++ ws ∧ All2 (fun e w => e.1 = .str w.1.bytes ∧ ∃ i, Ty.fieldTy req w.1 = some i ∧
      rec e.2 i = .ok w.2) es ws
  | [], acc, new, _, _, h => by
    cases h; exact ⟨[], by simp, trivial⟩
  | (k, v) :: es, acc, new, hp, hn, h => by
    cases k with
    | str s =>
      simp only [typifyMapFields] at h
      split at h
      · cases h
      · rename_i n hs
        obtain rfl := Name.ofBytes?_eq_some.mp hs
        split at h
        · cases h
        · rename_i i hi
          obtain ⟨w, h1, h2⟩ := Out.bind_eq_ok.mp h
          have hni : n ∉ acc.map Prod.fst := fun hm => hn _ List.mem_cons_self n hm rfl
          rw [imInsert_append hni] at h2
          rw [List.pairwise_cons] at hp
          obtain ⟨ws, rfl, h3⟩ := typifyMapFields_each hp.2 (by
            intro e he m hm
            rw [List.map_append, List.mem_append] at hm
            rcases hm with hm | hm
            · exact hn e (List.mem_cons_of_mem _ he) m hm
            · simp only [List.map_cons, List.map_nil, List.mem_singleton] at hm
              subst hm
              exact hp.1 e he _ rfl) h2
          exact ⟨(n, w) :: ws, by simp, ⟨⟨rfl, i, hi, h1⟩, h3⟩⟩
    | _ => cases h

theorem named_typifyFields {req : List (Name × SemId)} (hd : (req.map Prod.fst).Nodup) :
    ∀ {fs : List (Name × Val)} {rs : List (Name × SemId)} {ws acc : List (Name × Val)},
    All3 (fun f r w => f.1 = r.1 ∧ w.1 = r.1 ∧ rec f.2 r.2 = .ok w.2) fs rs ws → (∀ r ∈ rs, r ∈ req) →
    (acc.map Prod.fst ++ rs.map Prod.fst).Nodup → typifyFields rec req fs acc = .ok (acc ++ ws)
  | [], [], [], acc, _, _, _ => by simp [typifyFields]
  | (n, v) :: fs, (m, i) :: rs, (k, w) :: ws, acc, h, hm, hn => by
    obtain ⟨⟨h1, h2, h3⟩, h4⟩ := h
    dsimp only at h1 h2 h3
    subst h1 h2
    have hi : Ty.fieldTy req k = some i := (fieldTy_iff hd _ _).mpr (hm _ List.mem_cons_self)
    have hnot : k ∉ acc.map Prod.fst := fun hmem => (List.nodup_append.mp hn).2.2 k hmem k (by simp) rfl
    simp only [typifyFields, hi, h3, Out.bind_ok, imInsert_append hnot]
    rw [named_typifyFields hd h4 (fun r hr => hm r (List.mem_cons_of_mem _ hr)) (by simpa using hn)]
    simp
  | [], _ :: _, _, _, h, _, _ => by simp [All3] at h
  | [], [], _ :: _, _, h, _, _ => by simp [All3] at h
  | _ :: _, [], _, _, h, _, _ => by simp [All3] at h
  | _ :: _, _ :: _, [], _, h, _, _ => by simp [All3] at h

theorem named_typifyMapFields {req : List (Name × SemId)} (hd : (req.map Prod.fst).Nodup) :
    ∀ {es : List (Val × Val)} {rs : List (Name × SemId)} {ws acc : List (Name × Val)},
    All3 (fun e r w => e.1 = .str r.1.bytes ∧ w.1 = r.1 ∧ rec e.2 r.2 = .ok w.2) es rs ws → (∀ r ∈ rs, r ∈ req) →
    (acc.map Prod.fst ++ rs.map Prod.fst).Nodup → typifyMapFields rec req es acc = .ok (acc ++ ws)
  | [], [], [], acc, _, _, _ => by simp [typifyMapFields]
  | (n, v) :: fs, (m, i) :: rs, (k, w) :: ws, acc, h, hm, hn => by
    obtain ⟨⟨h1, h2, h3⟩, h4⟩ := h
    dsimp only at h1 h2 h3
    subst h1 h2
    have hi : Ty.fieldTy req k = some i := (fieldTy_iff hd _ _).mpr (hm _ List.mem_cons_self)
    have hnot : k ∉ acc.map Prod.fst := fun hmem => (List.nodup_append.mp hn).2.2 k hmem k (by simp) rfl
    simp only [typifyMapFields, Name.ofBytes?_bytes, hi, h3, Out.bind_ok, imInsert_append hnot]
    rw [named_typifyMapFields hd h4 (fun r hr => hm r (List.mem_cons_of_mem _ hr)) (by simpa using hn)]
    simp
  | [], _ :: _, _, _, h, _, _ => by simp [All3] at h
  | [], [], _ :: _, _, h, _, _ => by simp [All3] at h
  | _ :: _, [], _, _, h, _, _ => by simp [All3] at h
  | _ :: _, _ :: _, [], _, h, _, _ => by simp [All3] at h

theorem each_outMap {f : Val → Out TErr Val} : ∀ {l ws : List Val}, All2 (fun v w => f v = .ok w) l ws → outMap f l = .ok ws
  | [], [], _ => rfl
  | v :: l, w :: ws, h => by simp [outMap, h.1, each_outMap h.2]
  | [], _ :: _, h => h.elim
  | _ :: _, [], h => h.elim

theorem each_typifySetItems {id : SemId} : ∀ {l ws acc : List Val}, All2 (fun v w => rec v id = .ok w) l ws →
    (acc ++ ws).Pairwise (fun a b => a.eqv b = false) → typifySetItems rec id l acc = .ok (acc ++ ws)
  | [], [], acc, _, _ => by simp [typifySetItems]
  | v :: l, w :: ws, acc, h, hp => by
    have hany : acc.any (fun a => a.eqv w) = false := by
      rw [List.any_eq_false]
      intro a ha
      have := (List.pairwise_append.mp hp).2.2 a ha w (by simp)
      simp [this]
    simp only [typifySetItems, h.1, Out.bind_ok, hany]
    rw [if_neg (by simp), each_typifySetItems h.2 (by simpa using hp)]
    simp
  | [], _ :: _, _, h, _ => h.elim
  | _ :: _, [], _, h, _ => h.elim

theorem each_typifyMapItems {kid id : SemId} : ∀ {l ws acc : List (Val × Val)},
    All2 (fun v w => rec v.1 kid = .ok w.1 ∧ rec v.2 id = .ok w.2) l ws →
    ((acc ++ ws).map Prod.fst).Pairwise (fun a b => a.eqv b = false) → typifyMapItems rec kid id l acc = .ok (acc ++ ws)
  | [], [], acc, _, _ => by simp [typifyMapItems]
  | (k, v) :: l, (k', w) :: ws, acc, h, hp => by
    have hany : acc.any (fun a => a.1.eqv k') = false := by
      rw [List.any_eq_false]
      intro a ha
      rw [List.map_append] at hp
      have := (List.pairwise_append.mp hp).2.2 a.1 (List.mem_map.mpr ⟨a, ha, rfl⟩) k' (by simp)
      simp [this]
    obtain ⟨⟨h1, h2⟩, h3⟩ := h
    dsimp only at h1 h2
    simp only [typifyMapItems, h1, h2, Out.bind_ok, hany]
    rw [if_neg (by simp), each_typifyMapItems h3 (by simpa using hp)]
    simp
  | [], _ :: _, _, h, _ => h.elim
  | _ :: _, [], _, h, _ => h.elim

end


theorem all3_of_two {α β γ : Type} {P : α → γ → Prop} {T : γ → β → Prop} {S : α → β → γ → Prop} :
    ∀ {l : List α} {m : List β} {k : List γ}, All2 P l k → All2 T k m →
    (∀ a ∈ l, ∀ b ∈ m, ∀ c, P a c → T c b → S a b c) → All3 S l m k
  | [], [], [], _, _, _ => trivial
  | a :: l, b :: m, c :: k, h1, h2, h => ⟨h _ (by simp) _ (by simp) _ h1.1 h2.1,
      all3_of_two h1.2 h2.2 fun a ha b hb => h a (List.mem_cons_of_mem _ ha) b (List.mem_cons_of_mem _ hb)⟩
  | [], _, _ :: _, h, _, _ => h.elim
  | _ :: _, _, [], h, _, _ => h.elim
  | _, [], _ :: _, _, h, _ => h.elim
  | _, _ :: _, [], _, h, _ => h.elim

theorem all3_with {α β γ : Type} {P : α → β → γ → Prop} {T : γ → β → Prop} {S : α → β → γ → Prop} :
    ∀ {l : List α} {m : List β} {k : List γ}, All3 P l m k → All2 T k m →
    (∀ a ∈ l, ∀ b c, P a b c → T c b → S a b c) → All3 S l m k
  | [], [], [], _, _, _ => trivial
  | a :: l, b :: m, c :: k, h1, h2, h => ⟨h _ (by simp) _ _ h1.1 h2.1,
      all3_with h1.2 h2.2 fun a ha => h a (List.mem_cons_of_mem _ ha)⟩
  | [], _ :: _, _, h, _, _ => by simp [All3] at h
  | [], [], _ :: _, h, _, _ => by simp [All3] at h
  | _ :: _, [], _, h, _, _ => by simp [All3] at h
  | _ :: _, _ :: _, [], h, _, _ => by simp [All3] at h

theorem all2_with {α γ : Type} {P S : α → γ → Prop} : ∀ {l : List α} {k : List γ}, All2 P l k →
    (∀ a ∈ l, ∀ c ∈ k, P a c → S a c) → All2 S l k
  | [], [], _, _ => trivial
  | a :: l, c :: k, h1, h => ⟨h _ (by simp) _ (by simp) h1.1,
      all2_with h1.2 fun a ha c hc => h a (List.mem_cons_of_mem _ ha) c (List.mem_cons_of_mem _ hc)⟩
  | [], _ :: _, h, _ => h.elim
  | _ :: _, [], h, _ => h.elim

theorem str_eqv {a : Val} {s : Bytes} : a.eqv (.str s) = true ↔ a = .str s := by
  cases a <;> simp [Val.eqv]

theorem unit_eqv {a : Val} : a.eqv .unit = true ↔ a = .unit := by
  cases a <;> simp [Val.eqv]

theorem hasTag_iff {vs : List Variant} {b : Byte} : Ty.enumHasTag vs b = true ↔ InAlphabet vs b := by
  simp [Ty.enumHasTag, InAlphabet]

/-! ## What is understood -/

section
variable {rec : Val → SemId → Out TErr Val} {R : Val → SemId → Val → Prop} {T : Val → SemId → Prop}
  (hrec : ∀ v i w, v.Unrepeated → rec v i = .ok w → T w i → R v i w)
include hrec

theorem way_union {vs : List (Variant × SemId)} (hwf : VariantsWF (vs.map Prod.fst)) {v w : Val} (hu : v.Unrepeated)
    (h : typifyUnion rec vs v = .ok w) (hi : Inhabits E true T w (.union vs)) : Way R v (.union vs) w := by
  cases hi with
  | @union _ n t i w hm hw =>
  unfold typifyUnion at h
  split at h
  · rename_i tag content
    split at h
    · rename_i j hj
      obtain ⟨x, h1, h2⟩ := Out.bind_eq_ok.mp h
      cases h2
      dsimp only at hj
      obtain ⟨t', hj⟩ := (unionTyByName_iff hwf _ _).mp hj
      have hij := (unionTyByName_iff hwf _ _).mpr ⟨t', hj⟩
      rw [(unionTyByName_iff hwf _ _).mpr ⟨t, hm⟩] at hij
      cases hij
      cases hu with
      | union hu => exact .variant hm (hrec _ _ _ hu h1 hw)
    · cases h
  · split at h
    · rename_i ho
      obtain ⟨a, b, rfl⟩ := isOption_iff.mp ho
      cases h
      exact .none rfl
    · cases h
  · rename_i a b
    split at h
    · rename_i ho
      obtain ⟨p, q, rfl⟩ := isOption_iff.mp ho
      obtain ⟨c, h1, h2⟩ := Out.bind_eq_ok.mp h
      cases h1
      split at h2
      · rename_i hc
        rw [Bool.and_eq_true, str_eqv, unit_eqv] at hc
        obtain ⟨rfl, rfl⟩ := hc
        cases h2
        exact .noneWord rfl
      · split at h2
        · rename_i hc
          rw [str_eqv] at hc
          subst hc
          obtain ⟨x, h3, h4⟩ := Out.bind_eq_ok.mp h2
          cases h4
          have hiq : i = q := by
            have := (unionTyByName_iff hwf _ _).mpr ⟨t, hm⟩
            simpa using this.symm.trans (show Ty.unionTyByName _ _ = some q from rfl)
          subst hiq
          cases hu with
          | tuple hu => exact .someWord rfl (hrec _ _ _ (hu _ (by simp)) h3 hw)
        · cases h2
    · cases h
  · rename_i hn1 hn2 hn3
    split at h
    · rename_i ho
      obtain ⟨p, q, rfl⟩ := isOption_iff.mp ho
      obtain ⟨c, h1, h2⟩ := Out.bind_eq_ok.mp h
      cases h1
      obtain ⟨x, h3, h4⟩ := Out.bind_eq_ok.mp h2
      cases h4
      have hiq : i = q := by
        have := (unionTyByName_iff hwf _ _).mpr ⟨t, hm⟩
        simpa using this.symm.trans (show Ty.unionTyByName _ _ = some q from rfl)
      subst hiq
      refine .some rfl ?_ (hrec _ _ _ hu h3 hw)
      intro hk
      cases hk with
      | unit => exact hn2 rfl
      | union => exact hn1 _ _ rfl
      | pair => exact hn3 _ _ rfl
    · cases h

theorem way_tuple {ids : List SemId} {v w : Val} (hu : v.Unrepeated)
    (h : typifyTuple rec ids v = .ok w) (hi : Inhabits E true T w (.tuple ids)) : Way R v (.tuple ids) w := by
  have hnew : ∀ v : Val, v.Unrepeated → (∀ l, v ≠ .tuple l) → (∀ l, v ≠ .list l) → typifyTuple.newtype rec ids v = .ok w →
      Way R v (.tuple ids) w := by
    intro v hu h1 h2 h
    unfold typifyTuple.newtype at h
    split at h
    · obtain ⟨x, h3, h4⟩ := Out.bind_eq_ok.mp h
      cases h4
      cases hi with
      | tuple _ ha => exact .wrapped h1 h2 (hrec _ _ _ hu h3 ha.1)
    · cases h
  unfold typifyTuple at h
  split at h
  · split at h
    · cases h; exact .rstring
    · exact hnew _ hu (by simp) (by simp) h
  · split at h
    · cases h
    · rename_i l hl
      obtain ⟨ws, h1, h2⟩ := Out.bind_eq_ok.mp h
      cases h2
      cases hi with
      | tuple _ ha =>
        obtain ⟨a, b, rfl, h3⟩ := typifyZip_zipped h1 (all2_length ha)
        have hb : b = [] := by
          have h4 := (all3_length h3).1
          simp only [List.length_append, ne_eq, Decidable.not_not] at hl
          exact List.eq_nil_of_length_eq_zero (by omega)
        subst hb
        rw [List.append_nil] at hu ⊢
        cases hu with
        | tuple hu => exact .tuple (all3_with h3 ha fun v hv i w h5 h6 => hrec _ _ _ (hu v hv) h5 h6)
  · obtain ⟨ws, h1, h2⟩ := Out.bind_eq_ok.mp h
    cases h2
    cases hi with
    | tuple _ ha =>
      obtain ⟨a, b, rfl, h3⟩ := typifyZip_zipped h1 (all2_length ha)
      cases hu with
      | list hu =>
        exact .items (all3_with h3 ha fun v hv i w h5 h6 => hrec _ _ _ (hu v (List.mem_append_left _ hv)) h5 h6)
  · rename_i hn1 hn2
    exact hnew _ hu (fun l hl => hn1 l hl) (fun l hl => hn2 l hl) h

theorem way_struct {req : List (Name × SemId)} (hd : (req.map Prod.fst).Nodup) {v w : Val} (hu : v.Unrepeated)
    (h : typifyStruct rec req v = .ok w) (hi : Inhabits E true T w (.struct req)) : Way R v (.struct req) w := by
  unfold typifyStruct at h
  split at h
  · split at h
    · cases h
    · obtain ⟨ws, h1, h2⟩ := Out.bind_eq_ok.mp h
      cases h2
      cases hu with
      | struct hnd hu =>
      cases hi with
      | struct ha =>
        obtain ⟨ws', hw, h3⟩ := typifyFields_each (acc := []) (by simpa using hnd) h1
        rw [List.nil_append] at hw
        subst hw
        refine .struct (all3_of_two h3 ha ?_)
        rintro ⟨n, v⟩ hv ⟨m, i⟩ hmem ⟨k, w⟩ ⟨h4, j, h5, h6⟩ ⟨h7, h8⟩
        dsimp only at h4 h5 h6 h7 h8
        subst h4 h7
        rw [(fieldTy_iff hd _ _).mpr hmem] at h5
        cases h5
        exact ⟨rfl, rfl, hrec _ _ _ (hu _ hv) h6 h8⟩
  · obtain ⟨ws, h1, h2⟩ := Out.bind_eq_ok.mp h
    cases h2
    cases hu with
    | map hnd _ hu =>
    cases hi with
    | struct ha =>
      obtain ⟨ws', hw, h3⟩ := typifyMapFields_each (acc := []) hnd (by simp) h1
      rw [List.nil_append] at hw
      subst hw
      refine .entries (all3_of_two h3 ha ?_)
      rintro ⟨n, v⟩ hv ⟨m, i⟩ hmem ⟨k, w⟩ ⟨h4, j, h5, h6⟩ ⟨h7, h8⟩
      dsimp only at h4 h5 h6 h7 h8
      subst h4 h7
      rw [(fieldTy_iff hd _ _).mpr hmem] at h5
      cases h5
      exact ⟨rfl, rfl, hrec _ _ _ (hu _ hv) h6 h8⟩
  · cases h

theorem way_list {i : SemId} {sz : Sizing} {v w : Val} (hu : v.Unrepeated)
    (h : typifyList rec E i sz v = .ok w) (hi : Inhabits E true T w (.list i sz)) : Way R v (.list i sz) w := by
  unfold typifyList at h
  split at h
  · split at h
    · cases h
    · split at h
      · cases h; exact .text
      · split at h
        · cases h; exact .textBytes
        · split at h
          · cases h; exact .text
          · cases h
  · split at h
    · cases h
    · split at h
      · cases h; exact .bytes
      · cases h
  · split at h
    · cases h
    · obtain ⟨ws, h1, h2⟩ := Out.bind_eq_ok.mp h
      cases h2
      cases hu with
      | list hu =>
      cases hi with
      | list _ _ _ _ _ ha =>
        exact .list (all2_with (outMap_each h1) fun v hv w hw h3 => hrec _ _ _ (hu v hv) h3 (ha w hw))
  · cases h

theorem way_set {i : SemId} {sz : Sizing} {v w : Val} (hu : v.Unrepeated)
    (h : typifySet rec i sz v = .ok w) (hi : Inhabits E true T w (.set i sz)) : Way R v (.set i sz) w := by
  unfold typifySet at h
  split at h
  · split at h
    · cases h
    · obtain ⟨ws, h1, h2⟩ := Out.bind_eq_ok.mp h
      cases h2
      cases hu with
      | set hu =>
      cases hi with
      | set _ _ ha _ =>
        obtain ⟨us, rfl, h3⟩ := typifySetItems_each h1
        exact .set (all2_with h3 fun v hv w hw h4 => hrec _ _ _ (hu v hv) h4 (ha w hw))
  · cases h

theorem way_map {k i : SemId} {sz : Sizing} {v w : Val} (hu : v.Unrepeated)
    (h : typifyMap rec k i sz v = .ok w) (hi : Inhabits E true T w (.map k i sz)) : Way R v (.map k i sz) w := by
  unfold typifyMap at h
  split at h
  · split at h
    · cases h
    · obtain ⟨ws, h1, h2⟩ := Out.bind_eq_ok.mp h
      cases h2
      cases hu with
      | map _ hk hu =>
      cases hi with
      | map _ _ ha _ =>
        obtain ⟨us, rfl, h3⟩ := typifyMapItems_each h1
        exact .map (all2_with h3 fun v hv w hw h4 => ⟨hrec _ _ _ (hk v hv) h4.1 (ha w hw).1,
          hrec _ _ _ (hu v hv) h4.2 (ha w hw).2⟩)
  · cases h

end

section
variable {R : Val → SemId → Val → Prop} {T : Val → SemId → Prop}

theorem way_prim {p : Byte} {v w : Val} (h : typifyPrim p v = .ok w) : Way R v (.primitive p) w := by
  unfold typifyPrim at h
  split at h
  · split at h
    · rename_i hp; cases h; subst hp; exact .unit
    · cases h
  · split at h
    · rename_i l hp; cases h; obtain ⟨rfl, hl⟩ := hp; obtain rfl := List.isEmpty_iff.mp hl; exact .noFields
    · cases h
  · split at h
    · rename_i l hp; cases h; obtain ⟨rfl, hl⟩ := hp; obtain rfl := List.isEmpty_iff.mp hl; exact .noNames
    · cases h
  · split at h
    · rename_i l hp; cases h; obtain ⟨rfl, hl⟩ := hp; obtain rfl := List.isEmpty_iff.mp hl; exact .noItems
    · cases h
  · split at h
    · rename_i l hp; cases h; obtain ⟨rfl, hl⟩ := hp; obtain rfl := List.isEmpty_iff.mp hl; exact .noEntries
    · cases h
  · split at h
    · rename_i hp; cases h; simp [isSmallUnsigned] at hp; exact .uint (by omega)
    · split at h
      · rename_i hp; cases h; simp [isSmallSigned] at hp; exact .positive (by omega) (by omega) hp.2
      · cases h
  · split at h
    · rename_i hp; cases h; simp [isLargeUnsigned] at hp; exact .bigUint (by omega) (by omega)
    · cases h
  · split at h
    · rename_i hp; cases h; simp [isSmallSigned] at hp; exact .int (by omega) (by omega)
    · cases h
  · split at h
    · rename_i hp; cases h; simp [isLargeSigned] at hp; exact .bigInt (by omega) (by omega)
    · cases h
  · cases h

theorem way_char {v w : Val} (h : typifyUnicode v = .ok w) : Way R v .unicodeChar w := by
  unfold typifyUnicode at h
  split at h
  · split at h
    · rename_i s hs
      cases h
      match s, hs with
      | [b], _ => exact .char
    · cases h
  · cases h

theorem way_enum {vs : List Variant} (hwf : VariantsWF vs) {v w : Val}
    (h : typifyEnum vs v = .ok w) (hi : Inhabits E true T w (.enum vs)) : Way R v (.enum vs) w := by
  unfold typifyEnum at h
  split at h
  · rename_i s
    split at h
    · cases h; cases hi
    · rename_i hn
      split at h
      · rename_i n hs
        obtain rfl := Name.ofBytes?_eq_some.mp hs
        split at h
        · cases h
          refine .word fun b hb ha => hn ?_
          rw [hb]
          exact ⟨rfl, hasTag_iff.mpr ha⟩
        · cases h
      · cases h
  · split at h
    · cases h; exact .name
    · cases h
  · split at h
    · rename_i n hn
      cases h
      exact .tag ((enumNameByTag_iff hwf _ _).mp hn)
    · cases h
  · rename_i x
    split at h
    · rename_i hx
      split at h
      · rename_i n hn
        cases h
        exact .number ((enumNameByTag_iff hwf _ _).mp hn) (by simp; omega)
      · cases h
    · cases h
  · cases h

theorem way_array {i : SemId} {len : BitVec 16} {v w : Val} (h : typifyArray E i len v = .ok w) : Way R v (.array i len) w := by
  unfold typifyArray at h
  split at h
  · split at h
    · split at h
      · cases h
      · cases h; exact .array
    · cases h
  · split at h
    · cases h
    · split at h
      · cases h; exact .array
      · cases h
  · split at h
    · cases h
    · cases h; exact .array
  · cases h

end

theorem means_of_typify (hs : E.Sane) : ∀ {n m : Nat} {v w : Val} {id : SemId}, v.Unrepeated →
    typify E n v id = .ok w → HasTyN E true m w id → MeansN E n v id w
  | 0, _, _, _, _, _, h, _ => by cases h
  | _ + 1, 0, _, _, _, _, _, ht => ht.elim
  | n + 1, m + 1, v, w, id, hu, h, ht => by
    obtain ⟨t, hf, hi⟩ := ht
    refine ⟨t, hf, ?_⟩
    simp only [typify, hs.typeOf hf] at h
    have hrec : ∀ v i w, v.Unrepeated → typify E n v i = .ok w → HasTyN E true m w i → MeansN E n v i w :=
      fun v i w hu h ht => means_of_typify hs hu h ht
    have hwf := hs.wf _ _ hf
    cases t with
    | primitive p => exact way_prim h
    | unicodeChar => exact way_char h
    | enum vs => exact way_enum hwf h hi
    | union vs => exact way_union hrec hwf hu h hi
    | tuple ids => exact way_tuple hrec hu h hi
    | struct req => exact way_struct hrec (hs.fields _ _ hf) hu h hi
    | array i len => exact way_array h
    | list i sz => exact way_list hrec hu h hi
    | set i sz => exact way_set hrec hu h hi
    | map k i sz => exact way_map hrec hu h hi


/-! ## And understood as meant -/

section
variable {rec : Val → SemId → Out TErr Val} {R : Val → SemId → Val → Prop} {T : Val → SemId → Prop}

theorem typify_way (hs : E.Sane) (hrec : ∀ v i w, R v i w → T w i → rec v i = .ok w) {id : SemId} {t : Ty SemId}
    (hf : E.find id = some t) {v w : Val} (h : Way R v t w) (hi : Inhabits E true T w t) : typifyTy rec E v t = .ok w := by
  have hwf := hs.wf _ _ hf
  cases h with
  | unit => rfl
  | noFields => rfl
  | noNames => rfl
  | noItems => rfl
  | noEntries => rfl
  | uint hp => simp only [typifyTy, typifyPrim]; rw [if_pos (by simp [isSmallUnsigned]; omega)]
  | int h1 h2 => simp only [typifyTy, typifyPrim]; rw [if_pos (by simp [isSmallSigned]; omega)]
  | positive h1 h2 h3 =>
    simp only [typifyTy, typifyPrim]
    rw [if_neg (by simp [isSmallUnsigned]; omega), if_pos ⟨by simp [isSmallSigned]; omega, h3⟩]
  | bigUint h1 h2 => simp only [typifyTy, typifyPrim]; rw [if_pos (by simp [isLargeUnsigned]; omega)]
  | bigInt h1 h2 => simp only [typifyTy, typifyPrim]; rw [if_pos (by simp [isLargeSigned]; omega)]
  | char => rfl
  | @text i sz s =>
    simp only [typifyTy, typifyList]
    cases hi with
    | asciiList hc ha hz =>
      have hz' : sz.check s.length = true := by simpa [SizeOk, Sizing.check] using hz
      rw [if_neg (by simp [hz'])]
      have h1 : i.isUnicodeChar E.H = false := by
        refine Bool.eq_false_iff.mpr fun hx => ?_
        have := hs.unicode _ _ hx hc.1
        cases this
      have h2 : i.isByte E.H = false := by
        refine Bool.eq_false_iff.mpr fun hx => ?_
        rcases hs.byte _ _ hx hc.1 with this | this <;> cases this
      rw [if_neg (by simp [h1]), if_neg (by simp [h2]), if_pos]
      exact isAscii_of fun b hb => by
        obtain ⟨v, hv, rfl⟩ : InAlphabet _ b := ha b hb
        have := (hc.2 v hv).2
        omega
    | unicodeList _ h2 _ hz =>
      have hz' : sz.check s.length = true := by simpa [SizeOk, Sizing.check] using hz
      rw [if_neg (by simp [hz']), if_pos h2]
  | @rstring ids s =>
    simp only [typifyTy, typifyTuple]
    cases hi with
    | rstring hr hc ha _ =>
      rw [if_pos]
      obtain ⟨a, b, c, rfl, h1, h2, h3, h4, h5⟩ := hr
      refine ⟨isAscii_of fun x hx => ?_, rfl⟩
      rcases List.mem_cons.mp hx with rfl | hx
      · obtain ⟨v, hv, rfl⟩ : InAlphabet _ x := hc
        have := (h2 v hv).2
        omega
      · obtain ⟨v, hv, rfl⟩ : InAlphabet _ x := ha x hx
        have := (h5 v hv).2
        omega
    | rstringEmpty _ h => cases h
  | @bytes i sz s =>
    simp only [typifyTy, typifyList]
    cases hi with
    | byteList h2 hz =>
      have hz' : sz.check s.length = true := by simpa [SizeOk, Sizing.check] using hz
      rw [if_neg (by simp [hz']), if_pos h2]
  | @textBytes i sz s =>
    simp only [typifyTy, typifyList]
    cases hi with
    | byteList h2 hz =>
      have hz' : sz.check s.length = true := by simpa [SizeOk, Sizing.check] using hz
      have h1 : i.isUnicodeChar E.H = false := by
        refine Bool.eq_false_iff.mpr fun hx => ?_
        obtain ⟨u, hu⟩ := hs.closed _ _ hf i (by simp [Ty.refs])
        have h3 := hs.unicode _ _ hx hu
        rcases hs.byte _ _ h2 hu with this | this <;> rw [this] at h3 <;> cases h3
      rw [if_neg (by simp [hz']), if_neg (by simp [h1]), if_pos h2]
  | array =>
    simp only [typifyTy, typifyArray]
    cases hi with
    | byteArray h1 h2 => simp [h1, h2]
    | array h1 h2 _ => simp [h2]
  | name =>
    cases hi with
    | enum hm => simp only [typifyTy, typifyEnum, (enumTagByName_iff hwf _ _).mpr hm]
  | tag hm => simp only [typifyTy, typifyEnum, (enumNameByTag_iff hwf _ _).mpr hm]
  | @number vs n t x hm hx =>
    have : BitVec.ofNat 8 x.toNat = t := by rw [hx]; simp
    simp only [typifyTy, typifyEnum, this, (enumNameByTag_iff hwf _ _).mpr hm]
    rw [if_pos (by have := t.isLt; omega)]
  | @word vs n hw =>
    cases hi with
    | enum hm =>
      simp only [typifyTy, typifyEnum, Name.ofBytes?_bytes]
      rw [if_neg, if_pos]
      · simp [Ty.enumHasName]; exact ⟨_, hm, rfl⟩
      · rintro ⟨h1, h2⟩
        obtain ⟨b, hb⟩ := List.length_eq_one_iff.mp h1
        rw [hb] at h2
        exact hw b hb (hasTag_iff.mp h2)
  | @variant vs n t i v w hm hr =>
    cases hi with
    | @union _ _ t' i' _ hm' hw =>
      have h1 := (unionTyByName_iff hwf _ _).mpr ⟨_, hm⟩
      have h2 := (unionTyByName_iff hwf _ _).mpr ⟨_, hm'⟩
      rw [h1] at h2
      cases h2
      simp only [typifyTy, typifyUnion, h1, hrec _ _ _ hr hw, Out.bind_ok, Out.pure_eq]
  | none ho =>
    have := isOption_iff.mpr ⟨_, _, ho⟩
    simp only [typifyTy, typifyUnion, this]; rfl
  | noneWord ho =>
    have := isOption_iff.mpr ⟨_, _, ho⟩
    cases ho
    rfl
  | @some vs n s v w ho hk hr =>
    have hio := isOption_iff.mpr ⟨_, _, ho⟩
    cases ho
    have hw : T w s := by
      cases hi with
      | union hm hw =>
        simp only [List.mem_cons, Prod.mk.injEq, List.not_mem_nil, or_false] at hm
        rcases hm with ⟨h1, _⟩ | ⟨_, rfl⟩
        · cases h1
        · exact hw
    have h1 := hrec _ _ _ hr hw
    simp only [typifyTy]
    unfold typifyUnion
    split
    · exact (hk (.union _ _)).elim
    · exact (hk .unit).elim
    · exact (hk (.pair _ _)).elim
    · rw [if_pos hio]
      simp only [typifySome]
      show (rec v s >>= fun inner => pure (Val.some inner)) = _
      rw [h1]; rfl
  | @someWord vs n s v w ho hr =>
    cases ho
    have hw : T w s := by
      cases hi with
      | union hm hw =>
        simp only [List.mem_cons, Prod.mk.injEq, List.not_mem_nil, or_false] at hm
        rcases hm with ⟨h1, _⟩ | ⟨_, rfl⟩
        · cases h1
        · exact hw
    show (rec v s >>= fun inner => pure (Val.some inner)) = _
    rw [hrec _ _ _ hr hw]; rfl
  | @tuple ids l ws h =>
    cases hi with
    | tuple _ ha =>
      have h1 := zipped_typifyZip (b := []) (all3_with h ha fun v _ i w h5 h6 => hrec _ _ _ h5 h6)
      rw [List.append_nil] at h1
      simp only [typifyTy, typifyTuple, h1]
      rw [if_neg (by simp [(all3_length h).1])]; rfl
  | @items ids l more ws h =>
    cases hi with
    | tuple _ ha =>
      have h1 := zipped_typifyZip (b := more) (all3_with h ha fun v _ i w h5 h6 => hrec _ _ _ h5 h6)
      simp only [typifyTy, typifyTuple, h1]; rfl
  | @wrapped i v w h1 h2 hr =>
    have hw : T w i := by cases hi with | tuple _ ha => exact ha.1
    have h3 := hrec _ _ _ hr hw
    have hnew : typifyTuple.newtype rec [i] v = .ok (.tuple [w]) := by
      simp only [typifyTuple.newtype, h3]; rfl
    simp only [typifyTy]
    unfold typifyTuple
    split
    · rw [if_neg (by simp)]; exact hnew
    · exact (h1 _ rfl).elim
    · exact (h2 _ rfl).elim
    · exact hnew
  | @struct req fs ws h =>
    have hd : (req.map Prod.fst).Nodup := hs.fields _ _ hf
    cases hi with
    | struct ha =>
      have h1 := named_typifyFields (rec := rec) hd (acc := []) (all3_with h ha fun v _ i w h5 h6 =>
        ⟨h5.1, h5.2.1, hrec _ _ _ h5.2.2 h6.2⟩) (fun r hr => hr) (by simpa using hd)
      simp only [typifyTy, typifyStruct, h1]
      rw [if_neg (by simp [(all3_length h).1])]; rfl
  | @entries req fs ws h =>
    have hd : (req.map Prod.fst).Nodup := hs.fields _ _ hf
    cases hi with
    | struct ha =>
      have h1 := named_typifyMapFields (rec := rec) hd (acc := []) (all3_with h ha fun v _ i w h5 h6 =>
        ⟨h5.1, h5.2.1, hrec _ _ _ h5.2.2 h6.2⟩) (fun r hr => hr) (by simpa using hd)
      simp only [typifyTy, typifyStruct, h1]; rfl
  | @list i sz l ws h =>
    cases hi with
    | list _ _ _ _ hz ha =>
      have hz' : sz.check l.length = true := by rw [all2_length h]; simpa [SizeOk, Sizing.check] using hz
      have h1 := each_outMap (f := fun v => rec v i) (all2_with h fun v _ w hw h5 => hrec _ _ _ h5 (ha w hw))
      simp only [typifyTy, typifyList, h1]
      rw [if_neg (by simp [hz'])]; rfl
  | @set i sz l ws h =>
    cases hi with
    | set _ hz ha hd =>
      have hz' : sz.check l.length = true := by rw [all2_length h]; simpa [SizeOk, Sizing.check] using hz
      have h1 := each_typifySetItems (rec := rec) (acc := []) (all2_with h fun v _ w hw h5 => hrec _ _ _ h5 (ha w hw))
        (by simpa using hd rfl)
      simp only [typifyTy, typifySet, h1]
      rw [if_neg (by simp [hz'])]; rfl
  | @map k i sz l ws h =>
    cases hi with
    | map _ hz ha hd =>
      have hz' : sz.check l.length = true := by rw [all2_length h]; simpa [SizeOk, Sizing.check] using hz
      have h1 := each_typifyMapItems (rec := rec) (acc := []) (all2_with h fun v _ w hw h5 =>
        ⟨hrec _ _ _ h5.1 (ha w hw).1, hrec _ _ _ h5.2 (ha w hw).2⟩) (by simpa using hd rfl)
      simp only [typifyTy, typifyMap, h1]
      rw [if_neg (by simp [hz'])]; rfl

end

theorem typify_of_means (hs : E.Sane) : ∀ {n m : Nat} {v w : Val} {id : SemId},
    MeansN E n v id w → HasTyN E true m w id → typify E n v id = .ok w
  | 0, _, _, _, _, h, _ => h.elim
  | _ + 1, 0, _, _, _, _, ht => ht.elim
  | n + 1, m + 1, v, w, id, h, ht => by
    obtain ⟨t, hf, hi⟩ := ht
    obtain ⟨t', hf', h⟩ := h
    cases hf.symm.trans hf'
    simp only [typify, hs.typeOf hf]
    exact typify_way hs (T := HasTyN E true m) (fun v i w h ht => typify_of_means hs h ht) hf h hi

end Verif
