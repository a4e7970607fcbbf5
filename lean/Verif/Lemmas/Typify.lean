import Verif.Spec.Part
import Verif.Lemmas.Canon

/-!
# What `typify` returns
-/

namespace Verif

/-- Shape of the values returned by one layer of `typify`; `R` holds of the results of the recursive
calls. -/
inductive TOut (E : Env) (R : Val → SemId → Prop) : Val → Ty SemId → Prop
  | unit : TOut E R .unit Ty.UNIT
  | uint {p : Byte} {x : BitVec 64} : isSmallUnsigned p = true →
      TOut E R (.num (.uint x)) (.primitive p)
  | int {p : Byte} {x : BitVec 64} : isSmallSigned p = true →
      TOut E R (.num (.int x)) (.primitive p)
  | bigUint {p : Byte} {x : BitVec 1024} : isLargeUnsigned p = true →
      TOut E R (.num (.bigUint x)) (.primitive p)
  | bigInt {p : Byte} {x : BitVec 1024} : isLargeSigned p = true →
      TOut E R (.num (.bigInt x)) (.primitive p)
  | unicodeChar {s : Bytes} : s.length = 1 → TOut E R (.str s) .unicodeChar
  | charString {vs : List Variant} {s : Bytes} : s.length = 1 →
      Ty.enumHasTag vs (s.headD 0) = true → TOut E R (.str s) (.enum vs)
  | enum {vs : List Variant} {n : Name} : (∃ t, ⟨n, t⟩ ∈ vs) →
      TOut E R (.enum (.name n)) (.enum vs)
  | byName {vs : List (Variant × SemId)} {n : Name} {id : SemId} {v : Val} :
      Ty.unionTyByName vs n = some id → R v id → TOut E R (.union (.name n) v) (.union vs)
  | byTag {vs : List (Variant × SemId)} {t : Byte} {id : SemId} {v : Val} :
      Ty.unionTyByTag vs t = some id → R v id → TOut E R (.union (.ord t) v) (.union vs)
  | none {vs : List (Variant × SemId)} : (Ty.union vs).isOption = true → TOut E R .none (.union vs)
  | tuple {ids ids' : List SemId} {l : List Val} : All2 R l ids →
      TOut E R (.tuple l) (.tuple (ids ++ ids'))
  | rstring {ids : List SemId} {s : Bytes} : isAscii s = true → ids.length = 2 →
      TOut E R (.str s) (.tuple ids)
  | struct {req : List (Name × SemId)} {fs : List (Name × Val)} : (fs.map Prod.fst).Nodup →
      (∀ f ∈ fs, ∃ id, Ty.fieldTy req f.1 = some id ∧ R f.2 id) → TOut E R (.struct fs) (.struct req)
  | arrayBytes {id : SemId} {len : BitVec 16} {b : Bytes} : id.isByte E.H = true →
      b.length ≤ len.toNat → TOut E R (.bytes b) (.array id len)
  | arrayString {id : SemId} {len : BitVec 16} {s : Bytes} : s.length ≤ len.toNat →
      (isAscii s || id.isUnicodeChar E.H) = true → TOut E R (.str s) (.array id len)
  | arrayList {id : SemId} {len : BitVec 16} {l : List Val} : l.length ≤ len.toNat →
      TOut E R (.list l) (.array id len)
  | string {id : SemId} {sz : Sizing} {s : Bytes} : sz.check s.length = true →
      (id.isUnicodeChar E.H = true ∨ (id.isByte E.H = false ∧ isAscii s = true)) →
      TOut E R (.str s) (.list id sz)
  | bytes {id : SemId} {sz : Sizing} {b : Bytes} : sz.check b.length = true →
      id.isByte E.H = true → TOut E R (.bytes b) (.list id sz)
  | list {id : SemId} {sz : Sizing} {l : List Val} : sz.check l.length = true →
      (∀ v ∈ l, R v id) → TOut E R (.list l) (.list id sz)
  | set {id : SemId} {sz : Sizing} {l : List Val} : sz.check l.length = true →
      (∀ v ∈ l, R v id) → l.Pairwise (fun a b => a.eqv b = false) → TOut E R (.set l) (.set id sz)
  | map {kid id : SemId} {sz : Sizing} {l : List (Val × Val)} : sz.check l.length = true →
      (∀ p ∈ l, R p.1 kid ∧ R p.2 id) → (l.map Prod.fst).Pairwise (fun a b => a.eqv b = false) →
      TOut E R (.map l) (.map kid id sz)

variable {E : Env} {rec : Val → SemId → Out TErr Val}

/-- `w` is a result of the recursive call. -/
def IsResult (rec : Val → SemId → Out TErr Val) (w : Val) (id : SemId) : Prop :=
  ∃ v, rec v id = .ok w

theorem outMap_ok {id : SemId} {l ws : List Val} (h : outMap (fun v => rec v id) l = .ok ws) :
    ws.length = l.length ∧ ∀ w ∈ ws, IsResult rec w id := by
  induction l generalizing ws with
  | nil => cases h; exact ⟨rfl, by simp⟩
  | cons v l ih =>
    obtain ⟨w, h1, h2⟩ := Out.bind_eq_ok.mp h
    obtain ⟨ws', h3, h4⟩ := Out.bind_eq_ok.mp h2
    cases h4
    obtain ⟨hl, ha⟩ := ih h3
    refine ⟨by simp [hl], fun u hu => ?_⟩
    rcases List.mem_cons.mp hu with rfl | hu
    · exact ⟨v, h1⟩
    · exact ha u hu

theorem typifyZip_ok {l ws : List Val} {ids : List SemId} (h : typifyZip rec l ids = .ok ws) :
    ∃ a b, ids = a ++ b ∧ All2 (IsResult rec) ws a := by
  induction l generalizing ids ws with
  | nil => cases h; exact ⟨[], ids, rfl, trivial⟩
  | cons v l ih =>
    cases ids with
    | nil => cases h; exact ⟨[], [], rfl, trivial⟩
    | cons id ids =>
      obtain ⟨w, h1, h2⟩ := Out.bind_eq_ok.mp h
      obtain ⟨ws', h3, h4⟩ := Out.bind_eq_ok.mp h2
      cases h4
      obtain ⟨a, b, rfl, ha⟩ := ih h3
      exact ⟨id :: a, b, rfl, ⟨v, h1⟩, ha⟩

theorem typifyZip_len {l ws : List Val} {ids : List SemId} (h : typifyZip rec l ids = .ok ws) :
    ws.length = min l.length ids.length := by
  induction l generalizing ids ws with
  | nil => cases h; simp
  | cons v l ih =>
    cases ids with
    | nil => cases h; simp
    | cons id ids =>
      obtain ⟨w, h1, h2⟩ := Out.bind_eq_ok.mp h
      obtain ⟨ws', h3, h4⟩ := Out.bind_eq_ok.mp h2
      cases h4
      simp [ih h3]

theorem mem_imInsert {V : Type} {l : List (Name × V)} {n : Name} {v : V} {f : Name × V}
    (h : f ∈ imInsert l n v) : f = (n, v) ∨ f ∈ l := by
  induction l with
  | nil => simpa [imInsert] using h
  | cons p l ih =>
    obtain ⟨m, w⟩ := p
    simp only [imInsert] at h
    split at h
    · rename_i hm
      subst hm
      rcases List.mem_cons.mp h with h | h
      · exact Or.inl h
      · exact Or.inr (List.mem_cons_of_mem _ h)
    · rcases List.mem_cons.mp h with h | h
      · exact Or.inr (by simp [h])
      · rcases ih h with h | h
        · exact Or.inl h
        · exact Or.inr (List.mem_cons_of_mem _ h)

theorem nodup_imInsert {V : Type} {l : List (Name × V)} {n : Name} {v : V}
    (h : (l.map Prod.fst).Nodup) : ((imInsert l n v).map Prod.fst).Nodup := by
  by_cases hm : n ∈ l.map Prod.fst
  · have : (imInsert l n v).map Prod.fst = l.map Prod.fst := by
      clear h
      induction l with
      | nil => simp at hm
      | cons p l ih =>
        obtain ⟨m, w⟩ := p
        simp only [imInsert]
        split
        · rfl
        · rename_i hne
          simp only [List.map_cons, List.mem_cons] at hm
          rcases hm with hm | hm
          · exact absurd hm.symm hne
          · simp [ih hm]
    rw [this]
    exact h
  · rw [imInsert_append hm]
    simp only [List.map_append, List.map_cons, List.map_nil]
    rw [List.nodup_append]
    refine ⟨h, by simp, ?_⟩
    intro a ha b hb hab
    simp only [List.mem_singleton] at hb
    subst hab
    subst hb
    exact hm ha

/-- Invariant of the fields collected for a struct. -/
def FieldsOk (rec : Val → SemId → Out TErr Val) (req : List (Name × SemId))
    (fs : List (Name × Val)) : Prop :=
  (fs.map Prod.fst).Nodup ∧ ∀ f ∈ fs, ∃ id, Ty.fieldTy req f.1 = some id ∧ IsResult rec f.2 id

theorem FieldsOk.insert {req : List (Name × SemId)} {acc : List (Name × Val)}
    (h : FieldsOk rec req acc) {n : Name} {v w : Val} {id : SemId}
    (hn : Ty.fieldTy req n = some id) (hw : rec v id = .ok w) :
    FieldsOk rec req (imInsert acc n w) := by
  refine ⟨nodup_imInsert h.1, fun f hf => ?_⟩
  rcases mem_imInsert hf with rfl | hf
  · exact ⟨id, hn, v, hw⟩
  · exact h.2 f hf

theorem typifyFields_ok {req : List (Name × SemId)} {fs acc new : List (Name × Val)}
    (ha : FieldsOk rec req acc) (h : typifyFields rec req fs acc = .ok new) :
    FieldsOk rec req new := by
  induction fs generalizing acc with
  | nil => cases h; exact ha
  | cons f fs ih =>
    obtain ⟨n, v⟩ := f
    simp only [typifyFields] at h
    split at h
    · cases h
    · rename_i id hid
      obtain ⟨w, h1, h2⟩ := Out.bind_eq_ok.mp h
      exact ih (ha.insert hid h1) h2

theorem typifyMapFields_ok {req : List (Name × SemId)} {fs : List (Val × Val)}
    {acc new : List (Name × Val)} (ha : FieldsOk rec req acc)
    (h : typifyMapFields rec req fs acc = .ok new) : FieldsOk rec req new := by
  induction fs generalizing acc with
  | nil => cases h; exact ha
  | cons f fs ih =>
    obtain ⟨k, v⟩ := f
    cases k with
    | str s =>
      simp only [typifyMapFields] at h
      split at h
      · cases h
      · split at h
        · cases h
        · rename_i n hn id hid
          obtain ⟨w, h1, h2⟩ := Out.bind_eq_ok.mp h
          exact ih (ha.insert hid h1) h2
    | _ => cases h

theorem typifySetItems_ok {id : SemId} {l acc ws : List Val}
    (ha : ∀ w ∈ acc, IsResult rec w id) (hp : acc.Pairwise (fun a b => a.eqv b = false))
    (h : typifySetItems rec id l acc = .ok ws) :
    ws.length = acc.length + l.length ∧ (∀ w ∈ ws, IsResult rec w id) ∧
      ws.Pairwise (fun a b => a.eqv b = false) := by
  induction l generalizing acc with
  | nil => cases h; exact ⟨rfl, ha, hp⟩
  | cons v l ih =>
    obtain ⟨w, h1, h2⟩ := Out.bind_eq_ok.mp h
    split at h2
    · cases h2
    · rename_i hany
      have key := fun a b => ih (acc := acc ++ [w]) a b h2
      suffices h : _ ∧ _ from ⟨by rw [(key h.1 h.2).1]; simp; omega, (key h.1 h.2).2⟩
      refine ⟨?_, ?_⟩
      · intro u hu
        rcases List.mem_append.mp hu with hu | hu
        · exact ha u hu
        · rw [List.mem_singleton.mp hu]
          exact ⟨v, h1⟩
      · rw [List.pairwise_append]
        refine ⟨hp, by simp, fun a ha b hb => ?_⟩
        rw [List.mem_singleton.mp hb]
        simp only [List.any_eq_true, not_exists, not_and, Bool.not_eq_true] at hany
        exact hany a ha

theorem typifyMapItems_ok {kid id : SemId} {l acc ws : List (Val × Val)}
    (ha : ∀ p ∈ acc, IsResult rec p.1 kid ∧ IsResult rec p.2 id)
    (hp : (acc.map Prod.fst).Pairwise (fun a b => a.eqv b = false))
    (h : typifyMapItems rec kid id l acc = .ok ws) :
    ws.length = acc.length + l.length ∧ (∀ p ∈ ws, IsResult rec p.1 kid ∧ IsResult rec p.2 id) ∧
      (ws.map Prod.fst).Pairwise (fun a b => a.eqv b = false) := by
  induction l generalizing acc with
  | nil => cases h; exact ⟨rfl, ha, hp⟩
  | cons p l ih =>
    obtain ⟨k, v⟩ := p
    obtain ⟨k', h0, h⟩ := Out.bind_eq_ok.mp h
    obtain ⟨w, h1, h2⟩ := Out.bind_eq_ok.mp h
    split at h2
    · cases h2
    · rename_i hany
      have key := fun a b => ih (acc := acc ++ [(k', w)]) a b h2
      suffices h : _ ∧ _ from ⟨by rw [(key h.1 h.2).1]; simp; omega, (key h.1 h.2).2⟩
      refine ⟨?_, ?_⟩
      · intro u hu
        rcases List.mem_append.mp hu with hu | hu
        · exact ha u hu
        · rw [List.mem_singleton.mp hu]
          exact ⟨⟨k, h0⟩, ⟨v, h1⟩⟩
      · rw [List.map_append, List.pairwise_append]
        refine ⟨hp, by simp, fun a ha b hb => ?_⟩
        obtain ⟨q, hq, rfl⟩ := List.mem_map.mp ha
        have hb : b = k' := by simpa using hb
        subst hb
        simp only [List.any_eq_true, not_exists, not_and, Bool.not_eq_true] at hany
        exact hany q hq

theorem typifyPrim_out {R : Val → SemId → Prop} {p : Byte} {v w : Val}
    (h : typifyPrim p v = .ok w) : TOut E R w (.primitive p) := by
  have hu : ∀ c : Prop, [Decidable c] →
      (if p = Ty.UNIT_CODE ∧ c then Out.ok Val.unit else .err TErr.typeMismatch) = .ok w →
      TOut E R w (.primitive p) := by
    intro c _ h
    split at h
    · rename_i hp
      cases h
      rw [hp.1]
      exact .unit
    · cases h
  cases v with
  | unit => exact hu True (by simpa [typifyPrim] using h)
  | tuple l => exact hu _ h
  | struct l => exact hu _ h
  | list l => exact hu _ h
  | map l => exact hu _ h
  | num n =>
    cases n with
    | uint n =>
      simp only [typifyPrim] at h
      split at h
      · cases h; exact .uint (by assumption)
      · split at h
        · rename_i hs
          cases h; exact .int hs.1
        · cases h
    | bigUint n =>
      simp only [typifyPrim] at h
      split at h
      · cases h; exact .bigUint (by assumption)
      · cases h
    | int n =>
      simp only [typifyPrim] at h
      split at h
      · cases h; exact .int (by assumption)
      · cases h
    | bigInt n =>
      simp only [typifyPrim] at h
      split at h
      · cases h; exact .bigInt (by assumption)
      · cases h
  | _ => cases h

theorem enumHasName_mem {vs : List Variant} {n : Name} (h : Ty.enumHasName vs n = true) :
    ∃ t, ⟨n, t⟩ ∈ vs := by
  simp only [Ty.enumHasName, List.any_eq_true, beq_iff_eq] at h
  obtain ⟨⟨m, t⟩, hv, rfl⟩ := h
  exact ⟨t, hv⟩

theorem typifyEnum_out {R : Val → SemId → Prop} {vs : List Variant} (hwf : VariantsWF vs)
    {v w : Val} (h : typifyEnum vs v = .ok w) : TOut E R w (.enum vs) := by
  cases v with
  | str s =>
    simp only [typifyEnum] at h
    split at h
    · rename_i hc
      cases h; exact .charString hc.1 hc.2
    · split at h
      · split at h
        · rename_i hn
          cases h
          exact .enum (enumHasName_mem hn)
        · cases h
      · cases h
  | enum t =>
    cases t with
    | name n =>
      simp only [typifyEnum] at h
      split at h
      · rename_i t ht
        cases h
        exact .enum ⟨t, (enumTagByName_iff hwf _ _).mp ht⟩
      · cases h
    | ord t =>
      simp only [typifyEnum] at h
      split at h
      · rename_i n hn
        cases h
        exact .enum ⟨t, (enumNameByTag_iff hwf _ _).mp hn⟩
      · cases h
  | num n =>
    cases n with
    | uint n =>
      simp only [typifyEnum] at h
      split at h
      · split at h
        · rename_i hn
          cases h
          exact .enum ⟨_, (enumNameByTag_iff hwf _ _).mp hn⟩
        · cases h
      · cases h
    | _ => cases h
  | _ => cases h

theorem isOption_iff {vs : List (Variant × SemId)} : (Ty.union vs).isOption = true ↔
    ∃ n s, vs = [(⟨n!"none", 0⟩, n), (⟨n!"some", 1⟩, s)] := by
  constructor
  · intro h
    obtain ⟨r, h⟩ := Option.isSome_iff_exists.mp h
    simp only [Ty.asSome] at h
    split at h
    · rename_i hl
      obtain ⟨p, q, rfl⟩ : ∃ p q, vs = [p, q] := by
        rcases vs with _ | ⟨p, _ | ⟨q, _ | _⟩⟩ <;> simp at hl
        exact ⟨p, q, rfl⟩
      obtain ⟨⟨n1, t1⟩, a⟩ := p
      obtain ⟨⟨n2, t2⟩, b⟩ := q
      simp only [List.head?_cons, List.getLast?_cons_cons, List.getLast?_singleton] at h
      split at h
      · rename_i hc
        obtain ⟨rfl, rfl, rfl, rfl⟩ := hc
        exact ⟨a, b, rfl⟩
      · cases h
    · cases h
  · rintro ⟨n, s, rfl⟩
    rfl

theorem typifySome_out {vs : List (Variant × SemId)} (ho : (Ty.union vs).isOption = true)
    {v w : Val} (h : typifySome rec vs v = .ok w) : TOut E (IsResult rec) w (.union vs) := by
  obtain ⟨n, s, rfl⟩ := isOption_iff.mp ho
  obtain ⟨c, h1, h2⟩ := Out.bind_eq_ok.mp h
  obtain ⟨w, h3, h4⟩ := Out.bind_eq_ok.mp h2
  cases h1
  cases h4
  exact .byName (id := s) rfl ⟨v, h3⟩

theorem typifyUnion_out {vs : List (Variant × SemId)}
    {v w : Val} (h : typifyUnion rec vs v = .ok w) : TOut E (IsResult rec) w (.union vs) := by
  cases v with
  | union tag v =>
    cases tag with
    | name n =>
      simp only [typifyUnion] at h
      split at h
      · rename_i id hid
        obtain ⟨w, h1, h2⟩ := Out.bind_eq_ok.mp h
        cases h2
        exact .byName hid ⟨v, h1⟩
      · cases h
    | ord t =>
      simp only [typifyUnion] at h
      split at h
      · rename_i id hid
        obtain ⟨w, h1, h2⟩ := Out.bind_eq_ok.mp h
        cases h2
        exact .byTag hid ⟨v, h1⟩
      · cases h
  | unit =>
    simp only [typifyUnion] at h
    split at h
    · cases h; exact .none (by assumption)
    · cases h
  | tuple l =>
    match l, h with
    | [a, b], h =>
      simp only [typifyUnion] at h
      split at h
      · rename_i ho
        have ho' := ho
        obtain ⟨n, s, rfl⟩ := isOption_iff.mp ho
        obtain ⟨c, h1, h2⟩ := Out.bind_eq_ok.mp h
        cases h1
        split at h2
        · cases h2; exact .none ho'
        · split at h2
          · obtain ⟨w, h3, h4⟩ := Out.bind_eq_ok.mp h2
            cases h4
            exact .byName (id := s) rfl ⟨b, h3⟩
          · cases h2
      · cases h
    | [], h | [_], h | _ :: _ :: _ :: _, h =>
      simp only [typifyUnion] at h
      split at h
      · exact typifySome_out (by assumption) h
      · cases h
  | _ =>
    simp only [typifyUnion] at h
    split at h
    · exact typifySome_out (by assumption) h
    · cases h

theorem typifyNewtype_out {ids : List SemId} {v w : Val}
    (h : typifyTuple.newtype rec ids v = .ok w) : TOut E (IsResult rec) w (.tuple ids) := by
  match ids, h with
  | [id], h =>
    obtain ⟨w, h1, h2⟩ := Out.bind_eq_ok.mp h
    cases h2
    exact .tuple (ids := [id]) (ids' := []) ⟨⟨v, h1⟩, trivial⟩
  | [], h => cases h
  | _ :: _ :: _, h => cases h

theorem typifyTuple_out {ids : List SemId} {v w : Val}
    (h : typifyTuple rec ids v = .ok w) : TOut E (IsResult rec) w (.tuple ids) := by
  cases v with
  | str s =>
    simp only [typifyTuple] at h
    split at h
    · rename_i hc
      cases h; exact .rstring hc.1 hc.2
    · exact typifyNewtype_out h
  | tuple l =>
    simp only [typifyTuple] at h
    split at h
    · cases h
    · obtain ⟨ws, h1, h2⟩ := Out.bind_eq_ok.mp h
      cases h2
      obtain ⟨a, b, rfl, ha⟩ := typifyZip_ok h1
      exact .tuple ha
  | list l =>
    simp only [typifyTuple] at h
    obtain ⟨ws, h1, h2⟩ := Out.bind_eq_ok.mp h
    cases h2
    obtain ⟨a, b, rfl, ha⟩ := typifyZip_ok h1
    exact .tuple ha
  | _ => exact typifyNewtype_out h

theorem typifyStruct_out {req : List (Name × SemId)} {v w : Val}
    (h : typifyStruct rec req v = .ok w) : TOut E (IsResult rec) w (.struct req) := by
  have h0 : FieldsOk rec req [] := ⟨by simp, by simp⟩
  cases v with
  | struct fs =>
    simp only [typifyStruct] at h
    split at h
    · cases h
    · obtain ⟨ws, h1, h2⟩ := Out.bind_eq_ok.mp h
      cases h2
      have := typifyFields_ok h0 h1
      exact .struct this.1 this.2
  | map fs =>
    simp only [typifyStruct] at h
    obtain ⟨ws, h1, h2⟩ := Out.bind_eq_ok.mp h
    cases h2
    have := typifyMapFields_ok h0 h1
    exact .struct this.1 this.2
  | _ => cases h

theorem typifyArray_out {R : Val → SemId → Prop} {id : SemId} {len : BitVec 16} {v w : Val}
    (h : typifyArray E id len v = .ok w) : TOut E R w (.array id len) := by
  cases v with
  | bytes b =>
    simp only [typifyArray] at h
    split at h
    · split at h
      · cases h
      · cases h; exact .arrayBytes (by assumption) (by omega)
    · cases h
  | str s =>
    simp only [typifyArray] at h
    split at h
    · cases h
    · split at h
      · cases h; exact .arrayString (by omega) (by assumption)
      · cases h
  | list l =>
    simp only [typifyArray] at h
    split at h
    · cases h
    · cases h; exact .arrayList (by omega)
  | _ => cases h

theorem typifyList_out {id : SemId} {sz : Sizing} {v w : Val}
    (h : typifyList rec E id sz v = .ok w) : TOut E (IsResult rec) w (.list id sz) := by
  cases v with
  | str s =>
    simp only [typifyList] at h
    split at h
    · cases h
    · rename_i hc
      have hc : sz.check s.length = true := by simpa using hc
      split at h
      · cases h; exact .string hc (Or.inl (by assumption))
      · split at h
        · cases h; exact .bytes hc (by assumption)
        · rename_i hb
          split at h
          · cases h; exact .string hc (Or.inr ⟨by simpa using hb, by assumption⟩)
          · cases h
  | bytes b =>
    simp only [typifyList] at h
    split at h
    · cases h
    · rename_i hc
      split at h
      · cases h; exact .bytes (by simpa using hc) (by assumption)
      · cases h
  | list l =>
    simp only [typifyList] at h
    split at h
    · cases h
    · rename_i hc
      have hc : sz.check l.length = true := by simpa using hc
      obtain ⟨ws, h1, h2⟩ := Out.bind_eq_ok.mp h
      cases h2
      obtain ⟨hl, ha⟩ := outMap_ok h1
      exact .list (by rw [hl]; exact hc) ha
  | _ => cases h

theorem typifySet_out {id : SemId} {sz : Sizing} {v w : Val}
    (h : typifySet rec id sz v = .ok w) : TOut E (IsResult rec) w (.set id sz) := by
  cases v with
  | set l =>
    simp only [typifySet] at h
    split at h
    · cases h
    · rename_i hc
      have hc : sz.check l.length = true := by simpa using hc
      obtain ⟨ws, h1, h2⟩ := Out.bind_eq_ok.mp h
      cases h2
      obtain ⟨hl, ha, hp⟩ := typifySetItems_ok (acc := []) (by simp) (by simp) h1
      exact .set (by rw [hl]; simpa using hc) ha hp
  | _ => cases h

theorem typifyMap_out {kid id : SemId} {sz : Sizing} {v w : Val}
    (h : typifyMap rec kid id sz v = .ok w) : TOut E (IsResult rec) w (.map kid id sz) := by
  cases v with
  | map l =>
    simp only [typifyMap] at h
    split at h
    · cases h
    · rename_i hc
      have hc : sz.check l.length = true := by simpa using hc
      obtain ⟨ws, h1, h2⟩ := Out.bind_eq_ok.mp h
      cases h2
      obtain ⟨hl, ha, hp⟩ := typifyMapItems_ok (acc := []) (by simp) (by simp) h1
      exact .map (by rw [hl]; simpa using hc) ha hp
  | _ => cases h

theorem typifyTy_out {t : Ty SemId} (hwf : t.WF) {v w : Val} (h : typifyTy rec E v t = .ok w) :
    TOut E (IsResult rec) w t := by
  cases t with
  | primitive p => exact typifyPrim_out h
  | unicodeChar =>
    cases v with
    | str s =>
      simp only [typifyTy, typifyUnicode] at h
      split at h
      · cases h; exact .unicodeChar (by assumption)
      · cases h
    | _ => cases h
  | enum vs => exact typifyEnum_out hwf h
  | union vs => exact typifyUnion_out h
  | tuple ids => exact typifyTuple_out h
  | struct req => exact typifyStruct_out h
  | array id len => exact typifyArray_out h
  | list id sz => exact typifyList_out h
  | set id sz => exact typifySet_out h
  | map kid id sz => exact typifyMap_out h

theorem Env.Sane.typeOf_wf (hs : E.Sane) {id : SemId} {t : Ty SemId} (h : E.typeOf id = some t) :
    t.WF := by
  unfold Env.typeOf at h
  split at h
  · cases h
    exact trivial
  · exact hs.wf _ _ h

theorem typify_out (hs : E.Sane) {n : Nat} {v w : Val} {id : SemId}
    (h : typify E (n + 1) v id = .ok w) :
    ∃ t, E.typeOf id = some t ∧ TOut E (IsResult (typify E n)) w t := by
  simp only [typify] at h
  split at h
  · cases h
  · rename_i t ht
    exact ⟨t, ht, typifyTy_out (hs.typeOf_wf ht) h⟩

theorem all2_get {α β : Type} {R : α → β → Prop} {l : List α} {m : List β} (h : All2 R l m)
    {k : Nat} {a : α} {b : β} (ha : l[k]? = some a) (hb : m[k]? = some b) : R a b := by
  induction l generalizing m k with
  | nil => simp at ha
  | cons x l ih =>
    cases m with
    | nil => simp at hb
    | cons y m =>
      cases k with
      | zero =>
        simp only [List.getElem?_cons_zero, Option.some.injEq] at ha hb
        subst ha
        subst hb
        exact h.1
      | succ k => exact ih h.2 (by simpa using ha) (by simpa using hb)

theorem fieldTy_iff {req : List (Name × SemId)} (hd : (req.map Prod.fst).Nodup) (n : Name)
    (i : SemId) : Ty.fieldTy req n = some i ↔ (n, i) ∈ req := by
  induction req with
  | nil => simp [Ty.fieldTy]
  | cons r req ih =>
    obtain ⟨m, j⟩ := r
    simp only [List.map_cons, List.nodup_cons] at hd
    have ih := ih hd.2
    simp only [Ty.fieldTy, List.find?_cons] at ih ⊢
    by_cases hm : m = n
    · subst hm
      simp only [beq_self_eq_true, Option.map_some, Option.some.injEq, List.mem_cons,
        Prod.mk.injEq, true_and]
      constructor
      · intro h; exact Or.inl h.symm
      · rintro (h | h)
        · exact h.symm
        · exact absurd (List.mem_map.mpr ⟨_, h, rfl⟩) hd.1
    · have : (m == n) = false := beq_eq_false_iff_ne.mpr hm
      simp only [this, ih, List.mem_cons, Prod.mk.injEq]
      constructor
      · intro h; exact Or.inr h
      · rintro (⟨h, -⟩ | h)
        · exact absurd h.symm hm
        · exact h

/-- Every part of a result is a result. -/
theorem part_result (hs : E.Sane) {n : Nat} {v w w' : Val} {id id' : SemId}
    (h : typify E (n + 1) v id = .ok w) (hp : Part E w id w' id') :
    IsResult (typify E n) w' id' ∨ (w' = .unit ∧ w = .none) := by
  obtain ⟨t, ht, ho⟩ := typify_out hs h
  have conv : ∀ {u}, E.find id = some u → t = u := by
    intro u hu
    have := hs.typeOf hu
    rw [ht] at this
    exact Option.some.inj this
  cases hp with
  | listItem hf hm => cases conv hf; cases ho with | list _ h => exact Or.inl (h _ hm)
  | setItem hf hm => cases conv hf; cases ho with | set _ h => exact Or.inl (h _ hm)
  | mapKey hf hm => cases conv hf; cases ho with | map _ h => exact Or.inl (h _ hm).1
  | mapValue hf hm => cases conv hf; cases ho with | map _ h => exact Or.inl (h _ hm).2
  | tupleField hf h1 h2 =>
    have := conv hf
    subst this
    generalize hT : Ty.tuple _ = T at ho
    cases ho with
    | tuple ha =>
      cases hT
      refine Or.inl (all2_get ha h1 ?_)
      rename_i k ids _
      have hk : k < ids.length := by
        have := all2_length ha
        rw [← this]
        exact (List.getElem?_eq_some_iff.mp h1).1
      rwa [List.getElem?_append_left hk] at h2
    | _ => cases hT
  | structField hf h1 h2 =>
    cases conv hf
    cases ho with
    | struct hn h =>
      obtain ⟨j, hj, hr⟩ := h _ h1
      have := (fieldTy_iff (hs.fields _ _ hf) _ _).mpr h2
      rw [this] at hj
      cases hj
      exact Or.inl hr
  | byName hf hm =>
    cases conv hf
    have hwf : VariantsWF _ := hs.wf _ _ hf
    generalize hW : Val.union _ w' = W at ho
    cases ho with
    | byName hid hr =>
      cases hW
      have := (unionTyByName_iff hwf _ _).mpr ⟨_, hm⟩
      rw [hid] at this
      cases this
      exact Or.inl hr
    | none hopt =>
      cases hW
      exact Or.inr ⟨rfl, rfl⟩
    | _ => cases hW
  | byTag hf hm =>
    cases conv hf
    have hwf : VariantsWF _ := hs.wf _ _ hf
    generalize hW : Val.union _ w' = W at ho
    cases ho with
    | byTag hid hr =>
      cases hW
      have := (unionTyByTag_iff hwf _ _).mpr ⟨_, hm⟩
      rw [hid] at this
      cases this
      exact Or.inl hr
    | none hopt => cases hW
    | _ => cases hW

end Verif
