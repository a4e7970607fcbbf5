import Verif.Props.Codec
import Verif.Props.Value
import Verif.Lemmas.TypifyOut
import Verif.Lemmas.Rel

/-!
# C72: the parts of typed values
-/

namespace Verif

/-- The value has the type: as declared (`strict`), or as the decoder checks it. -/
def Has (E : Env) (strict : Bool) (v : Val) (id : SemId) : Prop := ∃ n, HasTyN E strict n v id

/-- The type is the other one inside any number of one-field tuples. -/
inductive Unwraps (E : Env) : SemId → SemId → Prop
  | refl {id : SemId} : Unwraps E id id
  | step {id r id' : SemId} : E.find id = some (.tuple [r]) → Unwraps E r id' → Unwraps E id id'

theorem skip_wrapN (k : Nat) (v : Val) : (wrapN k v).skipWrapper = v.skipWrapper := (C48_unwrap v).2.2.2.1 k

theorem Unwraps.value {E : Env} {b : Bool} {id id' : SemId} (h : Unwraps E id id') :
    ∀ {v : Val}, Has E b v id → ∃ k w, v = wrapN k w ∧ Has E b w id' := by
  induction h with
  | refl => intro v hv; exact ⟨0, v, rfl, hv⟩
  | step hf _ ih =>
    rintro v ⟨n, hv⟩
    cases n with
    | zero => exact hv.elim
    | succ n =>
      obtain ⟨t, ht, hi⟩ := hv
      rw [hf] at ht
      cases ht
      cases hi with
      | @tuple l _ _ h2 =>
        match l, h2 with
        | [w], h2 =>
          obtain ⟨k, u, hu, h⟩ := ih ⟨n, h2.1⟩
          exact ⟨k + 1, u, by rw [hu]; rfl, h⟩
      | rstring h1 => obtain ⟨_, _, _, h, _⟩ := h1; simp at h
      | rstringEmpty h1 => obtain ⟨_, _, _, h, _⟩ := h1; simp at h

theorem Has.cases {E : Env} {b : Bool} {v : Val} {id : SemId} (h : Has E b v id) {t : Ty SemId} (ht : E.find id = some t) :
    Inhabits E b (Has E b) v t := by
  obtain ⟨n, hv⟩ := h
  cases n with
  | zero => exact hv.elim
  | succ n =>
    obtain ⟨t', ht', hi⟩ := hv
    rw [ht] at ht'
    cases ht'
    have up : ∀ {v id}, HasTyN E b n v id → Has E b v id := fun h => ⟨n, h⟩
    have all : ∀ {l : List Val} {ids : List SemId}, All2 (HasTyN E b n) l ids → All2 (Has E b) l ids := by
      intro l
      induction l with
      | nil => intro ids h; cases ids <;> exact h
      | cons v l ih =>
        intro ids h
        cases ids with
        | nil => exact h
        | cons i ids => exact ⟨up h.1, ih h.2⟩
    have fields : ∀ {l : List (Name × Val)} {ids : List (Name × SemId)},
        All2 (fun f r => f.1 = r.1 ∧ HasTyN E b n f.2 r.2) l ids →
        All2 (fun f r => f.1 = r.1 ∧ Has E b f.2 r.2) l ids := by
      intro l
      induction l with
      | nil => intro ids h; cases ids <;> exact h
      | cons v l ih =>
        intro ids h
        cases ids with
        | nil => exact h
        | cons i ids => exact ⟨⟨h.1.1, up h.1.2⟩, ih h.2⟩
    cases hi with
    | unit => exact .unit
    | uint h1 h2 h3 => exact .uint h1 h2 h3
    | byte h1 => exact .byte h1
    | int h1 h2 h3 h4 => exact .int h1 h2 h3 h4
    | bigUint h1 h2 h3 => exact .bigUint h1 h2 h3
    | bigInt h1 h2 h3 h4 => exact .bigInt h1 h2 h3 h4
    | unicodeChar h1 => exact .unicodeChar h1
    | enum h1 => exact .enum h1
    | union h1 h2 => exact .union h1 (up h2)
    | tuple h1 h2 => exact .tuple h1 (all h2)
    | rstring h1 h2 h3 h4 => exact .rstring h1 h2 h3 h4
    | rstringEmpty h1 h2 => exact .rstringEmpty h1 h2
    | struct h1 => exact .struct (fields h1)
    | byteArray h1 h2 => exact .byteArray h1 h2
    | array h1 h2 h3 => exact .array h1 h2 fun v hv => up (h3 v hv)
    | asciiList h1 h2 h3 => exact .asciiList h1 h2 h3
    | byteList h1 h2 => exact .byteList h1 h2
    | unicodeList h1 h2 h3 h4 => exact .unicodeList h1 h2 h3 h4
    | list h1 h2 h3 h4 h5 h6 => exact .list h1 h2 h3 h4 h5 fun v hv => up (h6 v hv)
    | set h1 h2 h3 h4 => exact .set h1 h2 (fun v hv => up (h3 v hv)) h4
    | map h1 h2 h3 h4 => exact .map h1 h2 (fun p hp => ⟨up (h3 p hp).1, up (h3 p hp).2⟩) h4

/-! ## Violations -/

/-- A pair in a one-field tuple, a number in a one-field tuple, a list of bytes. -/
def exAccess (E : Env) : Env :=
  { E with sys := [(Id32.rep 0, .primitive 1), (Id32.rep 1, .tuple [Id32.rep 0, Id32.rep 0]),
    (Id32.rep 2, .tuple [Id32.rep 1]), (Id32.rep 3, .tuple [Id32.rep 0])] }

theorem exAccess_notR (E : Env) (ids : List SemId) (A C : List Variant) (sz : Sizing) : ¬ (exAccess E).RString ids A C sz := by
  rintro ⟨a, b, c, -, h, -⟩
  have := OMap.get_mem h
  simp [exAccess] at this

theorem exAccess_num (E : Env) (b : Bool) (x : BitVec 64) (h : x.toNat < 256) (n : Nat) :
    HasTyN (exAccess E) b (n + 1) (.num (.uint x)) (Id32.rep 0) :=
  ⟨.primitive 1, rfl, .uint (n := 1) (by omega) (by omega) (by omega)⟩

/-- **C72 is violated** by one-field tuples: asked for their only field, the accessor panics, or returns a
field of the field. -/
theorem C72_newtype_violated (E : Env) : let E := exAccess E
    (∃ v, WellTyped E v (Id32.rep 3) ∧ E.find (Id32.rep 3) = some (.tuple [Id32.rep 0]) ∧ v.unwrapTuple 0 = .panic) ∧
    (∃ v w, WellTyped E v (Id32.rep 2) ∧ E.find (Id32.rep 2) = some (.tuple [Id32.rep 1]) ∧
      v.unwrapTuple 0 = .ok w ∧ ¬ WellTyped E w (Id32.rep 1)) := by
  refine ⟨⟨.tuple [.num (.uint 5)], ⟨2, _, rfl, .tuple (exAccess_notR E _) ⟨exAccess_num E _ 5 (by decide) _, trivial⟩⟩,
    rfl, rfl⟩, ⟨.tuple [.tuple [.num (.uint 5), .num (.uint 7)]], .num (.uint 5), ⟨3, _, rfl, .tuple (exAccess_notR E _)
      ⟨⟨_, rfl, .tuple (exAccess_notR E _) ⟨exAccess_num E _ 5 (by decide) _, exAccess_num E _ 7 (by decide) _, trivial⟩⟩,
        trivial⟩⟩, rfl, rfl, ?_⟩⟩
  intro h
  have := Has.cases h (t := .tuple [Id32.rep 0, Id32.rep 0]) rfl
  cases this

/-- **C72 is violated** by lists of bytes and by restricted strings: their items cannot be accessed. -/
theorem C72_items_violated (debug : Bool) :
    (∃ v, WellTyped (exE debug) v (Id32.rep 6) ∧ (exE debug).find (Id32.rep 6) = some (.list (SemId.byte toyHash) ⟨0, 255⟩) ∧
      v = .bytes [1, 2] ∧ v.unwrapPos 0 = .panic) ∧
    (∃ v, WellTyped (exE debug) v (Id32.rep 5) ∧ (exE debug).find (Id32.rep 5) = some (.tuple [Id32.rep 3, Id32.rep 4]) ∧
      v = .str [65, 66] ∧ v.unwrapTuple 0 = .panic) := by
  refine ⟨⟨.bytes [1, 2], ⟨1, _, rfl, .byteList (by cases debug <;> decide) ⟨by decide, by decide⟩⟩, rfl, rfl, rfl⟩,
    ⟨.str [65, 66], ⟨1, _, rfl, .rstring (A := exAlphabet) (C := exAlphabet) (sz := ⟨0, 10⟩) ⟨_, _, _, rfl, rfl, ?_, rfl, rfl, ?_⟩
      ⟨⟨n!"a", 65⟩, by decide, rfl⟩ ?_ ⟨by decide, by decide⟩⟩, rfl, rfl, rfl⟩⟩
  · intro v hv; revert v; decide
  · intro v hv; revert v; decide
  · intro b hb
    rw [List.mem_singleton.1 hb]
    exact ⟨⟨n!"b", 66⟩, by decide, rfl⟩

/-! ## What holds -/

theorem imGet_of_nodup {V : Type} {fs : List (Name × V)} {n : Name} {v : V} (hd : (fs.map Prod.fst).Nodup)
    (h : (n, v) ∈ fs) : imGet fs n = some v := by
  obtain ⟨pre, post, rfl⟩ := List.append_of_mem h
  refine imGet_append fun hm => ?_
  rw [List.map_append, List.nodup_append] at hd
  exact hd.2.2 n hm n (by simp) rfl

theorem fields_names {R : Val → SemId → Prop} {fs : List (Name × Val)} {req : List (Name × SemId)}
    (h : All2 (fun f r => f.1 = r.1 ∧ R f.2 r.2) fs req) : fs.map Prod.fst = req.map Prod.fst := by
  induction fs generalizing req with
  | nil => cases req with
    | nil => rfl
    | cons => exact h.elim
  | cons f fs ih => cases req with
    | nil => exact h.elim
    | cons r req => rw [List.map_cons, List.map_cons, h.1.1, ih h.2]

/-- **C72, structs**: every field of the type is found, with its type. -/
theorem C72_struct (E : Env) (hs : E.Sane) (b : Bool) (v : Val) (id id' : SemId) (fs : List (Name × SemId))
    (hv : Has E b v id) (hu : Unwraps E id id') (hf : E.find id' = some (.struct fs)) (n : Name) (r : SemId)
    (hr : (n, r) ∈ fs) : ∃ w, v.unwrapStruct n = .ok w ∧ Has E b w r := by
  obtain ⟨k, w, rfl, hw⟩ := hu.value hv
  cases hw.cases hf with
  | @struct l _ h =>
    have hn := fields_names h
    have hd : (fs.map Prod.fst).Nodup := hs.fields _ _ hf
    obtain ⟨⟨m, u⟩, hu1, rfl, hu2⟩ := all2_right h hr
    refine ⟨u, ?_, hu2⟩
    unfold Val.unwrapStruct
    rw [skip_wrapN]
    show Out.expect (imGet l _) = _
    rw [imGet_of_nodup (hn ▸ hd) hu1]
    rfl

/-- **C72, tuples**: every field of a tuple is found, with its type. Missing: tuples of one field, see above,
and restricted strings, which have no fields. -/
theorem C72_tuple_partial (E : Env) (b : Bool) (v : Val) (id id' : SemId) (ids : List SemId)
    (hv : Has E b v id) (hu : Unwraps E id id') (hf : E.find id' = some (.tuple ids)) (h1 : ids.length ≠ 1)
    (hn : ∀ A C sz, ¬ E.RString ids A C sz) (i : BitVec 16) (r : SemId) (hr : ids[i.toNat]? = some r) :
    ∃ w, v.unwrapTuple i = .ok w ∧ Has E b w r := by
  obtain ⟨k, w, rfl, hw⟩ := hu.value hv
  cases hw.cases hf with
  | @tuple l _ _ h =>
    have hl := all2_length h
    have hi := (List.getElem?_eq_some_iff.1 hr).1
    have hg : l[i.toNat]? = some (l[i.toNat]'(by omega)) := List.getElem?_eq_getElem _
    refine ⟨_, ?_, all2_get h hg hr⟩
    unfold Val.unwrapTuple
    rw [skip_wrapN]
    have : (Val.tuple l).skipWrapper = .tuple l := by
      match l, hl with
      | [], _ => rfl
      | [_], hl => exact absurd hl.symm h1
      | _ :: _ :: _, _ => rfl
    rw [this]
    show Out.expect l[i.toNat]? = _
    rw [hg]
    rfl
  | rstring h => exact absurd h (hn _ _ _)
  | rstringEmpty h => exact absurd h (hn _ _ _)

/-- **C72, unions and enums**: the accessors return the name of a variant and a payload of its type. -/
theorem C72_variants (E : Env) (b : Bool) (v : Val) (id id' : SemId) (hv : Has E b v id) (hu : Unwraps E id id') :
    (∀ vs, E.find id' = some (.union vs) → ∃ n t r w, (⟨n, t⟩, r) ∈ vs ∧ v.unwrapUnion = .ok (.name n, w) ∧ Has E b w r) ∧
    (∀ vs, E.find id' = some (.enum vs) → ∃ n t, ⟨n, t⟩ ∈ vs ∧ v.unwrapEnumTag = .ok (.name n)) := by
  obtain ⟨k, w, rfl, hw⟩ := hu.value hv
  refine ⟨fun vs hf => ?_, fun vs hf => ?_⟩
  · cases hw.cases hf with
    | @union _ n t r u h1 h2 =>
      exact ⟨n, t, r, u, h1, by unfold Val.unwrapUnion; rw [skip_wrapN]; rfl, h2⟩
  · cases hw.cases hf with
    | @enum _ n t h1 => exact ⟨n, t, h1, by unfold Val.unwrapEnumTag; rw [skip_wrapN]; rfl⟩

theorem inhabits_prim {E : Env} {b : Bool} {R : Val → SemId → Prop} {v : Val} {t : Ty SemId} (h : Inhabits E b R v t)
    (n : Nat) (hn : n ≤ 8) (ht : t = .primitive (BitVec.ofNat 8 n)) :
    (n = 0 ∧ v = .unit) ∨ ∃ x : BitVec 64, 1 ≤ n ∧ v = .num (.uint x) ∧ x.toNat < 256 ^ n := by
  have key : ∀ {p : Byte}, (Ty.primitive p : Ty SemId) = .primitive (BitVec.ofNat 8 n) → p.toNat = n := by
    intro p hp
    cases hp
    rw [BitVec.toNat_ofNat]; omega
  cases h with
  | unit => exact .inl ⟨(key ht).symm, rfl⟩
  | @uint m x h1 h2 h3 =>
    have := key ht
    rw [BitVec.toNat_ofNat] at this
    have : m = n := by omega
    exact .inr ⟨x, by omega, rfl, this ▸ h3⟩
  | byte h1 =>
    have := key ht
    simp [Ty.BYTE_CODE] at this; omega
  | @int m x h1 h2 h3 h4 =>
    have := key ht
    rw [BitVec.toNat_ofNat] at this; omega
  | bigUint h1 h2 =>
    have := key ht; omega
  | bigInt h1 h2 =>
    have := key ht; omega
  | _ => cases ht

/-- **C72, options**: the value of an optional type is absent, or present with its type. -/
theorem C72_option (E : Env) (b : Bool) (v : Val) (id id' n s : SemId) (hv : Has E b v id)
    (hu : Unwraps E id id') (hf : E.find id' = some (.union [(⟨n!"none", 0⟩, n), (⟨n!"some", 1⟩, s)]))
    (hn : E.find n = some Ty.UNIT) :
    (v.unwrapOption = .ok none ∧ ∃ k, v = wrapN k .none) ∨
    ∃ w, v.unwrapOption = .ok (some w) ∧ Has E b w s ∧ ∃ k, v = wrapN k (.some w) := by
  obtain ⟨k, w, rfl, hw⟩ := hu.value hv
  cases hw.cases hf with
  | @union _ m t r u h1 h2 =>
    simp only [List.mem_cons, Prod.mk.injEq, Variant.mk.injEq, List.not_mem_nil, or_false] at h1
    rcases h1 with ⟨⟨rfl, rfl⟩, rfl⟩ | ⟨⟨rfl, rfl⟩, rfl⟩
    · left
      rcases inhabits_prim (h2.cases hn) 0 (by omega) rfl with ⟨-, rfl⟩ | ⟨x, hx, -⟩
      · exact ⟨by unfold Val.unwrapOption; rw [skip_wrapN]; rfl, k, rfl⟩
      · omega
    · right
      exact ⟨u, by unfold Val.unwrapOption; rw [skip_wrapN]; rfl, h2, k, rfl⟩

/-- **C72, numbers**: an unsigned number of `n` bytes is returned as any type of that size. -/
theorem C72_number (E : Env) (b : Bool) (v : Val) (id id' : SemId) (n : Nat) (h1 : 1 ≤ n) (h8 : n ≤ 8) (hv : Has E b v id)
    (hu : Unwraps E id id') (hf : E.find id' = some (.primitive (BitVec.ofNat 8 n))) :
    ∃ x, v.unwrapUint (256 ^ n) = .ok x ∧ x < 256 ^ n ∧ v.unwrapNum = .ok (.uint (BitVec.ofNat 64 x)) := by
  obtain ⟨k, w, rfl, hw⟩ := hu.value hv
  rcases inhabits_prim (hw.cases hf) n h8 rfl with ⟨rfl, -⟩ | ⟨x, -, rfl, hx⟩
  · omega
  · have hnum : (wrapN k (.num (.uint x))).unwrapNum = .ok (.uint x) := by
      unfold Val.unwrapNum; rw [skip_wrapN]; rfl
    refine ⟨x.toNat, ?_, hx, by rw [hnum]; simp⟩
    unfold Val.unwrapUint
    rw [hnum]
    show (if x.toNat < 256 ^ n then _ else _) = _
    rw [if_pos hx]

/-- **C72, strings**: byte strings and arrays are returned as bytes; strings of characters and restricted
strings as strings. -/
theorem C72_strings (E : Env) (b : Bool) (v : Val) (id id' : SemId) (hv : Has E b v id) (hu : Unwraps E id id') :
    (∀ r sz, E.find id' = some (.list r sz) → r.isByte E.H = true → (∀ C, ¬ E.CharEnum r C) → r.isUnicodeChar E.H = false →
      ∃ s, v.unwrapBytes = .ok s ∧ SizeOk b sz.min.toNat sz.max.toNat s.length) ∧
    (∀ r len, E.find id' = some (.array r len) → r.isByte E.H = true → ∃ s, v.unwrapBytes = .ok s ∧ s.length = len.toNat) ∧
    (∀ r sz, E.find id' = some (.list r sz) → r.isByte E.H = false → r.isUnicodeChar E.H = true ∨ (∃ C, E.CharEnum r C) →
      ∃ s, v.unwrapString = .ok s ∧ SizeOk b sz.min.toNat sz.max.toNat s.length) ∧
    (∀ ids A C sz, E.find id' = some (.tuple ids) → E.RString ids A C sz → ∃ s, v.unwrapString = .ok s) := by
  obtain ⟨k, w, rfl, hw⟩ := hu.value hv
  have str : ∀ s, (wrapN k (.str s)).unwrapString = .ok s := by
    intro s; unfold Val.unwrapString; rw [skip_wrapN]; rfl
  have bytes : ∀ s, (wrapN k (.bytes s)).unwrapBytes = .ok s := by
    intro s; unfold Val.unwrapBytes; rw [skip_wrapN]; rfl
  refine ⟨fun r sz hf hb hc hun => ?_, fun r len hf hb => ?_, fun r sz hf hb hc => ?_, fun ids A C sz hf hr => ?_⟩
  · cases hw.cases hf with
    | asciiList h => exact absurd h (hc _)
    | byteList h1 h2 => exact ⟨_, bytes _, h2⟩
    | unicodeList h1 h2 => rw [hun] at h2; cases h2
    | list h1 => rw [hb] at h1; cases h1
  · cases hw.cases hf with
    | byteArray h1 h2 => exact ⟨_, bytes _, h2⟩
    | array h1 => rw [hb] at h1; cases h1
  · cases hw.cases hf with
    | asciiList h h1 h2 => exact ⟨_, str _, h2⟩
    | byteList h1 h2 => rw [hb] at h1; cases h1
    | unicodeList h1 h2 h3 h4 => exact ⟨_, str _, h4⟩
    | list h1 h2 h3 =>
      rcases hc with hc | ⟨C, hc⟩
      · rw [hc] at h2; cases h2
      · exact absurd hc (h3 C)
  · cases hw.cases hf with
    | tuple h => exact absurd hr (h _ _ _)
    | rstring => exact ⟨_, str _⟩
    | rstringEmpty => exact ⟨_, str _⟩

/-- **C72, forms of strings**: a string is returned as it is, bytes and lists of numbered values of an enumeration
are returned if they are text, also the empty ones; nothing else is returned as a string. -/
theorem C72_string_forms (k : Nat) (v : Val) (hv : v.skipWrapper = v) (s : Bytes) :
    ((wrapN k v).unwrapString = .ok s ↔
      v = .str s ∨ Utf8 s ∧ (v = .bytes s ∨ v = .list (s.map fun t => .enum (.ord t)))) ∧
    ((∀ s, (wrapN k v).unwrapString ≠ .ok s) → (wrapN k v).unwrapString = .panic) := by
  have hs : (wrapN k v).skipWrapper = v := by rw [skip_wrapN, hv]
  rw [← utf8Valid_iff]
  have list : ∀ l : List Val, (l.all Val.isEnum = true ∧ ∃ ts, outMap Val.unwrapEnumTag l = .ok ts ∧ l = ts.map .enum) ∨
      l.all Val.isEnum = false := by
    intro l
    induction l with
    | nil => exact .inl ⟨rfl, [], rfl, rfl⟩
    | cons x l ih =>
      cases x with
      | enum t =>
        rcases ih with ⟨h1, ts, h2, h3⟩ | h
        · refine .inl ⟨by simpa [Val.isEnum] using h1, t :: ts, ?_, by rw [h3]; rfl⟩
          have : Val.unwrapEnumTag (.enum t) = .ok t := by simp [Val.unwrapEnumTag, Val.skipWrapper]
          rw [outMap, this, h2]; rfl
        · exact .inr (by simpa [Val.isEnum] using h)
      | _ => exact .inr rfl
  have ords : ∀ ts : List Tag, (∃ s, outMap Tag.unwrapOrd ts = .ok s ∧ ts = s.map .ord) ∨
      (outMap Tag.unwrapOrd ts = .panic ∧ ∀ s : Bytes, ts ≠ s.map .ord) := by
    intro ts
    induction ts with
    | nil => exact .inl ⟨[], rfl, rfl⟩
    | cons t ts ih =>
      cases t with
      | name n => exact .inr ⟨rfl, fun s h => by cases s <;> cases h⟩
      | ord t =>
        rcases ih with ⟨s, h1, h2⟩ | ⟨h1, h2⟩
        · refine .inl ⟨t :: s, ?_, by rw [h2]; rfl⟩
          show (outMap Tag.unwrapOrd ts).bind _ = _
          rw [h1]; rfl
        · refine .inr ⟨?_, fun s h => ?_⟩
          · show (outMap Tag.unwrapOrd ts).bind _ = _
            rw [h1]; rfl
          · cases s with
            | nil => cases h
            | cons c s => exact h2 s (List.cons.inj h).2
  have utf : ∀ b : Bytes, (utf8Valid b = true ∧ expectUtf8 b = .ok b) ∨ (utf8Valid b = false ∧ expectUtf8 b = .panic) := by
    intro b
    unfold expectUtf8
    cases utf8Valid b
    · exact .inr ⟨rfl, rfl⟩
    · exact .inl ⟨rfl, rfl⟩
  have enums : ∀ s t : Bytes, s.map (fun t => Val.enum (.ord t)) = t.map (fun t => .enum (.ord t)) → s = t := by
    intro s
    induction s with
    | nil => intro t h; cases t with | nil => rfl | cons => cases h
    | cons a s ih =>
      intro t h
      cases t with
      | nil => cases h
      | cons b t =>
        have h := List.cons.inj h
        rw [ih t h.2]
        injection h.1 with h1
        injection h1 with h1
        rw [h1]
  unfold Val.unwrapString
  rw [hs]
  cases v with
  | str t => simp
  | bytes t =>
    rcases utf t with ⟨h1, h2⟩ | ⟨h1, h2⟩ <;> simp [h2]
    · rintro rfl; exact h1
    · rintro h rfl; rw [h1] at h; cases h
  | list l =>
    simp only [reduceCtorEq, false_or, Val.list.injEq]
    cases l with
    | nil =>
      have e : utf8Valid [] = true := by decide
      refine ⟨⟨fun h => ?_, fun h => ?_⟩, fun h => absurd rfl (h [])⟩
      · cases h; exact ⟨e, rfl⟩
      · cases s with
        | nil => rfl
        | cons => cases h.2
    | cons x l =>
      simp only [List.isEmpty_cons, Bool.false_eq_true, if_false]
      rcases list (x :: l) with ⟨h1, ts, h2, h3⟩ | h1
      · rw [if_pos h1, h2]
        show ((outMap Tag.unwrapOrd ts).bind _ = _ ↔ _) ∧ (_ → (outMap Tag.unwrapOrd ts).bind _ = _)
        rcases ords ts with ⟨u, h4, h5⟩ | ⟨h4, h5⟩
        · have he : x :: l = u.map fun t => Val.enum (.ord t) := by rw [h3, h5, List.map_map]; rfl
          rw [h4]
          show (expectUtf8 u = _ ↔ _) ∧ ((∀ s, (outMap Tag.unwrapOrd ts).bind _ ≠ _) → expectUtf8 u = _)
          rw [h4]
          show (expectUtf8 u = _ ↔ _) ∧ ((∀ s, expectUtf8 u ≠ _) → expectUtf8 u = _)
          rw [he]
          rcases utf u with ⟨g1, g2⟩ | ⟨g1, g2⟩ <;> rw [g2]
          · refine ⟨⟨fun h => ?_, fun h => ?_⟩, fun h => absurd rfl (h u)⟩
            · cases h; exact ⟨g1, rfl⟩
            · rw [enums _ _ h.2]
          · refine ⟨⟨fun h => (by cases h), fun h => ?_⟩, fun h => rfl⟩
            rw [← enums _ _ h.2, g1] at h
            cases h.1
        · rw [h4]
          refine ⟨⟨fun h => (by cases h), fun h => ?_⟩, fun _ => rfl⟩
          exfalso
          refine h5 s ?_
          have h6 := h.2
          rw [h3] at h6
          have : ∀ (a b : List Tag), a.map Val.enum = b.map Val.enum → a = b := by
            intro a b hab
            exact List.map_inj_right (by intro _ _ h; injection h) |>.1 hab
          exact this _ _ (by rw [h6, List.map_map]; rfl)
      · rw [if_neg (by rw [h1]; simp)]
        refine ⟨⟨fun h => (by cases h), fun h => ?_⟩, fun _ => rfl⟩
        rw [h.2] at h1
        exfalso
        simp [Val.isEnum] at h1
  | _ => exact ⟨⟨fun h => (by cases h), fun h => (by simp at h)⟩, fun _ => rfl⟩

/-- Characters of an enumeration in a new type; no text in the empty tuple. -/
example : (wrapN 2 (.list [.enum (.ord 72), .enum (.ord 105)])).unwrapString = .ok [72, 105] ∧
    (wrapN 1 (.list [])).unwrapString = .ok [] ∧ (Val.tuple []).unwrapString = .panic := by decide

/-- **C72, lists and sets**: the items at all positions below the size are found, with their type, and no
others. Missing: lists of bytes and characters, see above. -/
theorem C72_items_partial (E : Env) (b : Bool) (v : Val) (id id' r : SemId) (sz : Sizing) (hv : Has E b v id)
    (hu : Unwraps E id id') (hf : E.find id' = some (.set r sz) ∨ E.find id' = some (.list r sz) ∧
      r.isByte E.H = false ∧ r.isUnicodeChar E.H = false ∧ ∀ C, ¬ E.CharEnum r C) :
    ∃ n, SizeOk b sz.min.toNat sz.max.toNat n ∧
      (∀ i, i < n → ∃ w, v.unwrapPos i = .ok w ∧ Has E b w r) ∧ ∀ i, n ≤ i → v.unwrapPos i = .panic := by
  obtain ⟨k, w, rfl, hw⟩ := hu.value hv
  have main : ∀ (l : List Val), (∀ i, (wrapN k w).unwrapPos i = Out.expect l[i]?) →
      SizeOk b sz.min.toNat sz.max.toNat l.length → (∀ v ∈ l, Has E b v r) → ∃ n, SizeOk b sz.min.toNat sz.max.toNat n ∧
      (∀ i, i < n → ∃ u, (wrapN k w).unwrapPos i = .ok u ∧ Has E b u r) ∧ ∀ i, n ≤ i → (wrapN k w).unwrapPos i = .panic := by
    intro l hl hsz ht
    refine ⟨l.length, hsz, fun i hi => ⟨l[i], ?_, ht _ (List.getElem_mem _)⟩, fun i hi => ?_⟩
    · rw [hl, List.getElem?_eq_getElem hi]; rfl
    · rw [hl, List.getElem?_eq_none hi]; rfl
  rcases hf with hf | ⟨hf, hb, hun, hc⟩
  · cases hw.cases hf with
    | @set _ _ l h1 h2 h3 h4 =>
      exact main l (fun i => by unfold Val.unwrapPos; rw [skip_wrapN]; rfl) h2 h3
  · cases hw.cases hf with
    | asciiList h => exact absurd h (hc _)
    | byteList h1 h2 => rw [hb] at h1; cases h1
    | unicodeList h1 h2 => rw [hun] at h2; cases h2
    | @list _ _ l h1 h2 h3 h4 h5 h6 =>
      exact main l (fun i => by unfold Val.unwrapPos; rw [skip_wrapN]; rfl) h5 h6

theorem eqvList_self {l : List Val} (h : ∀ v ∈ l, v.eqv v = true) : Val.eqvList l l = true := by
  induction l with
  | nil => rfl
  | cons v l ih => simp only [Val.eqvList, h v (by simp), ih fun v hv => h v (by simp [hv]), Bool.and_self]

theorem eqvPairs_self {l : List (Val × Val)} (h : ∀ p ∈ l, p.1.eqv p.1 = true ∧ p.2.eqv p.2 = true) :
    Val.eqvPairs l l = true := by
  induction l with
  | nil => rfl
  | cons p l ih =>
    obtain ⟨h1, h2⟩ := h p (by simp)
    have := ih fun v hv => h v (by simp [hv])
    obtain ⟨x, y⟩ := p
    simp only [Val.eqvPairs, Val.eqvPair, this, Bool.and_true, Bool.and_eq_true]
    exact ⟨h1, h2⟩

theorem eqvFields_self {gs : List (Name × Val)} : ∀ {fs : List (Name × Val)},
    (∀ f ∈ fs, imGet gs f.1 = some f.2 ∧ f.2.eqv f.2 = true) → Val.eqvFields fs gs = true := by
  intro fs
  induction fs with
  | nil => intro _; rfl
  | cons f fs ih =>
    intro h
    obtain ⟨h1, h2⟩ := h f (by simp)
    have := ih fun v hv => h v (by simp [hv])
    obtain ⟨x, y⟩ := f
    simp only [Val.eqvFields, Val.eqvField, this, Bool.and_true]
    simp only at h1 h2
    rw [h1]
    exact h2

/-- Typed values equal themselves. -/
theorem typed_eqv {E : Env} (hs : E.Sane) {b : Bool} : ∀ (n : Nat) (v : Val) (id : SemId), HasTyN E b n v id →
    v.eqv v = true := by
  intro n
  induction n with
  | zero => intro v id h; exact h.elim
  | succ n ih =>
    rintro v id ⟨t, ht, h⟩
    cases h with
    | union h1 h2 => simp [Val.eqv, ih _ _ h2]
    | tuple h1 h2 =>
      refine eqvList_self fun v hv => ?_
      obtain ⟨_, _, h⟩ := all2_left h2 hv
      exact ih _ _ h
    | @struct fs req h1 =>
      have hd : (fs.map Prod.fst).Nodup := fields_names h1 ▸ hs.fields _ _ ht
      simp only [Val.eqv, beq_self_eq_true, Bool.true_and]
      refine eqvFields_self fun f hf => ⟨imGet_of_nodup hd hf, ?_⟩
      obtain ⟨_, _, _, h⟩ := all2_left h1 hf
      exact ih _ _ h
    | array _ _ h => exact eqvList_self fun v hv => ih _ _ (h v hv)
    | list _ _ _ _ _ h => exact eqvList_self fun v hv => ih _ _ (h v hv)
    | set _ _ h => exact eqvList_self fun v hv => ih _ _ (h v hv)
    | map _ _ h => exact eqvPairs_self fun p hp => ⟨ih _ _ (h p hp).1, ih _ _ (h p hp).2⟩
    | _ => simp [Val.eqv]

/-- **C72, maps**: under the key of each entry the entry is found, with its type; for decoded values, if there
are no repeated keys (see C32). -/
theorem C72_map (E : Env) (hs : E.Sane) (b : Bool) (v : Val) (id id' kid rid : SemId) (sz : Sizing) (hv : Has E b v id)
    (hu : Unwraps E id id') (hf : E.find id' = some (.map kid rid sz)) :
    ∃ k l, v = wrapN k (.map l) ∧ SizeOk b sz.min.toNat sz.max.toNat l.length ∧
      (∀ p ∈ l, Has E b p.1 kid ∧ Has E b p.2 rid) ∧
      ((b = false → (l.map Prod.fst).Pairwise fun x y => x.eqv y = false) → ∀ p ∈ l, v.unwrapKey p.1 = .ok p.2) := by
  obtain ⟨k, w, rfl, hw⟩ := hu.value hv
  cases hw.cases hf with
  | @map _ _ _ l h1 h2 h3 h4 =>
    refine ⟨k, l, rfl, h2, h3, fun hd p hp => ?_⟩
    have hp' : (l.map Prod.fst).Pairwise fun x y => x.eqv y = false := by
      cases b
      · exact hd rfl
      · exact h4 rfl
    obtain ⟨pre, post, rfl⟩ := List.append_of_mem hp
    obtain ⟨n, hn⟩ := (h3 p hp).1
    unfold Val.unwrapKey
    rw [skip_wrapN]
    show Out.expect (((pre ++ p :: post).find? fun q => q.1.eqv p.1).map Prod.snd) = _
    have hnone : pre.find? (fun q => q.1.eqv p.1) = none := by
      rw [List.find?_eq_none]
      intro q hq
      rw [List.map_append, List.pairwise_append] at hp'
      rw [hp'.2.2 q.1 (List.mem_map_of_mem hq) p.1 (by simp)]
      simp
    rw [List.find?_append, hnone, List.find?_cons_of_pos (p := fun q : Val × Val => q.1.eqv p.1) (typed_eqv hs n _ _ hn)]
    rfl

/-- The example value has its type, and the parts of it theirs. -/
theorem exVal_has (debug : Bool) : Has (exE debug) false exVal (Id32.rep 14) :=
  ⟨5, C32_shape_partial (exE debug) (exE_sane debug) (Supported.small (exE_sane debug) (exE_supported debug)).1 5 _ exBytes [] _ (by cases debug <;> rfl)⟩

example (debug : Bool) : ∃ x y, exVal.unwrapStruct n!"x" = .ok x ∧ exVal.unwrapStruct n!"y" = .ok y ∧
    Has (exE debug) false x (Id32.rep 12) ∧ Has (exE debug) false y (Id32.rep 13) ∧
    x.unwrapKey (.str [65, 66]) = .ok (.set [.num (.uint 7), .num (.uint 9)]) ∧
    y.unwrapTuple 1 = .ok (.some (.str [67])) := by
  obtain ⟨x, hx, tx⟩ := C72_struct (exE debug) (exE_sane debug) false exVal _ _ _ (exVal_has debug) .refl rfl
    n!"x" (Id32.rep 12) (by decide)
  obtain ⟨y, hy, ty⟩ := C72_struct (exE debug) (exE_sane debug) false exVal _ _ _ (exVal_has debug) .refl rfl
    n!"y" (Id32.rep 13) (by decide)
  refine ⟨x, y, hx, hy, tx, ty, ?_, ?_⟩
  · cases hx; rfl
  · cases hy; rfl

/-- Through a one-field tuple. -/
example (E : Env) : Unwraps (exAccess E) (Id32.rep 2) (Id32.rep 1) ∧
    ((.tuple [.tuple [.num (.uint 5), .num (.uint 7)]] : Val).unwrapTuple 1 = .ok (.num (.uint 7))) :=
  ⟨.step rfl .refl, rfl⟩

end Verif
