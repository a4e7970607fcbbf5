import Verif.Lemmas.TypifyExact
import Verif.Lemmas.Canon

/-!
# What is read and what types declare

A value which was read is well typed exactly if nothing in it breaks the declarations of its type.
-/

namespace Verif

variable {E : Env}

/-- The shape of a value, without anything that breaks the declarations at this level, and items which have their types:
the value has its type. -/
theorem tighten {R Q : Val → SemId → Prop} {v : Val} {id : SemId} {t : Ty SemId} (ht : E.find id = some t)
    (h : Inhabits E false R v t) (hl : ¬ Loose E v id) (hp : ∀ w i, Part E v id w i → R w i → Q w i)
    (ha : ∀ l i len, v = .list l → t = .array i len → ∀ w ∈ l, R w i → Q w i) : Inhabits E true Q v t := by
  have size : ∀ (i : SemId) (sz : Sizing) n, t = .list i sz ∨ t = .set i sz → Counts v n →
      SizeOk true sz.min.toNat sz.max.toNat n := by
    intro i sz n h hc
    rcases Nat.lt_or_ge n sz.min.toNat with h1 | h1
    · rcases h with rfl | rfl
      · exact absurd (.unfit (.listSize ht hc (.inl h1))) hl
      · exact absurd (.unfit (.setSize ht hc (.inl h1))) hl
    · rcases Nat.lt_or_ge sz.max.toNat n with h2 | h2
      · rcases h with rfl | rfl
        · exact absurd (.unfit (.listSize ht hc (.inr h2))) hl
        · exact absurd (.unfit (.setSize ht hc (.inr h2))) hl
      · exact ⟨h1, h2⟩
  cases h with
  | unit => exact .unit
  | uint h1 h2 h3 => exact .uint h1 h2 h3
  | byte h => exact .byte h
  | int h1 h2 h3 h4 => exact .int h1 h2 h3 h4
  | bigUint h1 h2 h3 => exact .bigUint h1 h2 h3
  | bigInt h1 h2 h3 h4 => exact .bigInt h1 h2 h3 h4
  | unicodeChar h => exact .unicodeChar h
  | enum h => exact .enum h
  | union hm hr => exact .union hm (hp _ _ (.byName ht hm) hr)
  | tuple hn h =>
    exact .tuple hn (all2_of_get h fun k v i h1 h2 hr => hp _ _ (.tupleField ht h1 h2) hr)
  | rstring hr h1 h2 h3 =>
    rename_i A C sz ids c s
    refine .rstring hr ?_ (fun b hb => ?_) ?_
    · exact Classical.byContradiction fun h => hl (.firstChar ht hr h)
    · exact Classical.byContradiction fun h => hl (.nextChar ht hr hb h)
    · refine ⟨Nat.le_of_not_lt fun h => hl (.rstringSize ht hr (.inl h)),
        Nat.le_of_not_lt fun h => hl (.rstringSize ht hr (.inr h))⟩
  | rstringEmpty hr h => exact absurd (.rstringSize ht hr (.inl (by simp))) hl
  | struct h =>
    rename_i fs req
    refine .struct (all2_of_get h fun k f r h1 h2 hr => ⟨hr.1, hp _ _ (.structField (n := f.1) ht ?_ ?_) hr.2⟩)
    · exact List.mem_of_getElem? h1
    · have := List.mem_of_getElem? h2
      rw [hr.1]; exact this
  | byteArray h1 h2 => exact .byteArray h1 h2
  | array h1 h2 h3 => exact .array h1 h2 fun w hw => ha _ _ _ rfl rfl w hw (h3 w hw)
  | asciiList hc h1 h2 =>
    refine .asciiList hc (fun b hb => ?_) (size _ _ _ (.inl rfl) (.str _))
    exact Classical.byContradiction fun h => hl (.char ht hc hb h)
  | byteList h1 h2 => exact .byteList h1 (size _ _ _ (.inl rfl) (.bytes _))
  | unicodeList h1 h2 h3 h4 => exact .unicodeList h1 h2 h3 (size _ _ _ (.inl rfl) (.str _))
  | list h1 h2 h3 h4 h5 h6 =>
    exact .list h1 h2 h3 h4 (size _ _ _ (.inl rfl) (.list _)) fun w hw => hp _ _ (.listItem ht hw) (h6 w hw)
  | set h1 h2 h3 h4 =>
    refine .set h1 (size _ _ _ (.inr rfl) (.set _)) (fun w hw => hp _ _ (.setItem ht hw) (h3 w hw)) fun _ => ?_
    exact Classical.byContradiction fun h => hl (.unfit (.repeatedItem ht h))
  | map h1 h2 h3 h4 =>
    rename_i kid id' sz l
    refine .map h1 ?_ (fun p hm => ⟨hp _ _ (.mapKey ht hm) (h3 p hm).1, hp _ _ (.mapValue ht hm) (h3 p hm).2⟩)
      fun _ => ?_
    · exact ⟨Nat.le_of_not_lt fun h => hl (.unfit (.mapSize ht (.map _) (.inl h))),
        Nat.le_of_not_lt fun h => hl (.unfit (.mapSize ht (.map _) (.inr h)))⟩
    · rw [List.pairwise_map]
      exact Classical.byContradiction fun h => hl (.unfit (.repeatedKey ht h))

/-- What is read without breaking declarations is well typed. -/
theorem read_fits (hs : E.Sane) {n : Nat} {id : SemId} {bs rest : Bytes} {v : Val} (h : read E n id bs = .ok (v, rest))
    (hl : ∀ w i, Within E v id w i → ¬ Loose E w i) : HasTyN E true n v id := by
  induction n generalizing id bs rest v with
  | zero => cases h
  | succ n ih =>
    simp only [read] at h
    split at h
    · cases h
    · rename_i t ht
      have hi := (back_ty (wr := write E n)
        (R := fun v id => (∀ w i, Within E v id w i → ¬ Loose E w i) → HasTyN E true n v id) hs
        (fun id bs v rest hr => ⟨ih hr, read_back hs hr⟩) ht h).1 fun l i sz hv hty => ?_
      · refine ⟨t, ht, tighten ht hi (hl _ _ (.refl _ _)) (fun w i hp hr => hr fun u j hu => hl _ _ (.part hp hu)) ?_⟩
        rintro l i len rfl rfl w hw hr
        exact hr fun u j hu => hl _ _ (.item ht hw hu)
      · subst hv hty
        have := hl _ _ (.refl _ _)
        constructor
        · cases hx : i.isByte E.H with
          | false => rfl
          | true => exact absurd (.items ht (.inl hx)) this
        · cases hx : i.isUnicodeChar E.H with
          | false => rfl
          | true => exact absurd (.items ht (.inr hx)) this

/-- Alphabets and sizes of a restricted string are determined by its type. -/
theorem rstring_unique {ids : List SemId} {A A' C C' : List Variant} {sz sz' : Sizing} (h : E.RString ids A C sz)
    (h' : E.RString ids A' C' sz') : A = A' ∧ C = C' ∧ sz = sz' := by
  obtain ⟨a, b, c, e, h1, -, h2, h3, -⟩ := h
  obtain ⟨a', b', c', e', h1', -, h2', h3', -⟩ := h'
  rw [e] at e'
  simp only [List.cons.injEq, and_true] at e'
  obtain ⟨rfl, rfl⟩ := e'
  rw [h1] at h1'; cases h1'
  rw [h2] at h2'; cases h2'
  rw [h3] at h3'; cases h3'
  exact ⟨rfl, rfl, rfl⟩

/-- Values of a type do not break its declarations. -/
theorem inhabits_not_loose (hs : E.Sane) {R : Val → SemId → Prop} {v : Val} {id : SemId} {t : Ty SemId}
    (ht : E.find id = some t) (h : Inhabits E true R v t) : ¬ Loose E v id := by
  have count : ∀ {n m}, Counts v n → Counts v m → n = m := by
    intro n m h h'
    cases h <;> cases h' <;> rfl
  have bounds : ∀ {sz : Sizing} {n m : Nat}, SizeOk true sz.min.toNat sz.max.toNat m → Counts v m → Counts v n →
      ¬ (n < sz.min.toNat ∨ sz.max.toNat < n) := by
    intro sz n m h h1 h2
    have := count h1 h2
    have h : sz.min.toNat ≤ m ∧ m ≤ sz.max.toNat := h
    omega
  intro hl
  cases hl with
  | unfit hu =>
    cases hu with
    | listSize hf hc hb =>
      rw [ht] at hf; cases hf
      cases h with
      | asciiList _ _ h => exact bounds h (.str _) hc hb
      | byteList _ h => exact bounds h (.bytes _) hc hb
      | unicodeList _ _ _ h => exact bounds h (.str _) hc hb
      | list _ _ _ _ h => exact bounds h (.list _) hc hb
    | setSize hf hc hb =>
      rw [ht] at hf; cases hf
      cases h with
      | set _ h => exact bounds h (.set _) hc hb
    | mapSize hf hc hb =>
      rw [ht] at hf; cases hf
      cases h with
      | map _ h => exact bounds h (.map _) hc hb
    | repeatedItem hf hd =>
      rw [ht] at hf; cases hf
      cases h with
      | set _ _ _ h => exact hd (h rfl)
    | repeatedKey hf hd =>
      rw [ht] at hf; cases hf
      cases h with
      | map _ _ _ h => exact hd (List.pairwise_map.1 (h rfl))
  | rstringSize hf hr hb =>
    rw [ht] at hf; cases hf
    cases h with
    | rstring hr' _ _ h =>
      obtain ⟨-, -, rfl⟩ := rstring_unique hr hr'
      have h : _ ∧ _ := h
      simp only [List.length_cons] at hb
      omega
    | rstringEmpty _ h => cases h
  | firstChar hf hr hb =>
    rw [ht] at hf; cases hf
    cases h with
    | rstring hr' h =>
      obtain ⟨rfl, -⟩ := rstring_unique hr hr'
      exact hb h
  | nextChar hf hr hm hb =>
    rw [ht] at hf; cases hf
    cases h with
    | rstring hr' _ h =>
      obtain ⟨-, rfl, -⟩ := rstring_unique hr hr'
      exact hb (h _ hm)
  | char hf hc hm hb =>
    rw [ht] at hf; cases hf
    cases h with
    | asciiList hc' h =>
      have := hc.1.symm.trans hc'.1
      cases this
      exact hb (h _ hm)
    | unicodeList _ h =>
      have := hs.unicode _ _ h hc.1
      cases this
  | items hf hi =>
    rw [ht] at hf; cases hf
    cases h with
    | list h1 h2 => rw [h1, h2] at hi; simp at hi

/-- What is well typed breaks no declarations, at any depth. -/
theorem typed_within (hs : E.Sane) {n : Nat} {v w : Val} {id i : SemId} (h : HasTyN E true n v id)
    (hw : Within E v id w i) : ¬ Loose E w i := by
  induction hw generalizing n with
  | refl v id =>
    cases n with
    | zero => cases h
    | succ n => obtain ⟨t, ht, hi⟩ := h; exact inhabits_not_loose hs ht hi
  | part hp _ ih =>
    cases n with
    | zero => cases h
    | succ n =>
      obtain ⟨t, ht, hi⟩ := h
      exact ih (part_typed hs ht hi hp)
  | item hf hm _ ih =>
    cases n with
    | zero => cases h
    | succ n =>
      obtain ⟨t, ht, hi⟩ := h
      rw [ht] at hf; cases hf
      cases hi with
      | array _ _ h => exact ih (h _ hm)

end Verif
