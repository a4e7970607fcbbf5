import Verif.Lemmas.Commit
import Verif.Model.Util

/-!
# Properties C01-C07: what ids commit to

`H` is an arbitrary hash function everywhere; conclusions have the form "... or `H` collided", where the two texts with
the same hash are given: they are the texts hashed for the two things compared (`Clash`).
-/

namespace Verif

/-! ## C01 -/

/-- **C01**: types over semantic ids with the same unnamed semantic id are equal, or the hash
collided. -/
theorem C01_sem_id_injective (H : Hash) (t u : Ty SemId)
    (h : t.semIdUnnamed H SemId.commit = u.semIdUnnamed H SemId.commit) :
    t = u ∨ Clash H SEM_ID_TAG (t.commit SemId.commit) (u.commit SemId.commit) := by
  rw [Ty.semIdUnnamed_eq, Ty.semIdUnnamed_eq] at h
  rcases taggedHash_inj h with h | h
  · left
    exact Ty.rel_eq (Ty.commit_rel (fun a _ => a.bytes_ne_nil) (fun a _ => a.bytes_ne_nil)
      (fun a _ b _ x y => Id32.append_inj) h)
  · exact Or.inr h

/-- Two different non-trivial types: the theorem says their ids differ or the hash collided on their two texts. -/
example (H : Hash) :
    (Ty.struct [(n!"a", Id32.rep 1), (n!"b", Id32.rep 2)]).semIdUnnamed H SemId.commit ≠
      (Ty.struct [(n!"b", Id32.rep 1), (n!"a", Id32.rep 2)]).semIdUnnamed H SemId.commit
    ∨ Clash H SEM_ID_TAG ((Ty.struct [(n!"a", Id32.rep 1), (n!"b", Id32.rep 2)]).commit SemId.commit)
        ((Ty.struct [(n!"b", Id32.rep 1), (n!"a", Id32.rep 2)]).commit SemId.commit) := by
  by_cases h : (Ty.struct [(n!"a", Id32.rep 1), (n!"b", Id32.rep 2)]).semIdUnnamed H SemId.commit =
      (Ty.struct [(n!"b", Id32.rep 1), (n!"a", Id32.rep 2)]).semIdUnnamed H SemId.commit
  · rcases C01_sem_id_injective H _ _ h with h | h
    · exact absurd h (by decide)
    · exact Or.inr h
  · exact Or.inl h

/-! ## C02 -/

/-- **C02**: named inline-free library types with the same semantic id have the same name and the
same definition up to the library named by external references, or the hash collided. -/
theorem C02_named_sem_id_injective (H : Hash) (n m : Name) (t u : Ty LibRef)
    (ht : t.InlineFree) (hu : u.InlineFree)
    (h : t.semIdNamed H LibRef.commit n = u.semIdNamed H LibRef.commit m) :
    (n = m ∧ Ty.Rel LibRef.SameTarget t u) ∨
      Clash H SEM_ID_TAG (n.commit ++ t.commit LibRef.commit) (m.commit ++ u.commit LibRef.commit) := by
  rw [Ty.semIdNamed_eq, Ty.semIdNamed_eq] at h
  rcases taggedHash_inj h with h | h
  · left
    obtain ⟨h1, h2⟩ := Name.commit_append_inj h
    refine ⟨h1, Ty.commit_rel ?_ ?_ ?_ h2⟩
    · intro a ha
      obtain ⟨id, hid⟩ := ht a ha
      rw [LibRef.commit_target hid]; exact id.bytes_ne_nil
    · intro a ha
      obtain ⟨id, hid⟩ := hu a ha
      rw [LibRef.commit_target hid]; exact id.bytes_ne_nil
    · intro a ha b hb x y e
      obtain ⟨i, hi⟩ := ht a ha
      obtain ⟨j, hj⟩ := hu b hb
      rw [LibRef.commit_target hi, LibRef.commit_target hj] at e
      obtain ⟨e1, e2⟩ := Id32.append_inj e
      subst e1
      exact ⟨⟨i, hi, hj⟩, e2⟩
  · exact Or.inr h

/-- An inline-free type with a named and an external reference. -/
def exFlat : Ty LibRef :=
  .struct [(n!"a", .named (Id32.rep 1)), (n!"b", .extern ⟨Id32.rep 9, Id32.rep 2⟩)]

example : exFlat.InlineFree := by
  intro r hr
  simp only [exFlat, Ty.refs, List.map_cons, List.map_nil, List.mem_cons, List.not_mem_nil,
    or_false] at hr
  rcases hr with rfl | rfl
  · exact ⟨_, rfl⟩
  · exact ⟨_, rfl⟩

/-! ## C03 -/

/-- Struct with a one-variant enum, a unicode character and a byte. -/
def exNarrow : Ty LibRef :=
  .struct [(n!"a", .inline (.enum [⟨n!"x", 0⟩])), (n!"y", .inline .unicodeChar),
    (n!"b", .inline (.primitive 1))]
/-- Struct with a two-variant enum and a byte. -/
def exWide : Ty LibRef :=
  .struct [(n!"a", .inline (.enum [⟨n!"x", 0⟩, ⟨n!"y", 1⟩])), (n!"b", .inline (.primitive 1))]

/-- **C03 is violated**: two well-formed named library types with different number of fields (hence
a different memory layout) have the same semantic id whatever the hash function is, because inline
types are committed to without their number of fields. -/
theorem C03_inline_commitment_violated :
    exNarrow.WF ∧ exWide.WF ∧ exNarrow.countTypeRefs ≠ exWide.countTypeRefs ∧
    ∀ (H : Hash) (n : Name),
      exNarrow.semIdNamed H LibRef.commit n = exWide.semIdNamed H LibRef.commit n := by
  refine ⟨by decide, by decide, by decide, fun H n => ?_⟩
  have : exNarrow.commit LibRef.commit = exWide.commit LibRef.commit := by decide
  rw [Ty.semIdNamed_eq, Ty.semIdNamed_eq, this]

/-- **C03 is violated** for unnamed tuples too: nesting is lost. -/
theorem C03_tuple_nesting_violated (H : Hash) (a b : SemId) :
    (Ty.tuple [LibRef.inline (.tuple [.named a, .named b])]).semIdUnnamed H LibRef.commit =
    (Ty.tuple [LibRef.inline (.tuple [.named a]), .named b]).semIdUnnamed H LibRef.commit := by
  rw [Ty.semIdUnnamed_eq, Ty.semIdUnnamed_eq]
  congr 1
  simp [Ty.commit, LibRef.commit, InlineRef.commit, Ty.cls]

/-- **C03, what holds**: for named types with the same skeleton (the same classes, numbers of fields
and inline nesting) the semantic id commits to everything else at every inline level: the type name,
field and variant names, tags, primitive codes, lengths, sizings and referenced ids. Missing: types
with different skeletons (see `C03_inline_commitment_violated`). -/
theorem C03_inline_commitment_partial (H : Hash) (n m : Name) (t u : Ty LibRef)
    (hs : Ty.Skel LibRef.Skel t u)
    (h : t.semIdNamed H LibRef.commit n = u.semIdNamed H LibRef.commit m) :
    (n = m ∧ Ty.Rel LibRef.Same t u) ∨
      Clash H SEM_ID_TAG (n.commit ++ t.commit LibRef.commit) (m.commit ++ u.commit LibRef.commit) := by
  rw [Ty.semIdNamed_eq, Ty.semIdNamed_eq] at h
  rcases taggedHash_inj h with h | h
  · left
    obtain ⟨h1, h2⟩ := Name.commit_append_inj h
    refine ⟨h1, (Ty.commit_skel (R := LibRef.Same) (x := []) (y := []) (fun _ _ _ _ h e => LibRef.commit_skel h e) hs ?_).1⟩
    simpa using h2
  · exact Or.inr h

/-- **C03, what holds** for unnamed types of the same skeleton. -/
theorem C03_unnamed_commitment_partial (H : Hash) (t u : Ty LibRef)
    (hs : Ty.Skel LibRef.Skel t u)
    (h : t.semIdUnnamed H LibRef.commit = u.semIdUnnamed H LibRef.commit) :
    Ty.Rel LibRef.Same t u ∨ Clash H SEM_ID_TAG (t.commit LibRef.commit) (u.commit LibRef.commit) := by
  rw [Ty.semIdUnnamed_eq, Ty.semIdUnnamed_eq] at h
  rcases taggedHash_inj h with h | h
  · left
    refine (Ty.commit_skel (R := LibRef.Same) (x := []) (y := []) (fun _ _ _ _ h e => LibRef.commit_skel h e) hs ?_).1
    simpa using h
  · exact Or.inr h

/-- Two types with three inline levels, the same skeleton and different contents. -/
example : Ty.Skel LibRef.Skel
    (.struct [(n!"a", .inline (.list (.inline (.tuple [.inline (.primitive 1)])) ⟨0, 255⟩))])
    (.struct [(n!"b", .inline (.list (.inline (.tuple [.inline (.primitive 2)])) ⟨1, 9⟩))]) := by
  simp [Ty.Skel, All2, LibRef.Skel, InlineRef.Skel, InlineRef1.Skel]

/-! ## C04 -/

/-- A 32-byte id that reads as the rest of the commitment of the enum `Foobar`. -/
def exForgedId : SemId :=
  ⟨[70, 111, 111, 98, 97, 114, 3, 23] ++ List.replicate 23 97 ++ [5], by decide⟩
/-- The enum with one variant `aaaaaaaaaaaaaaaaaaaaaaa = 5`. -/
def exForgedEnum : Ty LibRef := .enum [⟨⟨List.replicate 23 97, by decide⟩, 5⟩]

/-- **C04 is violated**: a one-field tuple over a suitably chosen id has, unnamed, the same id as
the named enum `Foobar`, for every hash function. (The chosen 32 bytes are accepted as a reference by
every API of the library; producing them as the hash of a type would need a partial pre-image.) -/
theorem C04_named_unnamed_disjoint_violated (H : Hash) :
    (Ty.tuple [LibRef.named exForgedId]).semIdUnnamed H LibRef.commit =
    exForgedEnum.semIdNamed H LibRef.commit n!"Foobar" := by
  rw [Ty.semIdUnnamed_eq, Ty.semIdNamed_eq]
  congr 1

/-- Classes for which the byte after the class byte is a length or a code. -/
def Cls.Separated : Cls → Prop
  | .primitive | .unicode | .enum | .union | .struct => True
  | _ => False

private theorem commit_ne_named {t : Ty LibRef} {u : Ty LibRef} {n : Name} (ht : t.WF)
    (hs : t.cls.Separated) : t.commit LibRef.commit ≠ n.commit ++ u.commit LibRef.commit := by
  have hu : ∃ c rest, u.commit LibRef.commit = c :: rest ∧ c.toNat ≤ 10 := by
    refine ⟨_, _, rfl, ?_⟩
    cases u <;> simp only [Ty.cls] <;> decide
  obtain ⟨c, rest, hu, hc⟩ := hu
  rw [hu]
  intro h
  have hlen := n.length_pos
  have hlen' := n.length_le
  simp only [Name.commit, Ty.commit, List.cons_append, List.cons.injEq] at h
  obtain ⟨h1, h2⟩ := h
  have h1 := congrArg BitVec.toNat h1
  simp only [BitVec.toNat_ofNat] at h1
  -- a variant or field name of length at least 48 covers the class byte of the named type
  have key : ∀ (m : Name) (k : Nat) (w : Bytes), n.bytes.length = k → 1 ≤ k → k ≤ 10 →
      m.commit ++ w = n.bytes ++ c :: rest → False := by
    intro m k w hk hk1 hk2 e
    cases hb : n.bytes with
    | nil => rw [hb] at hk; simp at hk; omega
    | cons b bs =>
      rw [hb] at e hk
      simp only [Name.commit, List.cons_append, List.cons.injEq] at e
      have hbc : 48 ≤ b.toNat := char_ge (n.chars b (by rw [hb]; simp))
      have hml := m.length_le
      have e1 := congrArg BitVec.toNat e.1
      simp only [BitVec.toNat_ofNat] at e1
      have hml' : 48 ≤ m.bytes.length := by omega
      have hcm : m.bytes[bs.length]? = some c := by
        have := congrArg (fun l : Bytes => l[bs.length]?) e.2
        simp only [List.getElem?_append] at this
        simp only [List.length_cons] at hk
        rw [if_pos (by omega), if_neg (by omega)] at this
        simpa using this
      have hmem := List.mem_of_getElem? hcm
      have := char_ge (m.chars c hmem)
      omega
  cases t with
  | primitive p =>
    simp only [Ty.cls, Cls.code] at h1
    have : (0 : Byte).toNat = 0 := rfl
    omega
  | unicodeChar =>
    have := congrArg List.length h2
    simp at this
  | enum vs =>
    simp only [Ty.cls, Cls.code] at h1
    have h3 : (3 : Byte).toNat = 3 := rfl
    obtain ⟨v, vs, rfl⟩ : ∃ v vs', vs = v :: vs' := by
      cases vs with
      | nil => simp [Ty.WF, VariantsWF] at ht
      | cons v vs => exact ⟨v, vs, rfl⟩
    simp only [List.flatMap_cons, Variant.commit, List.append_assoc] at h2
    exact key v.name 3 _ (by omega) (by omega) (by omega) h2
  | union vs =>
    simp only [Ty.cls, Cls.code] at h1
    have h3 : (4 : Byte).toNat = 4 := rfl
    obtain ⟨v, vs, rfl⟩ : ∃ v vs', vs = v :: vs' := by
      cases vs with
      | nil => simp [Ty.WF, VariantsWF] at ht
      | cons v vs => exact ⟨v, vs, rfl⟩
    simp only [List.flatMap_cons, Variant.commit, List.append_assoc] at h2
    exact key v.1.name 4 _ (by omega) (by omega) (by omega) h2
  | struct fs =>
    simp only [Ty.cls, Cls.code] at h1
    have h3 : (5 : Byte).toNat = 5 := rfl
    obtain ⟨v, fs, rfl⟩ : ∃ v fs', fs = v :: fs' := by
      cases fs with
      | nil => simp [Ty.WF] at ht
      | cons v fs => exact ⟨v, fs, rfl⟩
    simp only [List.flatMap_cons] at h2
    refine key v.1 5 (v.2.commit ++ fs.flatMap fun p => p.1.commit ++ p.2.commit) (by omega) (by omega) (by omega) ?_
    simpa [Name.commit] using h2
  | tuple => exact hs.elim
  | array => exact hs.elim
  | list => exact hs.elim
  | set => exact hs.elim
  | map => exact hs.elim

/-- **C04, what holds**: the unnamed id of a primitive, unicode, enum, union or struct type is never
the id of a named type, or the hash collided. Missing: tuples and collections, see
`C04_named_unnamed_disjoint_violated`. -/
theorem C04_named_unnamed_disjoint_partial (H : Hash) (t u : Ty LibRef) (n : Name) (ht : t.WF)
    (hs : t.cls.Separated)
    (h : t.semIdUnnamed H LibRef.commit = u.semIdNamed H LibRef.commit n) :
    Clash H SEM_ID_TAG (t.commit LibRef.commit) (n.commit ++ u.commit LibRef.commit) := by
  rw [Ty.semIdUnnamed_eq, Ty.semIdNamed_eq] at h
  rcases taggedHash_inj h with h | h
  · exact absurd h (commit_ne_named ht hs)
  · exact h

/-- **C04, what holds** for the other classes: a named type collides with an unnamed tuple or
collection only if its name has exactly 6, 7, 8, 9 or 10 characters. -/
theorem C04_long_names_disjoint_partial (H : Hash) (t u : Ty LibRef) (n : Name) (ht : t.WF)
    (hn : n.bytes.length < 6 ∨ 10 < n.bytes.length)
    (h : t.semIdUnnamed H LibRef.commit = u.semIdNamed H LibRef.commit n) :
    Clash H SEM_ID_TAG (t.commit LibRef.commit) (n.commit ++ u.commit LibRef.commit) := by
  by_cases hs : t.cls.Separated
  · exact C04_named_unnamed_disjoint_partial H t u n ht hs h
  · rw [Ty.semIdUnnamed_eq, Ty.semIdNamed_eq] at h
    rcases taggedHash_inj h with h | h
    · exfalso
      simp only [Ty.commit, Name.commit, List.cons_append, List.cons.injEq] at h
      have h1 := congrArg BitVec.toNat h.1
      have := n.length_le
      simp only [BitVec.toNat_ofNat] at h1
      have hc : 6 ≤ t.cls.code.toNat ∧ t.cls.code.toNat ≤ 10 := by
        cases t <;> simp only [Ty.cls, Cls.Separated, not_true_eq_false] at hs ⊢ <;> decide
      omega
    · exact h

/-- **C04, what holds** for tuples and collections: the unnamed id is the id of a named type only if the first type referred to
is not defined in place and its id was made to begin with the name, of 6 to 10 characters, and the kind of the named type. (So
at least 56 bits of a hash are to be matched.) Missing: that such ids are not made. -/
theorem C04_forged_partial (H : Hash) (t u : Ty LibRef) (n : Name) (ht : t.WF)
    (h : t.semIdUnnamed H LibRef.commit = u.semIdNamed H LibRef.commit n) :
    Clash H SEM_ID_TAG (t.commit LibRef.commit) (n.commit ++ u.commit LibRef.commit) ∨
    ∃ r id more, t.refs.head? = some r ∧ r.target = some id ∧ id.bytes = n.bytes ++ u.cls.code :: more ∧
      6 ≤ n.bytes.length ∧ n.bytes.length ≤ 10 := by
  by_cases hs : t.cls.Separated
  · exact .inl (C04_named_unnamed_disjoint_partial H t u n ht hs h)
  by_cases hn : n.bytes.length < 6 ∨ 10 < n.bytes.length
  · exact .inl (C04_long_names_disjoint_partial H t u n ht hn h)
  rw [Ty.semIdUnnamed_eq, Ty.semIdNamed_eq] at h
  rcases taggedHash_inj h with h | h
  · right
    have key : ∀ (r : LibRef) (w : Bytes), t.refs.head? = some r →
        r.commit ++ w = n.bytes ++ u.commit LibRef.commit → ∃ r id more, t.refs.head? = some r ∧ r.target = some id ∧
          id.bytes = n.bytes ++ u.cls.code :: more ∧ 6 ≤ n.bytes.length ∧ n.bytes.length ≤ 10 := by
      intro r w hr e
      have hid : ∀ id : SemId, r.target = some id → r.commit = id.bytes → ∃ r id more, t.refs.head? = some r ∧
          r.target = some id ∧ id.bytes = n.bytes ++ u.cls.code :: more ∧ 6 ≤ n.bytes.length ∧ n.bytes.length ≤ 10 := by
        intro id h1 h2
        rw [h2] at e
        have hl := id.len
        have e' : id.bytes ++ w = (n.bytes ++ [u.cls.code]) ++ (u.commit LibRef.commit).tail := by
          rw [e, List.append_assoc]; rfl
        rcases List.append_eq_append_iff.mp e' with ⟨a, h3, -⟩ | ⟨a, h3, -⟩
        · have := congrArg List.length h3
          simp only [List.length_append, List.length_cons, List.length_nil] at this
          omega
        · exact ⟨r, id, a, hr, h1, by rw [h3, List.append_assoc]; rfl, by omega, by omega⟩
      cases r with
      | named id => exact hid id rfl rfl
      | extern ext => exact hid ext.semId rfl rfl
      | inline i =>
        exfalso
        cases hb : n.bytes with
        | nil => simp [hb] at hn
        | cons b bs =>
          rw [hb] at e
          have hbc : 48 ≤ b.toNat := char_ge (n.chars b (by rw [hb]; simp))
          have e1 : i.cls.code = b := (List.cons.inj e).1
          have : i.cls.code.toNat ≤ 10 := by cases i <;> simp only [Ty.cls] <;> decide
          rw [e1] at this
          omega
    have h2 := (List.cons.inj h).2
    cases t with
    | primitive => exact absurd trivial hs
    | unicodeChar => exact absurd trivial hs
    | enum => exact absurd trivial hs
    | union => exact absurd trivial hs
    | struct => exact absurd trivial hs
    | tuple fs =>
      obtain ⟨r, fs, rfl⟩ : ∃ r fs', fs = r :: fs' := by
        cases fs with
        | nil => simp [Ty.WF] at ht
        | cons r fs => exact ⟨r, fs, rfl⟩
      exact key r (fs.flatMap LibRef.commit) rfl h2
    | array r len => exact key r _ rfl h2
    | list r sz => exact key r _ rfl h2
    | set r sz => exact key r _ rfl h2
    | map k r sz => exact key k (r.commit ++ sz.commit) rfl (by rw [← List.append_assoc]; exact h2)
  · exact .inl h

/-- The forged id of the witness is of this form. -/
example : ∃ more, exForgedId.bytes = (n!"Foobar").bytes ++ exForgedEnum.cls.code :: more := ⟨_, rfl⟩

example : (Ty.enum [⟨n!"a", 0⟩] : Ty LibRef).WF ∧
    (Ty.enum [⟨n!"a", 0⟩] : Ty LibRef).cls.Separated := ⟨by decide, trivial⟩

/-! ## C05 -/

/-- **C05 is violated**, always: the unnamed id of an inline one-field tuple equals the id of the
wrapped type only if the hash collided, contrary to the comment in `src/ast/id.rs:117`. The reason is
that `as_ty` is never implemented for the reference types involved. -/
theorem C05_newtype_same_id_violated (H : Hash) (t : Ty InlineRef)
    (h : (Ty.tuple [LibRef.inline t]).semIdUnnamed H LibRef.commit =
      t.semIdUnnamed H InlineRef.commit) :
    Clash H SEM_ID_TAG ((Ty.tuple [LibRef.inline t]).commit LibRef.commit) (t.commit InlineRef.commit) := by
  rw [Ty.semIdUnnamed_eq, Ty.semIdUnnamed_eq] at h
  rcases taggedHash_inj h with h | h
  · have := congrArg List.length h
    simp [Ty.commit, LibRef.commit] at this
  · exact h

/-- **C05, what holds**: the rule is followed by any reference type that does expose its definition
(`as_ty`), to any depth of wrapping. Missing: no reference type with an unnamed id does so. -/
theorem C05_newtype_same_id_partial {Ref : Type} (H : Hash) (f : Ref → Bytes)
    (asTy : Ref → Option (Ty Ref)) (r : Ref) (t : Ty Ref) (k : Nat) (hr : asTy r = some t) :
    (Ty.tuple [r]).semIdUnnamedN H f asTy (k + 1) = t.semIdUnnamedN H f asTy k := by
  simp [Ty.semIdUnnamedN, Ty.asWrappedTy, hr]

/-- **C05, the other types**: whatever is not a tuple of one field exposing its definition has the id of its own text. -/
theorem C05_own_id_partial {Ref : Type} (H : Hash) (f : Ref → Bytes) (asTy : Ref → Option (Ty Ref)) (t : Ty Ref) (k : Nat)
    (ht : ∀ r, t = .tuple [r] → asTy r = none) :
    t.semIdUnnamedN H f asTy k = H (tagged H SEM_ID_TAG (t.commit f)) := by
  have hn : t.asWrappedTy asTy = none := by
    unfold Ty.asWrappedTy
    split
    · exact ht _ rfl
    · rfl
  cases k with
  | zero => rfl
  | succ k => simp only [Ty.semIdUnnamedN, hn]; rfl

/-- **C05, embedded types**: for the references used while libraries are built, a one-field tuple
of an embedded type has the id of the embedded type; one of a named or foreign type has its own. -/
theorem C05_embedded (H : Hash) (f : TranspileRef → Bytes) (t : Ty TranspileRef) (r : TranspileRef) (k : Nat) :
    (Ty.tuple [TranspileRef.embedded t]).semIdUnnamedN H f TranspileRef.asTy (k + 1) =
      t.semIdUnnamedN H f TranspileRef.asTy k ∧
    ((∀ u, r ≠ .embedded u) → (Ty.tuple [r]).semIdUnnamedN H f TranspileRef.asTy (k + 1) =
      H (tagged H SEM_ID_TAG ((Ty.tuple [r]).commit f))) := by
  refine ⟨C05_newtype_same_id_partial H f _ _ _ k rfl, fun h => C05_own_id_partial H f _ _ _ ?_⟩
  rintro r' e
  cases e
  cases r with
  | embedded u => exact absurd rfl (h u)
  | _ => rfl

/-- A pair whose first field exposes its definition. -/
example : ∀ r, Ty.tuple [TranspileRef.embedded .UNIT, .embedded .UNIT] = .tuple [r] → TranspileRef.asTy r = none := by
  simp

example : TranspileRef.asTy (.embedded .UNIT) = some .UNIT := rfl

/-! ## C06 -/

/-- Size limits of a library (`TinyOrdSet<Dependency>`, `TypeMap`; `src/typelib/type_lib.rs:255,263`). -/
def TypeLib.Sized (l : TypeLib) : Prop := l.dependencies.length ≤ 255 ∧ l.types.length ≤ 65535

/-- **C06**: libraries with equal ids have the same name, the same dependency ids in the same order
and the same type ids in the same order, or the hash collided. -/
theorem C06_lib_id_commits (H : Hash) (l m : TypeLib) (hl : l.Sized) (hm : m.Sized)
    (h : l.id H = m.id H) :
    (l.name = m.name ∧
      l.dependencies.map Dependency.id = m.dependencies.map Dependency.id ∧
      l.types.map (fun p => p.2.semIdNamed H LibRef.commit p.1) =
        m.types.map (fun p => p.2.semIdNamed H LibRef.commit p.1)) ∨
      Clash H LIB_ID_TAG (l.commit H) (m.commit H) := by
  rcases taggedHash_inj h with h | h
  · left
    simp only [TypeLib.commit, List.append_assoc] at h
    obtain ⟨h1, h2⟩ := Name.commit_append_inj h
    refine ⟨h1, ?_⟩
    simp only [List.cons_append, List.nil_append, List.cons.injEq] at h2
    have hdl : l.dependencies.length = m.dependencies.length := by
      have := congrArg BitVec.toNat h2.1
      simp only [BitVec.toNat_ofNat] at this
      have := hl.1; have := hm.1; omega
    obtain ⟨h3, h4⟩ := flatMap_rel_append
      (R := fun a b : Dependency => a.id = b.id)
      (fun a b x y _ e => Id32.append_inj e) (all2_of_length hdl) h2.2
    have all2_map : ∀ {α β : Type} {l m : List α} {f : α → β}, All2 (fun a b => f a = f b) l m →
        l.map f = m.map f := by
      intro α β l m f h
      induction l generalizing m with
      | nil => cases m with
        | nil => rfl
        | cons => exact h.elim
      | cons a l ih => cases m with
        | nil => exact h.elim
        | cons b m => simp only [List.map_cons, h.1, ih h.2]
    refine ⟨all2_map h3, ?_⟩
    obtain ⟨h5, h6⟩ := append_inj_of_length h4 (by simp)
    refine all2_map (flatMap_rel (fun a _ => Id32.bytes_ne_nil _) (fun a _ => Id32.bytes_ne_nil _)
      (fun a _ b _ x y e => Id32.append_inj e) h6)
  · exact Or.inr h

/-- **C06**, for libraries without inline types: equal ids mean the same type names with the same
definitions (up to the library named by external references), or the hash collided. -/
theorem C06_lib_id_commits_types (H : Hash) (l m : TypeLib) (hl : l.Sized) (hm : m.Sized)
    (fl : ∀ p ∈ l.types, p.2.InlineFree) (fm : ∀ p ∈ m.types, p.2.InlineFree)
    (h : l.id H = m.id H) :
    All2 (fun p q => p.1 = q.1 ∧ Ty.Rel LibRef.SameTarget p.2 q.2) l.types m.types ∨
      Clash H LIB_ID_TAG (l.commit H) (m.commit H) ∨
      ∃ p ∈ l.types, ∃ q ∈ m.types,
        Clash H SEM_ID_TAG (p.1.commit ++ p.2.commit LibRef.commit) (q.1.commit ++ q.2.commit LibRef.commit) := by
  rcases C06_lib_id_commits H l m hl hm h with ⟨_, _, h⟩ | h
  · have key : ∀ l m : OMap Name (Ty LibRef), (∀ p ∈ l, p.2.InlineFree) →
        (∀ p ∈ m, p.2.InlineFree) →
        l.map (fun p => p.2.semIdNamed H LibRef.commit p.1) =
          m.map (fun p => p.2.semIdNamed H LibRef.commit p.1) →
        All2 (fun p q => p.1 = q.1 ∧ Ty.Rel LibRef.SameTarget p.2 q.2) l m ∨
          ∃ p ∈ l, ∃ q ∈ m, Clash H SEM_ID_TAG (p.1.commit ++ p.2.commit LibRef.commit)
            (q.1.commit ++ q.2.commit LibRef.commit) := by
      intro l
      induction l with
      | nil => intro m _ _ h; cases m with
        | nil => exact Or.inl trivial
        | cons => simp at h
      | cons a l ih => intro m fl fm h; cases m with
        | nil => simp at h
        | cons b m =>
          simp only [List.map_cons, List.cons.injEq] at h
          rcases C02_named_sem_id_injective H _ _ _ _ (fl a (by simp)) (fm b (by simp)) h.1
            with h1 | h1
          · rcases ih m (fun p hp => fl p (by simp [hp])) (fun p hp => fm p (by simp [hp])) h.2
              with h2 | h2
            · exact Or.inl ⟨h1, h2⟩
            · obtain ⟨p, hp, q, hq, h2⟩ := h2
              exact Or.inr ⟨p, by simp [hp], q, by simp [hq], h2⟩
          · exact Or.inr ⟨a, by simp, b, by simp, h1⟩
    exact (key _ _ fl fm h).imp_right .inr
  · exact Or.inr (.inl h)

/-- **C06**, converse: the id depends on nothing else; in particular not on the names of the
dependencies nor on the external-type tables. -/
theorem C06_lib_id_function (H : Hash) (l m : TypeLib) (hn : l.name = m.name)
    (hd : l.dependencies.map Dependency.id = m.dependencies.map Dependency.id)
    (ht : l.types.map (fun p => p.2.semIdNamed H LibRef.commit p.1) =
      m.types.map (fun p => p.2.semIdNamed H LibRef.commit p.1)) : l.id H = m.id H := by
  have e1 : ∀ l : TypeLib, (l.dependencies.flatMap fun d => d.id.bytes) =
      (l.dependencies.map Dependency.id).flatMap Id32.bytes := fun l => by
    rw [List.flatMap_map]
  have e2 : ∀ l : TypeLib,
      (l.types.flatMap fun p => (Ty.semIdNamed H LibRef.commit p.2 p.1).bytes) =
      (l.types.map (fun p => p.2.semIdNamed H LibRef.commit p.1)).flatMap Id32.bytes := fun l => by
    rw [List.flatMap_map]
  have e3 := congrArg List.length hd
  have e4 := congrArg List.length ht
  simp only [List.length_map] at e3 e4
  simp only [TypeLib.id, TypeLib.commit, e1, e2, hn, hd, ht, e3, e4]

/-- A library with a dependency and two inline-free types. -/
def exLib : TypeLib :=
  ⟨n!"Test", [⟨Id32.rep 7, n!"Std"⟩], [(n!"Std", [(Id32.rep 2, n!"Bool")])],
    [(n!"Pair", exFlat), (n!"Unit", .UNIT)]⟩

example : exLib.Sized ∧ (∀ p ∈ exLib.types, p.2.InlineFree) := by
  refine ⟨⟨by decide, by decide⟩, ?_⟩
  intro p hp
  simp only [exLib, List.mem_cons, List.not_mem_nil, or_false] at hp
  rcases hp with rfl | rfl
  · intro r hr
    simp only [exFlat, Ty.refs, List.map_cons, List.map_nil, List.mem_cons, List.not_mem_nil,
      or_false] at hr
    rcases hr with rfl | rfl
    · exact ⟨_, rfl⟩
    · exact ⟨_, rfl⟩
  · intro r hr; simp [Ty.refs] at hr

/-! ## C07 -/

/-- **C07 is violated**: the type system id covers only the ids, so two systems with different
definitions under the same id (as decoding and `From` accept) have the same system id. -/
theorem C07_sys_id_commits_violated (H : Hash) (i : SemId) :
    ([(i, Ty.primitive 1)] : TypeSystem) ≠ [(i, Ty.primitive 2)] ∧
    TypeSystem.id H [(i, Ty.primitive 1)] = TypeSystem.id H [(i, Ty.primitive 2)] :=
  ⟨by simp, rfl⟩

/-- **C07, what holds**: type systems with equal ids contain exactly the same ids, or the hash
collided. Missing: the definitions, see `C07_sys_id_commits_violated`. -/
theorem C07_sys_id_commits_partial (H : Hash) (s r : TypeSystem) (h : TypeSystem.id H s = TypeSystem.id H r) :
    s.keys = r.keys ∨ Clash H TYPESYS_ID_TAG (TypeSystem.commit s) (TypeSystem.commit r) := by
  rcases taggedHash_inj h with h | h
  · left
    obtain ⟨_, h2⟩ := append_inj_of_length h (by simp)
    exact all2_eq (flatMap_rel (fun a _ => a.bytes_ne_nil) (fun a _ => a.bytes_ne_nil)
      (fun a _ b _ x y => Id32.append_inj) h2)
  · exact Or.inr h

/-- Every definition of the system sits under its own semantic id: a named one, or an unnamed one
of a class whose unnamed ids are separated from named ids. -/
def TypeSystem.SelfIdentified (H : Hash) (s : TypeSystem) : Prop :=
  ∀ p ∈ s, (∃ n, p.1 = p.2.semIdNamed H SemId.commit n) ∨
    (p.2.WF ∧ p.2.cls.Separated ∧ p.1 = p.2.semIdUnnamed H SemId.commit)

/-- A type over ids seen as a library type. -/
private def liftTy : Ty SemId → Ty LibRef
  | .primitive c => .primitive c
  | .unicodeChar => .unicodeChar
  | .enum vs => .enum vs
  | .union vs => .union (vs.map fun p => (p.1, .named p.2))
  | .tuple fs => .tuple (fs.map .named)
  | .struct fs => .struct (fs.map fun p => (p.1, .named p.2))
  | .array t n => .array (.named t) n
  | .list t s => .list (.named t) s
  | .set t s => .set (.named t) s
  | .map k t s => .map (.named k) (.named t) s

private theorem liftTy_commit (t : Ty SemId) :
    (liftTy t).commit LibRef.commit = t.commit SemId.commit := by
  cases t <;> simp [liftTy, Ty.commit, Ty.cls, List.flatMap_map, LibRef.commit]

private theorem liftTy_cls (t : Ty SemId) : (liftTy t).cls = t.cls := by cases t <;> rfl
private theorem liftTy_wf {t : Ty SemId} (h : t.WF) : (liftTy t).WF := by
  cases t <;> simp_all [liftTy, Ty.WF, Function.comp_def]

/-- The id is the hash of this text, which is the text of the type with or without a name before it. -/
def Ty.Hashed (H : Hash) (i : SemId) (t : Ty SemId) (x : Bytes) : Prop :=
  i = taggedHash H SEM_ID_TAG x ∧ (x = t.commit SemId.commit ∨ ∃ n : Name, x = n.commit ++ t.commit SemId.commit)

/-- **C07, what holds** for systems whose definitions sit under their own ids: equal system ids mean
equal systems, or the hash collided, on the two lists of ids or on the texts of two of the definitions. -/
theorem C07_self_identified_partial (H : Hash) (s r : TypeSystem) (is : s.SelfIdentified H) (ir : r.SelfIdentified H)
    (h : TypeSystem.id H s = TypeSystem.id H r) :
    s = r ∨ Clash H TYPESYS_ID_TAG (TypeSystem.commit s) (TypeSystem.commit r) ∨
      ∃ p ∈ s, ∃ q ∈ r, ∃ x y, p.2.Hashed H p.1 x ∧ q.2.Hashed H q.1 y ∧ Clash H SEM_ID_TAG x y := by
  have body : ∀ (i : SemId) (t u : Ty SemId), ((∃ n, i = t.semIdNamed H SemId.commit n) ∨
      (t.WF ∧ t.cls.Separated ∧ i = t.semIdUnnamed H SemId.commit)) →
      ((∃ n, i = u.semIdNamed H SemId.commit n) ∨
      (u.WF ∧ u.cls.Separated ∧ i = u.semIdUnnamed H SemId.commit)) →
      t = u ∨ ∃ x y, t.Hashed H i x ∧ u.Hashed H i y ∧ Clash H SEM_ID_TAG x y := by
    have mixed : ∀ (t u : Ty SemId) (n : Name), t.WF → t.cls.Separated →
        t.semIdUnnamed H SemId.commit = u.semIdNamed H SemId.commit n →
        Clash H SEM_ID_TAG (t.commit SemId.commit) (n.commit ++ u.commit SemId.commit) := by
      intro t u n hw hc h
      rw [← liftTy_commit, ← liftTy_commit]
      apply C04_named_unnamed_disjoint_partial H (liftTy t) (liftTy u) n (liftTy_wf hw)
      · rw [liftTy_cls]; exact hc
      · rw [Ty.semIdUnnamed_eq, Ty.semIdNamed_eq] at h ⊢
        rw [liftTy_commit, liftTy_commit, h]
    have named : ∀ {i : SemId} {t : Ty SemId} {n : Name}, i = t.semIdNamed H SemId.commit n →
        t.Hashed H i (n.commit ++ t.commit SemId.commit) := by
      intro i t n h
      exact ⟨by rw [h, Ty.semIdNamed_eq], .inr ⟨n, rfl⟩⟩
    have unnamed : ∀ {i : SemId} {t : Ty SemId}, i = t.semIdUnnamed H SemId.commit →
        t.Hashed H i (t.commit SemId.commit) := by
      intro i t h
      exact ⟨by rw [h, Ty.semIdUnnamed_eq], .inl rfl⟩
    rintro i t u (⟨n, hn⟩ | ⟨hw, hc, hn⟩) (⟨m, hm⟩ | ⟨hw', hc', hm⟩)
    · have hm' := hm
      rw [hn, Ty.semIdNamed_eq, Ty.semIdNamed_eq] at hm'
      rcases taggedHash_inj hm' with h | h
      · left
        exact Ty.rel_eq (Ty.commit_rel (fun a _ => a.bytes_ne_nil) (fun a _ => a.bytes_ne_nil)
          (fun a _ b _ x y => Id32.append_inj) (Name.commit_append_inj h).2)
      · exact Or.inr ⟨_, _, named hn, named hm, h⟩
    · exact Or.inr ⟨_, _, named hn, unnamed hm, (mixed u t n hw' hc' (by rw [← hm, hn])).symm⟩
    · exact Or.inr ⟨_, _, unnamed hn, named hm, mixed t u m hw hc (by rw [← hm, hn])⟩
    · exact (C01_sem_id_injective H t u (by rw [← hn, hm])).imp_right fun h => ⟨_, _, unnamed hn, unnamed hm, h⟩
  rcases C07_sys_id_commits_partial H s r h with hk | hk
  · clear h
    suffices s = r ∨ ∃ p ∈ s, ∃ q ∈ r, ∃ x y, p.2.Hashed H p.1 x ∧ q.2.Hashed H q.1 y ∧ Clash H SEM_ID_TAG x y from
      this.imp_right .inr
    induction s generalizing r with
    | nil => cases r with
      | nil => exact Or.inl rfl
      | cons => simp [OMap.keys] at hk
    | cons p s ih => cases r with
      | nil => simp [OMap.keys] at hk
      | cons q r =>
        simp only [OMap.keys, List.map_cons, List.cons.injEq] at hk
        rcases ih r (fun p hp => is p (by simp [hp])) (fun p hp => ir p (by simp [hp])) hk.2
          with h1 | ⟨a, ha, b, hb, h1⟩
        · rcases body p.1 p.2 q.2 (is p (by simp)) (hk.1 ▸ ir q (by simp)) with h2 | ⟨x, y, hx, hy, h2⟩
          · left; rw [h1, Prod.ext hk.1 h2]
          · exact Or.inr ⟨p, by simp, q, by simp, x, y, hx, hk.1 ▸ hy, h2⟩
        · exact Or.inr ⟨a, by simp [ha], b, by simp [hb], h1⟩
  · exact Or.inr (.inl hk)

example (H : Hash) : TypeSystem.SelfIdentified H
    [(Ty.semIdUnnamed H SemId.commit .U8, .U8),
     (Ty.semIdNamed H SemId.commit (.tuple [Id32.rep 3]) n!"Wrap", .tuple [Id32.rep 3])] := by
  intro p hp
  simp only [List.mem_cons, List.not_mem_nil, or_false] at hp
  rcases hp with rfl | rfl
  · right; exact ⟨trivial, trivial, rfl⟩
  · left; exact ⟨_, rfl⟩

/-! ## C87: ids of different kinds -/

/-- **C87**: an id of a type, whatever its references and with or without a name, is not the id of a library or of a
type system, and no library has the id of a type system, unless the hash collides on the tags or on the two strings
hashed. -/
theorem C87_kinds (H : Hash) {Ref : Type} (f : Ref → Bytes) (t : Ty Ref) (name : Option Name) (l : TypeLib)
    (s : TypeSystem) :
    (t.semIdInner H f name = l.id H →
      Meets H SEM_ID_TAG ((name.elim [] Name.commit) ++ t.commit f) LIB_ID_TAG (l.commit H)) ∧
    (t.semIdInner H f name = s.id H →
      Meets H SEM_ID_TAG ((name.elim [] Name.commit) ++ t.commit f) TYPESYS_ID_TAG s.commit) ∧
    (l.id H = s.id H → Meets H LIB_ID_TAG (l.commit H) TYPESYS_ID_TAG s.commit) := by
  have hn : t.semIdInner H f name = taggedHash H SEM_ID_TAG ((name.elim [] Name.commit) ++ t.commit f) := by
    cases name <;> rfl
  rw [hn]
  exact ⟨fun h => taggedHash_meets (by decide) h, fun h => taggedHash_meets (by decide) h,
    fun h => taggedHash_meets (by decide) h⟩

/-- **C87** for types still in symbolic form. -/
theorem C87_symbolic (H : Hash) (t : Ty TranspileRef) (n : Name) (l : TypeLib) (s : TypeSystem) :
    (TranspileRef.semIdNamed H t n = l.id H →
      Meets H SEM_ID_TAG (n.commit ++ TranspileRef.commitTy t) LIB_ID_TAG (l.commit H)) ∧
    (TranspileRef.semIdNamed H t n = s.id H →
      Meets H SEM_ID_TAG (n.commit ++ TranspileRef.commitTy t) TYPESYS_ID_TAG s.commit) :=
  ⟨fun h => taggedHash_meets (by decide) h, fun h => taggedHash_meets (by decide) h⟩

/-- **C87**: the tags are the documented ones. -/
theorem C87_tags : SEM_ID_TAG = b!"urn:ubideco:strict-types:typ:v01" ∧ LIB_ID_TAG = b!"urn:ubideco:strict-types:lib:v01" ∧
    TYPESYS_ID_TAG = b!"urn:ubideco:strict-types:sys:v01" := by decide

/-- **C87**: every clash spoken of by the other properties is a collision of the hash function itself. -/
theorem C87_clash (H : Hash) (tag x y : Bytes) (hxy : x ≠ y) (h : taggedHash H tag x = taggedHash H tag y) :
    ∃ a b, a ≠ b ∧ H a = H b ∧ a = (H tag).bytes ++ (H tag).bytes ++ x ∧ b = (H tag).bytes ++ (H tag).bytes ++ y := by
  rcases taggedHash_inj h with h | h
  · exact absurd h hxy
  · exact ⟨_, _, fun he => hxy (List.append_cancel_left he), h.2, rfl, rfl⟩

/-- A hash for which ids of different kinds do differ: it keeps the first byte after the tags. -/
example : ∃ H : Hash, H SEM_ID_TAG ≠ H LIB_ID_TAG ∧ H SEM_ID_TAG ≠ H TYPESYS_ID_TAG ∧ H LIB_ID_TAG ≠ H TYPESYS_ID_TAG :=
  ⟨fun b => Id32.rep (b.getD 25 0), by decide, by decide, by decide⟩

end Verif
