import Verif.Lemmas.Basic
import Verif.Model.TyCodec

/-!
# Lengths of encoded libraries

The binary form of a type is at most three times as long as the text of its id.
-/

namespace Verif

@[simp] theorem encName_length (n : Name) : (encName n).length = n.bytes.length + 1 := by
  simp [encName, Nat.add_comm]

@[simp] theorem Name.commit_length (n : Name) : n.commit.length = n.bytes.length + 1 := rfl

theorem flatMap_length_times {α β γ : Type} {f : α → List β} {g : α → List γ} {k : Nat} : ∀ {l : List α},
    (∀ a ∈ l, (f a).length ≤ k * (g a).length) → (l.flatMap f).length ≤ k * (l.flatMap g).length
  | [], _ => by simp
  | a :: l, h => by
    have h1 := h a List.mem_cons_self
    have h2 := flatMap_length_times (l := l) fun b hb => h b (List.mem_cons_of_mem _ hb)
    simp only [List.flatMap_cons, List.length_append, Nat.mul_add]
    omega

theorem flatMap_length_le_count {α β : Type} {f : α → List β} {k : Nat} : ∀ {l : List α},
    (∀ a ∈ l, (f a).length ≤ k) → (l.flatMap f).length ≤ k * l.length
  | [], _ => by simp
  | a :: l, h => by
    have h1 := h a List.mem_cons_self
    have h2 := flatMap_length_le_count (l := l) fun b hb => h b (List.mem_cons_of_mem _ hb)
    simp only [List.flatMap_cons, List.length_append, List.length_cons, Nat.mul_add]
    omega

section
variable {Ref : Type} (f : Ref → Bytes)

theorem insert_length (m : OMap Byte (Name × Ref)) (k : Byte) (v : Name × Ref) :
    ((OMap.insert m k v).flatMap fun e => e.1 :: encPair encName f e.2).length ≤
      (m.flatMap fun e => e.1 :: encPair encName f e.2).length + (encPair encName f v).length + 1 := by
  induction m with
  | nil => simp [OMap.insert]
  | cons p m ih =>
    unfold OMap.insert
    split
    · simp only [List.flatMap_cons, List.length_append, List.length_cons]; omega
    · split
      · simp only [List.flatMap_cons, List.length_append, List.length_cons]; omega
      · simp only [List.flatMap_cons, List.length_append, List.length_cons] at ih ⊢; omega

theorem unionFields_length (vs : List (Variant × Ref)) :
    ((unionFields vs).flatMap fun e => e.1 :: encPair encName f e.2).length ≤
      (vs.flatMap fun p => p.1.tag :: encPair encName f (p.1.name, p.2)).length := by
  have : ∀ (vs : List (Variant × Ref)) (m : OMap Byte (Name × Ref)),
      ((vs.foldl (fun m p => OMap.insert m p.1.tag (p.1.name, p.2)) m).flatMap
        fun e => e.1 :: encPair encName f e.2).length ≤
      (m.flatMap fun e => e.1 :: encPair encName f e.2).length +
        (vs.flatMap fun p => p.1.tag :: encPair encName f (p.1.name, p.2)).length := by
    intro vs
    induction vs with
    | nil => intro m; simp
    | cons v vs ih =>
      intro m
      have h1 := ih (OMap.insert m v.1.tag (v.1.name, v.2))
      have h2 := insert_length f m v.1.tag (v.1.name, v.2)
      simp only [List.foldl_cons, List.flatMap_cons, List.length_append, List.length_cons]
      omega
  have h := this vs []
  simp only [List.flatMap_nil, List.length_nil, Nat.zero_add] at h
  exact h

/-- The binary form of a type, given a bound for the one of references. -/
theorem encode_length {g : Ref → Bytes} {t : Ty Ref} (h : ∀ r ∈ t.refs, (f r).length ≤ 3 * (g r).length) :
    (t.encode f).length + 1 ≤ 3 * (t.commit g).length := by
  cases t with
  | primitive c => simp [Ty.encode, Ty.commit]
  | unicodeChar => simp [Ty.encode, Ty.commit]
  | enum vs =>
    have := flatMap_length_times (f := encVariant) (g := Variant.commit) (k := 3) (l := vs)
      fun v _ => by simp [encVariant, Variant.commit]; omega
    simp only [Ty.encode, Ty.commit, encSeq, List.length_cons, List.length_append, le_length]
    omega
  | union vs =>
    have h1 := unionFields_length f vs
    have h2 := flatMap_length_times (f := fun p : Variant × Ref => p.1.tag :: encPair encName f (p.1.name, p.2))
      (g := fun v : Variant × Ref => v.1.commit ++ g v.2) (k := 3) (l := vs) fun v hv => by
        have := h v.2 (List.mem_map_of_mem (f := Prod.snd) hv)
        simp [encPair, Variant.commit]; omega
    simp only [Ty.encode, Ty.commit, encSeq, List.length_cons, List.length_append, le_length]
    omega
  | tuple fs =>
    have := flatMap_length_times (f := f) (g := g) (k := 3) (l := fs) h
    simp only [Ty.encode, Ty.commit, encSeq, List.length_cons, List.length_append, le_length]
    omega
  | struct fs =>
    have := flatMap_length_times (f := encPair encName f) (g := fun p : Name × Ref => p.1.commit ++ g p.2) (k := 3) (l := fs)
      fun v hv => by
        have := h v.2 (List.mem_map_of_mem (f := Prod.snd) hv)
        simp [encPair]; omega
    simp only [Ty.encode, Ty.commit, encSeq, List.length_cons, List.length_append, le_length]
    omega
  | array r n =>
    have := h r (by simp [Ty.refs])
    simp only [Ty.encode, Ty.commit, List.length_cons, List.length_append, le_length]
    omega
  | list r n =>
    have := h r (by simp [Ty.refs])
    simp only [Ty.encode, Ty.commit, List.length_cons, List.length_append, le_length, encSizing, Sizing.commit]
    omega
  | set r n =>
    have := h r (by simp [Ty.refs])
    simp only [Ty.encode, Ty.commit, List.length_cons, List.length_append, le_length, encSizing, Sizing.commit]
    omega
  | map k r n =>
    have := h r (by simp [Ty.refs])
    have := h k (by simp [Ty.refs])
    simp only [Ty.encode, Ty.commit, List.length_cons, List.length_append, le_length, encSizing, Sizing.commit]
    omega

end

theorem InlineRef2.encode_length (r : InlineRef2) : r.encode.length ≤ 3 * r.commit.length := by
  cases r <;> simp [InlineRef2.encode, InlineRef2.commit, encId, encExtern, SemId.commit, ExternRef.commit, Id32.len]

theorem InlineRef1.encode_length (r : InlineRef1) : r.encode.length ≤ 3 * r.commit.length := by
  cases r with
  | inline t => exact Verif.encode_length _ fun r _ => r.encode_length
  | _ => simp [InlineRef1.encode, InlineRef1.commit, encId, encExtern, SemId.commit, ExternRef.commit, Id32.len]

theorem InlineRef.encode_length (r : InlineRef) : r.encode.length ≤ 3 * r.commit.length := by
  cases r with
  | inline t => exact Verif.encode_length _ fun r _ => r.encode_length
  | _ => simp [InlineRef.encode, InlineRef.commit, encId, encExtern, SemId.commit, ExternRef.commit, Id32.len]

theorem LibRef.encode_length (r : LibRef) : r.encode.length ≤ 3 * r.commit.length := by
  cases r with
  | inline t => exact Verif.encode_length _ fun r _ => r.encode_length
  | _ => simp [LibRef.encode, LibRef.commit, encId, encExtern, SemId.commit, ExternRef.commit, Id32.len]

/-- The binary form of a named type of a library. -/
theorem named_length (p : Name × Ty LibRef) :
    (encPair encName (Ty.encode LibRef.encode) p).length ≤ 3 * (p.1.commit ++ p.2.commit LibRef.commit).length := by
  have := Verif.encode_length LibRef.encode (g := LibRef.commit) (t := p.2) fun r _ => r.encode_length
  simp only [encPair, List.length_append, encName_length, Name.commit_length]
  omega

/-- The binary form of a library, given bounds for the texts of its types and for the external types. -/
theorem library_length {l : TypeLib} {text types externs : Nat}
    (ht : ∀ p ∈ l.types, (p.1.commit ++ p.2.commit LibRef.commit).length ≤ text) (htn : l.types.length ≤ types)
    (hd : l.dependencies.length ≤ 255) (hx : l.externTypes.length ≤ 255) (hxn : ∀ p ∈ l.externTypes, p.2.length ≤ externs) :
    l.encode.length ≤ 105 + 133 * 255 + (103 + 133 * externs) * 255 + 3 * text * types := by
  have h1 := flatMap_length_le_count (f := encPair encName (Ty.encode LibRef.encode)) (k := 3 * text) (l := l.types)
    fun p hp => Nat.le_trans (named_length p) (Nat.mul_le_mul_left 3 (ht p hp))
  have h2 := Nat.mul_le_mul_left (3 * text) htn
  have h3 := flatMap_length_le_count (f := encDep) (k := 133) (l := l.dependencies) fun d _ => by
    have := d.name.length_le
    simp only [encDep, encId, List.length_append, encName_length, Id32.len]; omega
  have h4 := Nat.mul_le_mul_left 133 hd
  have h5 := flatMap_length_le_count (f := encPair encName (encSeq 2 (encPair encId encName))) (k := 103 + 133 * externs)
    (l := l.externTypes) fun p hp => by
      have h1 := flatMap_length_le_count (f := encPair encId encName) (k := 133) (l := p.2) fun d _ => by
        have := d.2.length_le
        simp only [encPair, encId, List.length_append, encName_length, Id32.len]; omega
      have h2 := Nat.mul_le_mul_left 133 (hxn p hp)
      have h3 := p.1.length_le
      simp only [encPair, encSeq, List.length_append, encName_length, le_length]
      omega
  have h6 := Nat.mul_le_mul_left (103 + 133 * externs) hx
  have h7 := l.name.length_le
  simp only [TypeLib.encode, encExternTypes, encSeq, List.length_append, encName_length, le_length] at h5 ⊢
  omega

end Verif
