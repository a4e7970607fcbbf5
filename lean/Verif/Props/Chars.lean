import Verif.Spec.Chars
import Verif.Props.Stl

/-! # C100: the characters and names of the standard libraries -/

namespace Verif
open Stl

/-- The type has this name and these bytes. -/
def hasChars (t : RTy) (c : Name × (Byte → Bool)) : Bool := match t with
  | .enum l m vs => decide (l = n!"Std") && decide (m = some c.1) &&
    (List.range 256).all fun k => (Ty.enumNameByTag (byTag Variant.tag vs) (BitVec.ofNat 8 k)).isSome ==
      c.2 (BitVec.ofNat 8 k) && (vs.any fun x => x.tag = BitVec.ofNat 8 k) == c.2 (BitVec.ofNat 8 k)
  | _ => false

theorem hasChars_enum {t : RTy} {c : Name × (Byte → Bool)} (h : hasChars t c = true) : ∃ vs, t = std c.1 vs ∧
    ∀ b, (Ty.enumNameByTag (byTag Variant.tag vs) b).isSome = c.2 b ∧ (vs.any fun x => x.tag = b) = c.2 b := by
  unfold hasChars at h
  split at h
  · rename_i l m vs
    simp only [Bool.and_eq_true, decide_eq_true_eq] at h
    obtain ⟨⟨h1, h2⟩, h⟩ := h
    refine ⟨vs, by rw [std, h1, h2], fun b => ?_⟩
    have := byte_all (p := fun b => (Ty.enumNameByTag (byTag Variant.tag vs) b).isSome == c.2 b &&
      (vs.any fun x => x.tag = b) == c.2 b) h b
    simpa only [Bool.and_eq_true, beq_iff_eq] using this
  · cases h

theorem stdTypes_all2 : (List.zip stdTypes stdChars).all (fun p => hasChars p.1 p.2) = true := by decide +kernel

theorem stdTypes_length : stdTypes.length = stdChars.length := by decide +kernel

/-- Every listed name is a type of `Std` with the bytes listed. -/
theorem stdChars_type {n : Name} {p : Byte → Bool} (h : (n, p) ∈ stdChars) : ∃ vs, std n vs ∈ stdTypes ∧
    ∀ b, (Ty.enumNameByTag (byTag Variant.tag vs) b).isSome = p b ∧ (vs.any fun x => x.tag = b) = p b := by
  obtain ⟨i, hi, e⟩ := List.mem_iff_getElem.mp h
  have hl := stdTypes_length
  have hm : (stdTypes[i], stdChars[i]) ∈ List.zip stdTypes stdChars :=
    List.mem_iff_getElem.mpr ⟨i, by rw [List.length_zip]; omega, List.getElem_zip⟩
  obtain ⟨vs, hv, hb⟩ := hasChars_enum (List.all_eq_true.mp stdTypes_all2 _ hm)
  rw [e] at hv hb
  exact ⟨vs, hv ▸ List.getElem_mem _, hb⟩

/-- The libraries are built, the system is assembled, the types are found by their names, and their values are known. -/
theorem stl_exact {H : Hash} {debug : Bool} {fuel : Nat} (hc : ¬ CrateCollision H debug fuel crates)
    (ho : ¬ Overlap H (crateTexts H crates)) (hf : 65535 ≤ fuel) :
    ∃ ls, buildAll H debug fuel crates [] = .ok ls ∧ ∀ ms, ls.Perm ms → ∃ S, assembleSys H debug ms = .ok S ∧
      ∀ c ∈ crates, ∀ s n, c.Owns s n → S.resolve ⟨c.name, n⟩ = some (s.semId H) ∧
        S.types.get (s.semId H) = some (s.img H) ∧
        ∀ E : Env, E.H = H → E.sys = S.types → E.Usual →
          (∀ v, WellTyped E v (s.semId H) ↔ v.Tidy ∧ ∃ bs, s.Writes v bs) ∧
          ∀ v bs, s.Writes v bs → v.Tidy → ∀ rfuel, sizeOf s ≤ rfuel →
            S.Describes E rfuel (c.name.bytes ++ b!"." ++ n.bytes) (s.semId H) v bs := by
  have hreg : ∀ c ∈ crates, ∀ q, c.Mentions q → q.Regular := fun c hcm q hq => by
    obtain ⟨h1, h2, h3, h4, h5, h6, h7⟩ := nodes_values q (nodes_closed.mentions (crates_nodes c hcm) hq)
    exact ⟨h1, h2, h3, h4, h5, h6, h7⟩
  have hds : ∃ ds : List RTy, ds.length < 2 ^ 24 - 1 ∧ ∀ q, Describe crates q → q ∈ ds :=
    ⟨describedNodes, by decide +kernel, fun q hq => described_nodes hq⟩
  have hi := idsApart (fun h => hc (.inl h)) ho
  obtain ⟨ls, h, hsys⟩ := crates_describe hc (buildable debug) hi hreg hds hf
  obtain ⟨ls', h', hsys'⟩ := system_apart hc (buildable debug) hi (fun _ c hcm q hq => (hreg c hcm q hq).fewParts) hds hf
  rw [h] at h'
  cases h'
  refine ⟨ls, h, fun ms hp => ?_⟩
  obtain ⟨S, hs, hd⟩ := hsys ms hp
  obtain ⟨S', hs', -, -, hget, hres⟩ := hsys' ms hp
  rw [hs] at hs'
  cases hs'
  refine ⟨S, hs, fun c hcm s n hon => ⟨(hres c hcm s n hon).1, ?_, fun E hH hE hu => hd E hH hE hu c hcm s n hon⟩⟩
  exact (hget _ _).mpr ⟨c, hcm, s, n, s, hon, .refl _, .self s⟩

/-- **C100, characters**: the libraries `Std` and `StrictTypes` are built and, in either order, assembled into a system; in
this system each type of `Std` has exactly the characters it is named after: a byte of the set is read by the name of the
type, and the value is accepted unchanged and written as this byte; any other byte is refused, and so is the end of the
data (or there is a hash collision among the texts of these two crates, or two of their ids overlap in thirty bytes). There
are no other types in `Std`. -/
theorem C100_characters (H : Hash) (debug : Bool) (fuel : Nat) (hf : 65535 ≤ fuel) :
    stdCrate.types.map RTy.name = stdChars.map (fun c => some c.1) ∧
    ((∃ ls, buildAll H debug fuel crates [] = .ok ls ∧ ∀ ms, ls.Perm ms → ∃ S, assembleSys H debug ms = .ok S ∧
      ∀ E : Env, E.H = H → E.sys = S.types → E.Usual → ∀ n p, (n, p) ∈ stdChars →
        ∃ id spec, TypeSpec.ofText (b!"Std." ++ n.bytes) = .ok spec ∧ ∃ least, ∀ rfuel, least < rfuel →
          (∀ b, p b = true → ∃ v, S.Describes E rfuel (b!"Std." ++ n.bytes) id v [b]) ∧
          (∀ b rest, p b = false → S.read E rfuel spec (b :: rest) = .err (.inner .enumTag)) ∧
          ∃ e, S.read E rfuel spec [] = .err (.inner e)) ∨
      CrateCollision H debug fuel crates ∨ Overlap H (crateTexts H crates)) := by
  refine ⟨by decide +kernel, ?_⟩
  by_cases hc : CrateCollision H debug fuel crates
  · exact .inr (.inl hc)
  by_cases ho : Overlap H (crateTexts H crates)
  · exact .inr (.inr ho)
  left
  obtain ⟨ls, h, hsys⟩ := stl_exact hc ho hf
  refine ⟨ls, h, fun ms hp => ?_⟩
  obtain ⟨S, hs, hd⟩ := hsys ms hp
  refine ⟨S, hs, fun E hH hE hu n p hnp => ?_⟩
  obtain ⟨vs, hm, hb⟩ := stdChars_type hnp
  have hmem : stdCrate ∈ crates := by simp [crates]
  have hon : stdCrate.Owns (std n vs) n := ⟨⟨_, hm, .refl _⟩, rfl, rfl⟩
  obtain ⟨hres, hget, hval⟩ := hd stdCrate hmem _ n hon
  have hspec : TypeSpec.ofText (b!"Std." ++ n.bytes) = .ok (.fqn ⟨n!"Std", n⟩) := by
    have := ((C69_full_name (b!"Std." ++ n.bytes)).1 ⟨n!"Std", n⟩).mpr rfl
    rw [TypeSpec.ofText, this]
    rfl
  refine ⟨(std n vs).semId H, _, hspec, sizeOf (std n vs), fun rfuel hr => ⟨fun b hpb => ?_, ?_⟩⟩
  · rw [← (hb b).2] at hpb
    obtain ⟨x, hx, hxt⟩ := List.any_eq_true.mp hpb
    refine ⟨.enum (.name x.name), (hval E hH hE hu).2 _ _ ⟨x, hx, rfl, ?_⟩ (.enum _) rfuel (by omega)⟩
    rw [of_decide_eq_true hxt]
  · obtain ⟨k, rfl⟩ : ∃ k, rfuel = k + 1 := ⟨rfuel - 1, by omega⟩
    rw [std, RTy.img_enum] at hget
    have hto : S.toSemId (.fqn ⟨n!"Std", n⟩) = some ((std n vs).semId H) := hres
    have hty : ∀ bs, read (S.env E) (k + 1) ((std n vs).semId H) bs =
        readTy (read (S.env E) k) (S.env E) ((std n vs).semId H) (.enum (byTag Variant.tag vs)) bs := by
      intro bs
      have : (S.env E).find ((std n vs).semId H) = some (.enum (byTag Variant.tag vs)) := hget
      rw [read, this]
    refine ⟨fun b rest hpb => ?_, ?_⟩
    · have hn : Ty.enumNameByTag (byTag Variant.tag vs) b = none := by
        have := (hb b).1
        rw [hpb] at this
        simpa using this
      have hr1 : readLe 1 (b :: rest) = .ok (b.toNat, rest) := by
        simp [readLe, readRaw, fromLe]
      simp only [SymbolicSys.read, hto, hty, readTy, hr1]
      simp [hn, Out.mapErr]
    · refine ⟨.io, ?_⟩
      simp only [SymbolicSys.read, hto, hty, readTy]
      rfl

/-! ## Names -/

theorem newtype_writes_iff {n : Name} {t : RTy} {v : Val} {bs : Bytes} :
    (newtype n t).Writes v bs ↔ ∃ w, v = .tuple [w] ∧ t.Writes w bs := by
  constructor
  · rintro ⟨l, rfl, w, l', a, b, rfl, rfl, h, rfl, rfl⟩
    exact ⟨w, rfl, by rw [List.append_nil]; exact h⟩
  · rintro ⟨w, rfl, h⟩
    exact newtype_writes h

theorem letter_iff {t : RTy} {b : Byte} : t.Letter b ↔ hasTag t b = true := by
  refine ⟨fun ⟨vs, h, x, hx, e⟩ => ?_, letter_of⟩
  simp only [hasTag, h, List.any_eq_true]
  exact ⟨x, hx, decide_eq_true e⟩

theorem num_letter (b : Byte) : alphaNumLodash.Letter b ↔ (isLetter b || isDec b || isLodash b) = true := by
  rw [letter_iff]
  have := byte_all (p := fun b => hasTag alphaNumLodash b == (isLetter b || isDec b || isLodash b)) (by decide +kernel) b
  rw [beq_iff_eq.mp this]

/-- The values of a type of names, and what is written. -/
theorem identString_iff {t : RTy} {head : Byte → Bool} (h : ∀ b, t.Letter b ↔ head b = true) (n : Name) (v : Val) (bs : Bytes) :
    (newtype n (identString t)).Writes v bs ↔
      ∃ s, NameText head s ∧ v = .tuple [.str s] ∧ bs = BitVec.ofNat 8 s.length :: s := by
  rw [newtype_writes_iff]
  constructor
  · rintro ⟨w, rfl, s, rfl, h1, h2, ⟨h3, h4⟩, rfl⟩
    have h3 : 1 ≤ s.length := h3
    have h4 : s.length ≤ 100 := h4
    refine ⟨s, ?_, rfl, rfl⟩
    cases s with
    | nil => simp at h3
    | cons b s =>
      exact ⟨b, s, rfl, (h b).mp (h1 b (by simp)), fun c hc => (num_letter c).mp (h2 c (by simpa using hc)), Nat.lt_of_succ_le h4⟩
  · rintro ⟨s, ⟨b, s, rfl, h1, h2, h3⟩, rfl, rfl⟩
    refine ⟨_, rfl, b :: s, rfl, ?_, ?_, ⟨?_, ?_⟩, rfl⟩
    · intro c hc
      simp only [List.take_succ_cons, List.take_zero, List.mem_singleton] at hc
      subst hc
      exact (h c).mpr h1
    · exact fun c hc => (num_letter c).mpr (h2 c (by simpa using hc))
    · exact Nat.succ_le_succ (Nat.zero_le _)
    · exact Nat.succ_le_succ (Nat.le_of_lt_succ h3)

/-- The types of names with the letters they begin with. -/
theorem nameHeads_type {n : Name} {p : Byte → Bool} (h : (n, p) ∈ nameHeads) : ∃ t, newtype n (identString t) ∈
    strictTypesCrate.types ∧ ∀ b, t.Letter b ↔ p b = true := by
  have hc : ∀ b, alphaCapsLodash.Letter b ↔ (isCapital b || isLodash b) = true := fun b => by
    rw [letter_iff, beq_iff_eq.mp (byte_all (p := fun b => hasTag alphaCapsLodash b == (isCapital b || isLodash b))
      (by decide +kernel) b)]
  have hs : ∀ b, alphaSmallLodash.Letter b ↔ (isSmall b || isLodash b) = true := fun b => by
    rw [letter_iff, beq_iff_eq.mp (byte_all (p := fun b => hasTag alphaSmallLodash b == (isSmall b || isLodash b))
      (by decide +kernel) b)]
  have ha : ∀ b, alphaLodash.Letter b ↔ (isLetter b || isLodash b) = true := fun b => by
    rw [letter_iff, beq_iff_eq.mp (byte_all (p := fun b => hasTag alphaLodash b == (isLetter b || isLodash b))
      (by decide +kernel) b)]
  simp only [nameHeads, List.mem_cons, Prod.mk.injEq, List.not_mem_nil, or_false] at h
  rcases h with ⟨rfl, rfl⟩ | ⟨rfl, rfl⟩ | ⟨rfl, rfl⟩ | ⟨rfl, rfl⟩ | ⟨rfl, rfl⟩
  · exact ⟨_, by simp [strictTypesCrate, identTy], ha⟩
  · exact ⟨_, by simp [strictTypesCrate, typeName], hc⟩
  · exact ⟨_, by simp [strictTypesCrate, libName], hc⟩
  · exact ⟨_, by simp [strictTypesCrate, fieldName], hs⟩
  · exact ⟨_, by simp [strictTypesCrate, variantName], hs⟩

/-- **C100, names**: in the system of the libraries `Std` and `StrictTypes`, assembled in either order, the values of the
types of names are exactly the texts of one to a hundred letters, digits and underscores which begin with a letter of the
right case or an underscore; each is read and written as its length and its characters, by the name of the type (or there
is a hash collision among the texts of these two crates, or two of their ids overlap in thirty bytes). -/
theorem C100_names (H : Hash) (debug : Bool) (fuel : Nat) (hf : 65535 ≤ fuel) :
    (∃ ls, buildAll H debug fuel crates [] = .ok ls ∧ ∀ ms, ls.Perm ms → ∃ S, assembleSys H debug ms = .ok S ∧
      ∀ E : Env, E.H = H → E.sys = S.types → E.Usual → ∀ n p, (n, p) ∈ nameHeads →
        ∃ id, (∀ v, WellTyped E v id ↔ ∃ s, NameText p s ∧ v = .tuple [.str s]) ∧ ∃ least, ∀ rfuel, least ≤ rfuel →
          ∀ s, NameText p s → S.Describes E rfuel (b!"StrictTypes." ++ n.bytes) id (.tuple [.str s])
            (BitVec.ofNat 8 s.length :: s)) ∨
      CrateCollision H debug fuel crates ∨ Overlap H (crateTexts H crates) := by
  by_cases hc : CrateCollision H debug fuel crates
  · exact .inr (.inl hc)
  by_cases ho : Overlap H (crateTexts H crates)
  · exact .inr (.inr ho)
  left
  obtain ⟨ls, h, hsys⟩ := stl_exact hc ho hf
  refine ⟨ls, h, fun ms hp => ?_⟩
  obtain ⟨S, hs, hd⟩ := hsys ms hp
  refine ⟨S, hs, fun E hH hE hu n p hnp => ?_⟩
  obtain ⟨t, hm, hb⟩ := nameHeads_type hnp
  have hon : strictTypesCrate.Owns (newtype n (identString t)) n := ⟨⟨_, hm, .refl _⟩, rfl, rfl⟩
  obtain ⟨-, -, hval⟩ := hd _ strict_mem _ n hon
  obtain ⟨hv, hdesc⟩ := hval E hH hE hu
  have htidy : ∀ s, Val.Tidy (.tuple [.str s]) := fun s => .tuple fun v hv => by
    rw [List.mem_singleton.mp hv]; exact .str s
  refine ⟨_, fun v => (hv v).trans ?_, _, fun rfuel hr s hn => hdesc _ _ ((identString_iff hb n _ _).mpr ⟨s, hn, rfl, rfl⟩)
    (htidy s) rfuel hr⟩
  constructor
  · rintro ⟨-, bs, hw⟩
    obtain ⟨s, hn, rfl, -⟩ := (identString_iff hb n _ _).mp hw
    exact ⟨s, hn, rfl⟩
  · rintro ⟨s, hn, rfl⟩
    exact ⟨htidy s, _, (identString_iff hb n _ _).mpr ⟨s, hn, rfl, rfl⟩⟩

/-- A text of letters, digits and underscores, and one which begins with a digit. -/
example : NameText (fun b => isSmall b || isLodash b) b!"_field2" ∧ ¬ NameText (fun b => isSmall b || isLodash b) b!"2nd" := by
  refine ⟨⟨95, b!"field2", rfl, by decide, by decide, by decide⟩, ?_⟩
  rintro ⟨b, t, e, h, -⟩
  cases e
  revert h
  decide

theorem nameText_iff (s : Bytes) : NameText (fun b => isLetter b || isLodash b) s ↔ nameOk s = true := by
  have h1 : ∀ b, isAlphaLodash b = (isLetter b || isLodash b) := fun b =>
    beq_iff_eq.mp (byte_all (p := fun b => isAlphaLodash b == (isLetter b || isLodash b)) (by decide +kernel) b)
  have h2 : ∀ b, isAlphaNumLodash b = (isLetter b || isDec b || isLodash b) := fun b =>
    beq_iff_eq.mp (byte_all (p := fun b => isAlphaNumLodash b == (isLetter b || isDec b || isLodash b)) (by decide +kernel) b)
  cases s with
  | nil =>
    constructor
    · rintro ⟨_, _, e, -⟩
      cases e
    · intro h
      cases h
  | cons b s =>
    simp only [nameOk, Bool.and_eq_true, List.all_eq_true, decide_eq_true_eq, h1, h2]
    constructor
    · rintro ⟨_, _, e, h3, h4, h5⟩
      cases e
      exact ⟨⟨h3, h4⟩, Nat.le_of_lt_succ h5⟩
    · rintro ⟨⟨h3, h4⟩, h5⟩
      exact ⟨b, s, rfl, h3, h4, Nat.lt_succ_of_le h5⟩

/-- The names of the model are exactly the texts of the type `Ident`. -/
theorem C100_names_of_model (s : Bytes) : (∃ n : Name, n.bytes = s) ↔ NameText (fun b => isLetter b || isLodash b) s := by
  rw [nameText_iff]
  exact ⟨fun ⟨n, e⟩ => e ▸ n.ok, fun h => ⟨⟨s, h⟩, rfl⟩⟩

end Verif
