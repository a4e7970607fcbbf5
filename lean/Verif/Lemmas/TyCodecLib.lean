import Verif.Lemmas.TyCodecTy

/-!
# Binary form of references, libraries and systems
-/

namespace Verif

/-! ## Orders of symbols -/

theorem lex_trans {α β : Type} [KeyOrd α] [KeyOrd β] [LawfulKeyOrd α] [LawfulKeyOrd β]
    [DecidableEq α] {a b c : α × β}
    (h1 : (KeyOrd.lt a.1 b.1 || (decide (a.1 = b.1) && KeyOrd.lt a.2 b.2)) = true)
    (h2 : (KeyOrd.lt b.1 c.1 || (decide (b.1 = c.1) && KeyOrd.lt b.2 c.2)) = true) :
    (KeyOrd.lt a.1 c.1 || (decide (a.1 = c.1) && KeyOrd.lt a.2 c.2)) = true := by
  simp only [Bool.or_eq_true, Bool.and_eq_true, decide_eq_true_eq] at *
  rcases h1 with h1 | ⟨e1, h1⟩
  · rcases h2 with h2 | ⟨e2, h2⟩
    · exact .inl (LawfulKeyOrd.trans _ _ _ h1 h2)
    · exact .inl (e2 ▸ h1)
  · rcases h2 with h2 | ⟨e2, h2⟩
    · exact .inl (e1 ▸ h2)
    · exact .inr ⟨e1.trans e2, LawfulKeyOrd.trans _ _ _ h1 h2⟩

theorem lex_connex {α β : Type} [KeyOrd α] [KeyOrd β] [LawfulKeyOrd α] [LawfulKeyOrd β]
    [DecidableEq α] {a b : α × β}
    (h1 : (KeyOrd.lt a.1 b.1 || (decide (a.1 = b.1) && KeyOrd.lt a.2 b.2)) = false)
    (h2 : (KeyOrd.lt b.1 a.1 || (decide (b.1 = a.1) && KeyOrd.lt b.2 a.2)) = false) : a = b := by
  simp only [Bool.or_eq_false_iff, Bool.and_eq_false_iff, decide_eq_false_iff_not] at h1 h2
  have e : a.1 = b.1 := LawfulKeyOrd.connex _ _ h1.1 h2.1
  exact Prod.ext e (LawfulKeyOrd.connex _ _ (h1.2.resolve_left fun h => h e)
    (h2.2.resolve_left fun h => h e.symm))

instance : LawfulKeyOrd TypeFqn where
  irrefl a := by simp [KeyOrd.lt, bytesLt_irrefl]
  trans a b c h1 h2 := lex_trans (a := (a.lib, a.name)) (b := (b.lib, b.name))
    (c := (c.lib, c.name)) h1 h2
  connex a b h1 h2 := by
    have := lex_connex (a := (a.lib, a.name)) (b := (b.lib, b.name)) h1 h2
    cases a; cases b; cases this; rfl

instance {K : Type} [KeyOrd K] [LawfulKeyOrd K] : LawfulKeyOrd (Option K) where
  irrefl a := by
    cases a with
    | none => rfl
    | some a => exact LawfulKeyOrd.irrefl a
  trans a b c h1 h2 := by
    match a, b, c, h1, h2 with
    | none, some _, some _, _, _ => rfl
    | some x, some y, some z, h1, h2 => exact LawfulKeyOrd.trans (K := K) x y z h1 h2
  connex a b h1 h2 := by
    match a, b, h1, h2 with
    | none, none, _, _ => rfl
    | some x, some y, h1, h2 => exact congrArg some (LawfulKeyOrd.connex (K := K) x y h1 h2)

instance : LawfulKeyOrd TypeSymbol where
  irrefl a := by
    have h1 := LawfulKeyOrd.irrefl a.id
    have h2 := LawfulKeyOrd.irrefl a.fqn
    show (KeyOrd.lt a.id a.id || (decide (a.id = a.id) && KeyOrd.lt a.fqn a.fqn)) = false
    rw [h1, h2]; simp
  trans a b c h1 h2 := lex_trans (a := (a.id, a.fqn)) (b := (b.id, b.fqn))
    (c := (c.id, c.fqn)) h1 h2
  connex a b h1 h2 := by
    have := lex_connex (a := (a.id, a.fqn)) (b := (b.id, b.fqn)) h1 h2
    cases a; cases b; cases this; rfl

/-! ## Sequencing -/

section
variable {α β γ : Type}

theorem Parsed.fail {R : α → Bytes → Prop} {d : Bytes → Out CErr (α × Bytes)}
    (h : ∀ bs r, d bs ≠ .ok r) : Parsed R d := fun _ _ _ hd => absurd hd (h _ _)

/-- Reading one thing and wrapping it under a tag. -/
theorem near_tagged {f : α → Bytes} {P : α → Prop} {d : Bytes → Out CErr (α × Bytes)}
    (hd : Parsed (Near f P) d) {wrap : α → β} {g : β → Bytes} {Q : β → Prop} {tag : Byte}
    (hg : ∀ a, g (wrap a) = tag :: f a) (hq : ∀ a, Q (wrap a) → P a) {bs rest : Bytes} {b : β}
    (h : (d bs >>= fun x => pure (wrap x.1, x.2)) = .ok (b, rest)) :
    ∃ c, tag :: bs = c ++ rest ∧ Near g Q b c := by
  obtain ⟨⟨a, b2⟩, h3, h4⟩ := Out.bind_eq_ok.mp h
  cases h4
  obtain ⟨c, rfl, hc⟩ := hd _ _ _ h3
  refine ⟨tag :: c, rfl, fun hb => ?_⟩
  rw [hg]
  rcases hc (hq _ hb) with hc | hc
  · exact .inl (by rw [hc])
  · exact .inr (by simpa using hc)

theorem Canonical.near {f : α → Bytes} {d : Bytes → Out CErr (α × Bytes)} (h : Canonical f d)
    {P : α → Prop} : Parsed (Near f P) d :=
  h.parsed.mono fun _ _ h _ => .inl h

end

theorem byte_of_toNat {b : Byte} {n : Nat} (h : b.toNat = n) : b = BitVec.ofNat 8 n := by
  rw [← h]; simp

/-! ## References -/

theorem decExtern_append (e : ExternRef) : ReadsBack encExtern decExtern e := by
  intro rest
  unfold encExtern decExtern
  rw [List.append_assoc, decId_append, Out.bind_ok]
  dsimp only
  rw [decId_append]
  rfl

theorem decExtern_ok : Canonical encExtern decExtern := by
  intro bs e rest h
  obtain ⟨⟨a, b1⟩, h1, h2⟩ := Out.bind_eq_ok.mp h
  obtain ⟨⟨b, b2⟩, h3, h4⟩ := Out.bind_eq_ok.mp h2
  cases h4
  rw [decId_ok _ _ _ h1, decId_ok _ _ _ h3]
  simp [encExtern]

theorem decRef2_append (r : InlineRef2) : ReadsBack InlineRef2.encode decRef2 r := by
  intro rest
  cases r with
  | named id =>
    show (decId (encId id ++ rest) >>= _) = _
    rw [decId_append]; rfl
  | extern e =>
    show (decExtern (encExtern e ++ rest) >>= _) = _
    rw [decExtern_append]; rfl

theorem decRef2_near : Parsed (Near InlineRef2.encode fun _ => True) decRef2 := by
  intro bs r rest h
  obtain ⟨⟨tag, b1⟩, h1, h2⟩ := Out.bind_eq_ok.mp h
  rw [decByte_ok h1]
  dsimp only at h2
  split at h2
  · rename_i hn
    rw [byte_of_toNat hn]
    exact near_tagged (decId_ok.near (P := fun _ => True)) (wrap := .named) (fun _ => rfl)
      (fun _ _ => trivial) h2
  · rename_i hn
    rw [byte_of_toNat hn]
    exact near_tagged (decExtern_ok.near (P := fun _ => True)) (wrap := .extern) (fun _ => rfl)
      (fun _ _ => trivial) h2
  · cases h2

theorem decRef1_append {r : InlineRef1} (hr : r.Deep) :
    ReadsBack InlineRef1.encode decRef1 r := by
  intro rest
  cases r with
  | inline t =>
    show (decTy decRef2 (t.encode InlineRef2.encode ++ rest) >>= _) = _
    rw [decTy_append hr fun r _ => decRef2_append r]; rfl
  | named id =>
    show (decId (encId id ++ rest) >>= _) = _
    rw [decId_append]; rfl
  | extern e =>
    show (decExtern (encExtern e ++ rest) >>= _) = _
    rw [decExtern_append]; rfl

theorem decRef1_near : Parsed (Near InlineRef1.encode InlineRef1.Deep) decRef1 := by
  intro bs r rest h
  obtain ⟨⟨tag, b1⟩, h1, h2⟩ := Out.bind_eq_ok.mp h
  rw [decByte_ok h1]
  dsimp only at h2
  split at h2
  · rename_i hn
    rw [byte_of_toNat hn]
    exact near_tagged (decTy_parsed decRef2_near) (wrap := .inline) (fun _ => rfl)
      (fun _ h => ⟨h, fun _ _ => trivial⟩) h2
  · rename_i hn
    rw [byte_of_toNat hn]
    exact near_tagged (decId_ok.near (P := fun _ => True)) (wrap := .named) (fun _ => rfl)
      (fun _ _ => trivial) h2
  · rename_i hn
    rw [byte_of_toNat hn]
    exact near_tagged (decExtern_ok.near (P := fun _ => True)) (wrap := .extern) (fun _ => rfl)
      (fun _ _ => trivial) h2
  · cases h2

theorem decRef0_append {r : InlineRef} (hr : r.Deep) : ReadsBack InlineRef.encode decRef0 r := by
  intro rest
  cases r with
  | inline t =>
    show (decTy decRef1 (t.encode InlineRef1.encode ++ rest) >>= _) = _
    rw [decTy_append hr.1 fun r h => decRef1_append (hr.2 r h)]; rfl
  | named id =>
    show (decId (encId id ++ rest) >>= _) = _
    rw [decId_append]; rfl
  | extern e =>
    show (decExtern (encExtern e ++ rest) >>= _) = _
    rw [decExtern_append]; rfl

theorem decRef0_near : Parsed (Near InlineRef.encode InlineRef.Deep) decRef0 := by
  intro bs r rest h
  obtain ⟨⟨tag, b1⟩, h1, h2⟩ := Out.bind_eq_ok.mp h
  rw [decByte_ok h1]
  dsimp only at h2
  split at h2
  · rename_i hn
    rw [byte_of_toNat hn]
    exact near_tagged (decTy_parsed decRef1_near) (wrap := .inline) (fun _ => rfl)
      (fun _ h => h) h2
  · rename_i hn
    rw [byte_of_toNat hn]
    exact near_tagged (decId_ok.near (P := fun _ => True)) (wrap := .named) (fun _ => rfl)
      (fun _ _ => trivial) h2
  · rename_i hn
    rw [byte_of_toNat hn]
    exact near_tagged (decExtern_ok.near (P := fun _ => True)) (wrap := .extern) (fun _ => rfl)
      (fun _ _ => trivial) h2
  · cases h2

theorem decLibRef_append {r : LibRef} (hr : r.Deep) : ReadsBack LibRef.encode decLibRef r := by
  intro rest
  cases r with
  | inline t =>
    show (decTy decRef0 (t.encode InlineRef.encode ++ rest) >>= _) = _
    rw [decTy_append hr.1 fun r h => decRef0_append (hr.2 r h)]; rfl
  | named id =>
    show (decId (encId id ++ rest) >>= _) = _
    rw [decId_append]; rfl
  | extern e =>
    show (decExtern (encExtern e ++ rest) >>= _) = _
    rw [decExtern_append]; rfl

theorem decLibRef_near : Parsed (Near LibRef.encode LibRef.Deep) decLibRef := by
  intro bs r rest h
  obtain ⟨⟨tag, b1⟩, h1, h2⟩ := Out.bind_eq_ok.mp h
  rw [decByte_ok h1]
  dsimp only at h2
  split at h2
  · rename_i hn
    rw [byte_of_toNat hn]
    exact near_tagged (decTy_parsed decRef0_near) (wrap := .inline) (fun _ => rfl)
      (fun _ h => h) h2
  · rename_i hn
    rw [byte_of_toNat hn]
    exact near_tagged (decId_ok.near (P := fun _ => True)) (wrap := .named) (fun _ => rfl)
      (fun _ _ => trivial) h2
  · rename_i hn
    rw [byte_of_toNat hn]
    exact near_tagged (decExtern_ok.near (P := fun _ => True)) (wrap := .extern) (fun _ => rfl)
      (fun _ _ => trivial) h2
  · cases h2

theorem libTy_append {t : Ty LibRef} (ht : t.LibDeep) :
    ReadsBack (Ty.encode LibRef.encode) (decTy decLibRef) t :=
  decTy_append ht.1 fun r h => decLibRef_append (ht.2 r h)

theorem libTy_near : Parsed (Near (Ty.encode LibRef.encode) Ty.LibDeep) (decTy decLibRef) :=
  decTy_parsed decLibRef_near

theorem semTy_append {t : Ty SemId} (ht : t.WF) :
    ReadsBack (Ty.encode encId) (decTy decId) t :=
  decTy_append ht fun r _ => decId_append r

theorem semTy_near : Parsed (Near (Ty.encode encId) Ty.WF) (decTy decId) :=
  (decTy_parsed (decId_ok.near (P := fun _ => True))).mono fun _ _ h hw =>
    h ⟨hw, fun _ _ => trivial⟩

/-! ## Maps -/

section
variable {K V : Type} [KeyOrd K] [DecidableEq K] [LawfulKeyOrd K]

theorem decMap_append {f : K → Bytes} {g : V → Bytes} {df : Bytes → Out CErr (K × Bytes)}
    {dg : Bytes → Out CErr (V × Bytes)} {w lo : Nat} {m : OMap K V} (hs : m.Sorted)
    (hf : ∀ k, ReadsBack f df k) (hg : ∀ p ∈ m, ReadsBack g dg p.2) (hlo : lo ≤ m.length)
    (hhi : m.length < 256 ^ w) :
    ReadsBack (encSeq w (encPair f g)) (decSet w lo entryCmp (decPair df dg)) m := by
  refine decSet_append (fun p hp => decPair_append (hf p.1) (hg p hp)) ?_ hlo hhi
  exact List.Pairwise.imp (fun h => cmpLt_of_lt h) hs

theorem decMap_near {f : K → Bytes} {g : V → Bytes} {df : Bytes → Out CErr (K × Bytes)}
    {dg : Bytes → Out CErr (V × Bytes)} {P : V → Prop} {w lo : Nat} (hf : Canonical f df)
    (hg : Parsed (Near g P) dg) :
    Parsed (Near (encSeq w (encPair f g)) fun m => ∀ p ∈ m, P p.2)
      (decSet w lo entryCmp (decPair df dg)) :=
  (decSet_parsed_key (key := Prod.fst) (decPair_near hf hg)).mono fun _ _ h hp => seqOf_near h hp

theorem decMap_exact {f : K → Bytes} {g : V → Bytes} {df : Bytes → Out CErr (K × Bytes)}
    {dg : Bytes → Out CErr (V × Bytes)} {w lo : Nat} (hf : Canonical f df) (hg : Canonical g dg) :
    Canonical (encSeq w (encPair f g)) (decSet w lo entryCmp (decPair df dg)) :=
  ((decSet_parsed_key (key := Prod.fst) (decPair_exact hf hg).parsed).mono
    fun _ _ h => seqOf_exact h).canonical

theorem decMap_sorted {df : Bytes → Out CErr (K × Bytes)} {dg : Bytes → Out CErr (V × Bytes)}
    {w lo : Nat} {m : OMap K V} {bs rest : Bytes}
    (h : decSet w lo entryCmp (decPair df dg) bs = .ok (m, rest)) :
    m.Sorted ∧ lo ≤ m.length ∧ m.length < 256 ^ w :=
  decSet_sorted (key := Prod.fst) h

end

/-! ## Libraries -/

theorem decDep_append (d : Dependency) : ReadsBack encDep decDep d := by
  intro rest
  unfold encDep decDep
  rw [List.append_assoc, decId_append, Out.bind_ok]
  dsimp only
  rw [decName_append]
  rfl

theorem decDep_ok : Canonical encDep decDep := by
  intro bs e rest h
  obtain ⟨⟨a, b1⟩, h1, h2⟩ := Out.bind_eq_ok.mp h
  obtain ⟨⟨b, b2⟩, h3, h4⟩ := Out.bind_eq_ok.mp h2
  cases h4
  rw [decId_ok _ _ _ h1, decName_ok _ _ _ h3]
  simp [encDep]

theorem decDeps_append {w : Nat} {ds : List Dependency} (hs : DepsSorted ds)
    (hl : ds.length < 256 ^ w) : ReadsBack (encSeq w encDep) (decSet w 0 depCmp decDep) ds :=
  decSet_append (fun d _ => decDep_append d)
    (List.Pairwise.imp (fun h => cmpLt_of_lt h) hs) (Nat.zero_le _) hl

theorem decDeps_ok {w lo : Nat} : Canonical (encSeq w encDep) (decSet w lo depCmp decDep) :=
  ((decSet_parsed_key (key := Dependency.id) decDep_ok.parsed).mono
    fun _ _ h => seqOf_exact h).canonical

theorem decDeps_sorted {w lo : Nat} {ds : List Dependency} {bs rest : Bytes}
    (h : decSet w lo depCmp decDep bs = .ok (ds, rest)) : DepsSorted ds ∧ ds.length < 256 ^ w :=
  ⟨(decSet_sorted (key := Dependency.id) h).1, (decSet_sorted (key := Dependency.id) h).2.2⟩

theorem decExternTypes_append {m : ExternTypes} (hs : OMap.Sorted m) (hl : m.length ≤ 255)
    (hm : ∀ p ∈ m, OMap.Sorted p.2 ∧ p.2.length ≤ 65535) :
    ReadsBack encExternTypes decExternTypes m :=
  decMap_append hs decName_append
    (fun p hp => decMap_append (hm p hp).1 decId_append (fun q _ => decName_append q.2)
      (Nat.zero_le _) (by have := (hm p hp).2; omega))
    (Nat.zero_le _) (by omega)

theorem decExternTypes_ok : Canonical encExternTypes decExternTypes :=
  decMap_exact decName_ok (decMap_exact decId_ok decName_ok)

theorem decTypeLib_append {l : TypeLib} (hw : l.WF) : ReadsBack TypeLib.encode decTypeLib l := by
  intro rest
  have h1 := hw.fewDeps
  have h2 := hw.fewTypes
  have h3 : 1 ≤ l.types.length := List.length_pos_iff.mpr hw.nonEmpty
  unfold TypeLib.encode decTypeLib
  rw [List.append_assoc, List.append_assoc, List.append_assoc, decName_append, Out.bind_ok]
  dsimp only
  rw [decDeps_append hw.deps (by omega), Out.bind_ok]
  dsimp only
  rw [decExternTypes_append hw.externSorted hw.fewExterns hw.externs, Out.bind_ok]
  dsimp only
  rw [decMap_append hw.typesSorted decName_append (fun p hp => libTy_append (hw.types p hp)) h3
    (by omega), Out.bind_ok]
  rfl

theorem decTypeLib_near : Parsed (Near TypeLib.encode TypeLib.WF) decTypeLib := by
  intro bs l rest h
  obtain ⟨⟨a, b1⟩, h1, h⟩ := Out.bind_eq_ok.mp h
  obtain ⟨⟨b, b2⟩, h2, h⟩ := Out.bind_eq_ok.mp h
  obtain ⟨⟨c, b3⟩, h3, h⟩ := Out.bind_eq_ok.mp h
  obtain ⟨⟨d, b4⟩, h4, h⟩ := Out.bind_eq_ok.mp h
  cases h
  obtain ⟨z, rfl, hz⟩ := decMap_near decName_ok libTy_near _ _ _ h4
  rw [decName_ok _ _ _ h1, decDeps_ok _ _ _ h2, decExternTypes_ok _ _ _ h3]
  refine ⟨encName a ++ encSeq 1 encDep b ++ encExternTypes c ++ z, by simp, fun hw => ?_⟩
  rcases hz hw.types with hz | hz
  · exact .inl (by rw [hz]; rfl)
  · right
    simp only [TypeLib.encode, List.length_append]
    omega

/-- What reading a library guarantees by itself. -/
theorem decTypeLib_sorted {l : TypeLib} {bs rest : Bytes} (h : decTypeLib bs = .ok (l, rest)) :
    l.types.Sorted ∧ l.types ≠ [] ∧ l.types.length ≤ 65535 ∧ DepsSorted l.dependencies ∧
      l.dependencies.length ≤ 255 ∧ l.externTypes.Sorted ∧ l.externTypes.length ≤ 255 := by
  obtain ⟨⟨a, b1⟩, h1, h⟩ := Out.bind_eq_ok.mp h
  obtain ⟨⟨b, b2⟩, h2, h⟩ := Out.bind_eq_ok.mp h
  obtain ⟨⟨c, b3⟩, h3, h⟩ := Out.bind_eq_ok.mp h
  obtain ⟨⟨d, b4⟩, h4, h⟩ := Out.bind_eq_ok.mp h
  cases h
  obtain ⟨k1, k2, k3⟩ := decMap_sorted h4
  obtain ⟨k4, k5⟩ := decDeps_sorted h2
  obtain ⟨k6, -, k7⟩ := decMap_sorted h3
  exact ⟨k1, List.length_pos_iff.mp k2, by dsimp only; omega, k4, by dsimp only; omega, k6,
    by dsimp only; omega⟩

/-! ## Systems -/

theorem decTypeSystem_append {s : TypeSystem} (hw : s.Held) :
    ReadsBack TypeSystem.encode decTypeSystem s :=
  decMap_append hw.sorted decId_append (fun p hp => semTy_append (hw.types p hp)) (Nat.zero_le _)
    (by have := hw.few; omega)

theorem decTypeSystem_near : Parsed (Near TypeSystem.encode TypeSystem.Held) decTypeSystem :=
  (decMap_near decId_ok semTy_near).mono fun _ _ h hw => h hw.types

theorem decFqn_append (q : TypeFqn) : ReadsBack encFqn decFqn q := by
  intro rest
  unfold encFqn decFqn
  rw [List.append_assoc, decName_append, Out.bind_ok]
  dsimp only
  rw [decName_append]
  rfl

theorem decFqn_ok : Canonical encFqn decFqn := by
  intro bs e rest h
  obtain ⟨⟨a, b1⟩, h1, h2⟩ := Out.bind_eq_ok.mp h
  obtain ⟨⟨b, b2⟩, h3, h4⟩ := Out.bind_eq_ok.mp h2
  cases h4
  rw [decName_ok _ _ _ h1, decName_ok _ _ _ h3]
  simp [encFqn]

theorem decOption_append {α : Type} {f : α → Bytes} {d : Bytes → Out CErr (α × Bytes)}
    (h : ∀ a, ReadsBack f d a) (o : Option α) : ReadsBack (encOption f) (decOption d) o := by
  intro rest
  cases o with
  | none => rfl
  | some a =>
    show (d (f a ++ rest) >>= _) = _
    rw [h a]
    rfl

theorem decOption_ok {α : Type} {f : α → Bytes} {d : Bytes → Out CErr (α × Bytes)}
    (h : Canonical f d) : Canonical (encOption f) (decOption d) := by
  intro bs o rest hd
  obtain ⟨⟨tag, b1⟩, h1, h2⟩ := Out.bind_eq_ok.mp hd
  rw [decByte_ok h1]
  dsimp only at h2
  split at h2
  · rename_i hn
    rw [byte_of_toNat hn]
    cases h2
    rfl
  · rename_i hn
    rw [byte_of_toNat hn]
    obtain ⟨⟨a, b2⟩, h3, h4⟩ := Out.bind_eq_ok.mp h2
    cases h4
    rw [h _ _ _ h3]
    rfl
  · cases h2

theorem decSymbol_append (s : TypeSymbol) : ReadsBack encSymbol decSymbol s := by
  intro rest
  unfold encSymbol decSymbol
  rw [List.append_assoc, decId_append, Out.bind_ok]
  dsimp only
  rw [decOption_append decFqn_append]
  rfl

theorem decSymbol_ok : Canonical encSymbol decSymbol := by
  intro bs e rest h
  obtain ⟨⟨a, b1⟩, h1, h2⟩ := Out.bind_eq_ok.mp h
  obtain ⟨⟨b, b2⟩, h3, h4⟩ := Out.bind_eq_ok.mp h2
  cases h4
  rw [decId_ok _ _ _ h1, decOption_ok decFqn_ok _ _ _ h3]
  simp [encSymbol]

theorem decSymbols_append {s : Symbols} (hw : s.Held) : ReadsBack Symbols.encode decSymbols s := by
  intro rest
  have h1 := hw.fewLibs
  have h2 := hw.fewSymbols
  unfold Symbols.encode decSymbols
  rw [List.append_assoc, decDeps_append hw.libs (by omega), Out.bind_ok]
  dsimp only
  rw [decSet_append (fun s _ => decSymbol_append s)
    (List.Pairwise.imp (fun h => cmpLt_of_lt h) hw.symbols) (Nat.zero_le _) (by omega)]
  rfl

theorem decSymbols_ok : Canonical Symbols.encode decSymbols := by
  intro bs e rest h
  obtain ⟨⟨a, b1⟩, h1, h2⟩ := Out.bind_eq_ok.mp h
  obtain ⟨⟨b, b2⟩, h3, h4⟩ := Out.bind_eq_ok.mp h2
  cases h4
  obtain ⟨c, rfl, hc⟩ := decSet_parsed_key (key := fun s : TypeSymbol => s) decSymbol_ok.parsed
    _ _ _ h3
  rw [decDeps_ok _ _ _ h1, seqOf_exact hc]
  simp [Symbols.encode]

theorem decSymbols_held {s : Symbols} {bs rest : Bytes} (h : decSymbols bs = .ok (s, rest)) :
    s.Held := by
  obtain ⟨⟨a, b1⟩, h1, h2⟩ := Out.bind_eq_ok.mp h
  obtain ⟨⟨b, b2⟩, h3, h4⟩ := Out.bind_eq_ok.mp h2
  cases h4
  obtain ⟨k1, k2⟩ := decDeps_sorted h1
  obtain ⟨k3, -, k4⟩ := decSet_sorted (key := fun s : TypeSymbol => s) h3
  exact ⟨k1, by dsimp only; omega, k3, by dsimp only; omega⟩

theorem decSymbolicSys_append {s : SymbolicSys} (hw : s.Held) :
    ReadsBack SymbolicSys.encode decSymbolicSys s := by
  intro rest
  unfold SymbolicSys.encode decSymbolicSys
  rw [List.append_assoc, decSymbols_append hw.symbols, Out.bind_ok]
  dsimp only
  rw [decTypeSystem_append hw.types]
  rfl

theorem decSymbolicSys_near :
    Parsed (Near SymbolicSys.encode SymbolicSys.Held) decSymbolicSys := by
  intro bs e rest h
  obtain ⟨⟨a, b1⟩, h1, h2⟩ := Out.bind_eq_ok.mp h
  obtain ⟨⟨b, b2⟩, h3, h4⟩ := Out.bind_eq_ok.mp h2
  cases h4
  obtain ⟨c, rfl, hc⟩ := decTypeSystem_near _ _ _ h3
  rw [decSymbols_ok _ _ _ h1]
  refine ⟨a.encode ++ c, by simp, fun hw => ?_⟩
  rcases hc hw.types with hc | hc
  · exact .inl (by rw [hc]; rfl)
  · right
    simp only [SymbolicSys.encode, List.length_append]
    omega

/-! ## Symbolic libraries -/

theorem decSymbolRef_append (r : SymbolRef) : ReadsBack encSymbolRef decSymbolRef r := by
  intro rest
  unfold encSymbolRef decSymbolRef
  rw [List.append_assoc, List.append_assoc, List.append_assoc, decName_append, Out.bind_ok]
  dsimp only
  rw [decName_append, Out.bind_ok]
  dsimp only
  rw [decId_append, Out.bind_ok]
  dsimp only
  rw [decId_append]
  rfl

theorem decSymbolRef_ok : Canonical encSymbolRef decSymbolRef := by
  intro bs e rest h
  obtain ⟨⟨a, b1⟩, h1, h⟩ := Out.bind_eq_ok.mp h
  obtain ⟨⟨b, b2⟩, h2, h⟩ := Out.bind_eq_ok.mp h
  obtain ⟨⟨c, b3⟩, h3, h⟩ := Out.bind_eq_ok.mp h
  obtain ⟨⟨d, b4⟩, h4, h⟩ := Out.bind_eq_ok.mp h
  cases h
  rw [decName_ok _ _ _ h1, decName_ok _ _ _ h2, decId_ok _ _ _ h3, decId_ok _ _ _ h4]
  simp [encSymbolRef]

theorem encodeRefs_eq (l : List TranspileRef) :
    TranspileRef.encodeRefs l = l.flatMap TranspileRef.encode := by
  induction l with
  | nil => rfl
  | cons r l ih => simp [TranspileRef.encodeRefs, ih]

theorem encodeFields_eq (l : List (Name × TranspileRef)) :
    TranspileRef.encodeFields l = l.flatMap (encPair encName TranspileRef.encode) := by
  induction l with
  | nil => rfl
  | cons r l ih => simp [TranspileRef.encodeFields, ih, encPair]

theorem encodeVariants_eq (l : List (Variant × TranspileRef)) :
    TranspileRef.encodeVariants l =
      (l.map fun p => (p.1.tag, (p.1.name, p.2))).flatMap (encEntry TranspileRef.encode) := by
  induction l with
  | nil => rfl
  | cons r l ih => simp [TranspileRef.encodeVariants, ih, encEntry, encPair]

/-- The structural writer of embedded types is `Ty.encode`. -/
theorem encodeTy_eq {t : Ty TranspileRef} (hw : t.WF) :
    TranspileRef.encodeTy t = t.encode TranspileRef.encode := by
  cases t with
  | union vs =>
    have he : unionFields vs = vs.map fun p => (p.1.tag, (p.1.name, p.2)) := unionFields_eq hw
    simp only [TranspileRef.encodeTy, Ty.encode, encSeq, he, encodeVariants_eq]
    have : (fun e : Byte × Name × TranspileRef => e.1 :: encPair encName TranspileRef.encode e.2) =
      encEntry TranspileRef.encode := rfl
    rw [this]
    simp
  | tuple fs => simp [TranspileRef.encodeTy, Ty.encode, encSeq, encodeRefs_eq]
  | struct fs => simp [TranspileRef.encodeTy, Ty.encode, encSeq, encodeFields_eq]
  | primitive c => simp [TranspileRef.encodeTy, Ty.encode]
  | unicodeChar => simp [TranspileRef.encodeTy, Ty.encode]
  | enum vs => simp [TranspileRef.encodeTy, Ty.encode]
  | array ty len => simp [TranspileRef.encodeTy, Ty.encode]
  | list ty sz => simp [TranspileRef.encodeTy, Ty.encode]
  | set ty sz => simp [TranspileRef.encodeTy, Ty.encode]
  | map key ty sz => simp [TranspileRef.encodeTy, Ty.encode]

/-- References are written inside the type. -/
theorem encode_ref_le {Ref : Type} {f : Ref → Bytes} {t : Ty Ref} (hw : t.WF) {r : Ref}
    (hr : r ∈ t.refs) : (f r).length ≤ (t.encode f).length := by
  have key : ∀ {α : Type} (g : α → Bytes) (l : List α) (x : α), x ∈ l →
      (g x).length ≤ (l.flatMap g).length := by
    intro α g l x hx
    induction l with
    | nil => cases hx
    | cons y l ih =>
      simp only [List.flatMap_cons, List.length_append]
      rcases List.mem_cons.mp hx with rfl | hx
      · omega
      · have := ih hx; omega
  cases t with
  | primitive c => cases hr
  | unicodeChar => cases hr
  | enum vs => cases hr
  | union vs =>
    have he : unionFields vs = vs.map fun p => (p.1.tag, (p.1.name, p.2)) := unionFields_eq hw
    obtain ⟨p, hp, rfl⟩ := List.mem_map.mp hr
    have := key (fun e : Byte × Name × Ref => e.1 :: encPair encName f e.2) (unionFields vs)
      (p.1.tag, (p.1.name, p.2)) (by rw [he]; exact List.mem_map.mpr ⟨p, hp, rfl⟩)
    simp only [Ty.encode, encSeq, List.length_cons, List.length_append, encPair] at this ⊢
    omega
  | tuple fs =>
    have := key f fs r hr
    simp only [Ty.encode, encSeq, List.length_cons, List.length_append]
    omega
  | struct fs =>
    obtain ⟨p, hp, rfl⟩ := List.mem_map.mp hr
    have := key (encPair encName f) fs p hp
    simp only [Ty.encode, encSeq, List.length_cons, List.length_append, encPair] at this ⊢
    omega
  | array ty len =>
    cases List.mem_singleton.mp hr
    simp only [Ty.encode, List.length_cons, List.length_append]
    omega
  | list ty sz =>
    cases List.mem_singleton.mp hr
    simp only [Ty.encode, List.length_cons, List.length_append]
    omega
  | set ty sz =>
    cases List.mem_singleton.mp hr
    simp only [Ty.encode, List.length_cons, List.length_append]
    omega
  | map key ty sz =>
    simp only [Ty.encode, List.length_cons, List.length_append]
    rcases List.mem_cons.mp hr with rfl | hr
    · omega
    · cases List.mem_singleton.mp hr
      omega

theorem decTranspileRef_append {r : TranspileRef} (hr : r.Deep) :
    ∀ fuel, r.encode.length ≤ fuel → ReadsBack TranspileRef.encode (decTranspileRef fuel) r := by
  induction hr with
  | @embedded t hw hrefs ih =>
    intro fuel hf rest
    have he : (TranspileRef.embedded t).encode = 0 :: t.encode TranspileRef.encode := by
      rw [TranspileRef.encode, encodeTy_eq hw]
    rw [he] at hf ⊢
    cases fuel with
    | zero => simp at hf
    | succ fuel =>
      have hf : (t.encode TranspileRef.encode).length ≤ fuel := by simpa using hf
      show (decTy (decTranspileRef fuel) (t.encode TranspileRef.encode ++ rest) >>= _) = _
      rw [decTy_append hw fun r h => ih r h fuel
        (Nat.le_trans (encode_ref_le (f := TranspileRef.encode) hw h) hf)]
      rfl
  | named n =>
    intro fuel hf rest
    cases fuel with
    | zero => simp [TranspileRef.encode] at hf
    | succ fuel =>
      rw [TranspileRef.encode]
      show (decName (encName n ++ rest) >>= _) = _
      rw [decName_append]; rfl
  | extern s =>
    intro fuel hf rest
    cases fuel with
    | zero => simp [TranspileRef.encode] at hf
    | succ fuel =>
      rw [TranspileRef.encode]
      show (decSymbolRef (encSymbolRef s ++ rest) >>= _) = _
      rw [decSymbolRef_append]; rfl

theorem symTy_append {t : Ty TranspileRef} (ht : t.Deep) {fuel : Nat}
    (hf : (TranspileRef.encodeTy t).length ≤ fuel) :
    ReadsBack TranspileRef.encodeTy (decTy (decTranspileRef fuel)) t := by
  intro rest
  rw [encodeTy_eq ht.1] at hf ⊢
  exact decTy_append ht.1 (fun r h => decTranspileRef_append (ht.2 r h) fuel
    (Nat.le_trans (encode_ref_le (f := TranspileRef.encode) ht.1 h) hf)) rest

theorem symTy_near_of {fuel : Nat}
    (h : Parsed (Near TranspileRef.encode TranspileRef.Deep) (decTranspileRef fuel)) :
    Parsed (Near TranspileRef.encodeTy Ty.Deep) (decTy (decTranspileRef fuel)) :=
  (decTy_parsed h).mono fun _ _ h hd => by rw [encodeTy_eq hd.1]; exact h hd

theorem decTranspileRef_near (fuel : Nat) :
    Parsed (Near TranspileRef.encode TranspileRef.Deep) (decTranspileRef fuel) := by
  induction fuel with
  | zero => exact Parsed.fail fun _ _ => by simp [decTranspileRef]
  | succ fuel ih =>
    intro bs r rest h
    obtain ⟨⟨tag, b1⟩, h1, h2⟩ := Out.bind_eq_ok.mp h
    rw [decByte_ok h1]
    dsimp only at h2
    split at h2
    · rename_i hn
      rw [byte_of_toNat hn]
      refine near_tagged (symTy_near_of ih) (wrap := .embedded)
        (fun _ => by rw [TranspileRef.encode]; rfl) (fun _ h => ?_) h2
      cases h with
      | embedded h1 h2 => exact ⟨h1, h2⟩
    · rename_i hn
      rw [byte_of_toNat hn]
      exact near_tagged (decName_ok.near (P := fun _ => True)) (wrap := .named)
        (fun _ => by rw [TranspileRef.encode]; rfl) (fun _ _ => trivial) h2
    · rename_i hn
      rw [byte_of_toNat hn]
      exact near_tagged (decSymbolRef_ok.near (P := fun _ => True)) (wrap := .extern)
        (fun _ => by rw [TranspileRef.encode]; rfl) (fun _ _ => trivial) h2
    · cases h2

theorem decSymbolicLib_append {l : SymbolicLib} (hw : l.WF) (hl : l.types.length < 2 ^ 64)
    {fuel : Nat} (hf : l.encode.length ≤ fuel) :
    ReadsBack SymbolicLib.encode (decSymbolicLib fuel) l := by
  intro rest
  have h1 := hw.fewDeps
  have h3 : 1 ≤ l.types.length := List.length_pos_iff.mpr hw.nonEmpty
  have h4 : ∀ p ∈ l.types, (TranspileRef.encodeTy p.2).length ≤ fuel := by
    intro p hp
    have key : ∀ {m : List (Name × Ty TranspileRef)}, p ∈ m → (TranspileRef.encodeTy p.2).length ≤
        (m.flatMap (encPair encName TranspileRef.encodeTy)).length := by
      intro m hm
      induction m with
      | nil => cases hm
      | cons q m ih =>
        simp only [List.flatMap_cons, List.length_append]
        rcases List.mem_cons.mp hm with rfl | hm
        · simp only [encPair, List.length_append]; omega
        · have := ih hm; omega
    have := key hp
    simp only [SymbolicLib.encode, encSeq, List.length_append] at hf
    omega
  unfold SymbolicLib.encode decSymbolicLib
  rw [List.append_assoc, List.append_assoc, List.append_assoc, decName_append, Out.bind_ok]
  dsimp only
  rw [decDeps_append hw.deps (by omega), Out.bind_ok]
  dsimp only
  rw [decExternTypes_append hw.externSorted hw.fewExterns hw.externs, Out.bind_ok]
  dsimp only
  rw [decMap_append hw.typesSorted decName_append
    (fun p hp => symTy_append (hw.types p hp) (h4 p hp)) h3 (by omega), Out.bind_ok]
  rfl

theorem decSymbolicLib_near (fuel : Nat) :
    Parsed (Near SymbolicLib.encode SymbolicLib.WF) (decSymbolicLib fuel) := by
  intro bs l rest h
  obtain ⟨⟨a, b1⟩, h1, h⟩ := Out.bind_eq_ok.mp h
  obtain ⟨⟨b, b2⟩, h2, h⟩ := Out.bind_eq_ok.mp h
  obtain ⟨⟨c, b3⟩, h3, h⟩ := Out.bind_eq_ok.mp h
  obtain ⟨⟨d, b4⟩, h4, h⟩ := Out.bind_eq_ok.mp h
  cases h
  obtain ⟨z, rfl, hz⟩ := decMap_near decName_ok (symTy_near_of (decTranspileRef_near fuel))
    _ _ _ h4
  rw [decName_ok _ _ _ h1, decDeps_ok _ _ _ h2, decExternTypes_ok _ _ _ h3]
  refine ⟨encName a ++ encSeq 1 encDep b ++ encExternTypes c ++ z, by simp, fun hw => ?_⟩
  rcases hz hw.types with hz | hz
  · exact .inl (by rw [hz]; rfl)
  · right
    simp only [SymbolicLib.encode, List.length_append]
    omega

/-! ## What is decoded -/

section
variable {α β : Type}

theorem decOrd_yields {cmp : α → α → Ordering} {d : Bytes → Out CErr (α × Bytes)} {P : α → Prop}
    (hd : ∀ bs a rest, d bs = .ok (a, rest) → P a) {n : Nat} {acc out : List α} {bs rest : Bytes}
    (hacc : ∀ a ∈ acc, P a) (h : decOrd cmp d n acc bs = .ok (out, rest)) :
    (∀ a ∈ out, P a) ∧ out.length = acc.length + n := by
  induction n generalizing acc bs with
  | zero => cases h; exact ⟨hacc, rfl⟩
  | succ n ih =>
    obtain ⟨⟨x, b1⟩, h1, h2⟩ := Out.bind_eq_ok.mp h
    dsimp only at h2
    split at h2
    · cases h2
    · split at h2
      · cases h2
      · rename_i acc' hi
        obtain ⟨l, r, rfl, rfl⟩ := cmpInsert_split hi
        have hx := hd _ _ _ h1
        obtain ⟨k1, k2⟩ := ih (acc := l ++ x :: r) (fun a ha => by
          simp only [List.mem_append, List.mem_cons] at ha
          rcases ha with ha | rfl | ha
          · exact hacc a (by simp [ha])
          · exact hx
          · exact hacc a (by simp [ha])) h2
        refine ⟨k1, ?_⟩
        simp only [List.length_append, List.length_cons] at k2 ⊢
        omega

theorem decSet_length {cmp : α → α → Ordering} {d : Bytes → Out CErr (α × Bytes)} {w lo : Nat}
    {l : List α} {bs rest : Bytes} (h : decSet w lo cmp d bs = .ok (l, rest)) :
    lo ≤ l.length ∧ l.length < 256 ^ w := by
  obtain ⟨⟨n, b1⟩, h1, h2⟩ := Out.bind_eq_ok.mp h
  obtain ⟨⟨l', b2⟩, h3, h4⟩ := Out.bind_eq_ok.mp h2
  obtain ⟨l'', h5, h6⟩ := Out.bind_eq_ok.mp h4
  cases h6
  have := (decOrd_yields (P := fun _ => True) (fun _ _ _ _ => trivial) (by simp) h3).2
  have h7 := (decNat_ok h1).2
  unfold checkMin at h5
  split at h5
  · cases h5
    simp only [List.length_nil, Nat.zero_add] at this
    omega
  · cases h5

theorem decSet_yields {cmp : α → α → Ordering} {d : Bytes → Out CErr (α × Bytes)} {P : α → Prop}
    (hd : ∀ bs a rest, d bs = .ok (a, rest) → P a) {w lo : Nat} {l : List α} {bs rest : Bytes}
    (h : decSet w lo cmp d bs = .ok (l, rest)) : ∀ a ∈ l, P a := by
  obtain ⟨⟨n, b1⟩, h1, h2⟩ := Out.bind_eq_ok.mp h
  obtain ⟨⟨l', b2⟩, h3, h4⟩ := Out.bind_eq_ok.mp h2
  obtain ⟨l'', h5, h6⟩ := Out.bind_eq_ok.mp h4
  cases h6
  have := (decOrd_yields hd (by simp) h3).1
  unfold checkMin at h5
  split at h5
  · cases h5; exact this
  · cases h5

theorem decPair_yields {df : Bytes → Out CErr (α × Bytes)} {dg : Bytes → Out CErr (β × Bytes)}
    {P : β → Prop} (hg : ∀ bs b rest, dg bs = .ok (b, rest) → P b) (bs : Bytes) (p : α × β)
    (rest : Bytes) (h : decPair df dg bs = .ok (p, rest)) : P p.2 := by
  obtain ⟨⟨a, b1⟩, h1, h2⟩ := Out.bind_eq_ok.mp h
  obtain ⟨⟨b, b2⟩, h3, h4⟩ := Out.bind_eq_ok.mp h2
  cases h4
  exact hg _ _ _ h3

theorem decVec_length {d : Bytes → Out CErr (α × Bytes)} {w lo : Nat}
    {l : List α} {bs rest : Bytes} (h : decVec w lo d bs = .ok (l, rest)) :
    lo ≤ l.length ∧ l.length < 256 ^ w := by
  obtain ⟨⟨n, b1⟩, h1, h2⟩ := Out.bind_eq_ok.mp h
  obtain ⟨⟨l', b2⟩, h3, h4⟩ := Out.bind_eq_ok.mp h2
  obtain ⟨l'', h5, h6⟩ := Out.bind_eq_ok.mp h4
  cases h6
  have := decN_length h3
  have h7 := (decNat_ok h1).2
  unfold checkMin at h5
  split at h5
  · cases h5
    omega
  · cases h5

theorem variantInsert_length (m : List (Variant × α)) (v : Variant) (a : α) :
    (variantInsert m v a).length ≤ m.length + 1 := by
  induction m with
  | nil => simp [variantInsert]
  | cons p m ih =>
    unfold variantInsert
    split <;> simp only [List.length_cons] <;> omega

theorem unionOfFields_length (m : OMap Byte (Name × α)) : (unionOfFields m).length ≤ m.length := by
  unfold unionOfFields
  have : ∀ (m : List (Byte × Name × α)) (acc : List (Variant × α)),
      (m.foldl (fun acc e => variantInsert acc ⟨e.2.1, e.1⟩ e.2.2) acc).length ≤
        acc.length + m.length := by
    intro m
    induction m with
    | nil => intro acc; simp
    | cons e m ih =>
      intro acc
      have h1 := ih (variantInsert acc ⟨e.2.1, e.1⟩ e.2.2)
      have h2 := variantInsert_length acc ⟨e.2.1, e.1⟩ e.2.2
      simp only [List.foldl_cons, List.length_cons]
      omega
  simpa using this m []

theorem decTy_sized {d : Bytes → Out CErr (α × Bytes)} {t : Ty α} {bs rest : Bytes}
    (h : decTy d bs = .ok (t, rest)) : t.Sized := by
  obtain ⟨⟨tag, b1⟩, h1, h2⟩ := Out.bind_eq_ok.mp h
  dsimp only at h2
  split at h2
  · obtain ⟨⟨c, b2⟩, h3, h4⟩ := Out.bind_eq_ok.mp h2
    cases h4; trivial
  · cases h2; trivial
  · obtain ⟨⟨vs, b2⟩, h3, h4⟩ := Out.bind_eq_ok.mp h2
    cases h4
    have := decSet_length h3
    exact ⟨this.1, by have := this.2; dsimp only; omega⟩
  · obtain ⟨⟨vs, b2⟩, h3, h4⟩ := Out.bind_eq_ok.mp h2
    cases h4
    obtain ⟨⟨m, b3⟩, h5, h6⟩ := Out.bind_eq_ok.mp h3
    obtain ⟨vs', h7, h8⟩ := Out.bind_eq_ok.mp h6
    cases h8
    have k1 := decSet_length h5
    have k2 := unionOfFields_length m
    unfold checkMin at h7
    split at h7
    · cases h7
      rename_i hl
      exact ⟨hl, by have := k1.2; dsimp only at this k2 ⊢; omega⟩
    · cases h7
  · obtain ⟨⟨vs, b2⟩, h3, h4⟩ := Out.bind_eq_ok.mp h2
    cases h4
    have := decVec_length h3
    exact ⟨this.1, by have := this.2; dsimp only; omega⟩
  · obtain ⟨⟨vs, b2⟩, h3, h4⟩ := Out.bind_eq_ok.mp h2
    cases h4
    have := decVec_length h3
    exact ⟨this.1, by have := this.2; dsimp only; omega⟩
  · obtain ⟨⟨ty, b2⟩, h3, h4⟩ := Out.bind_eq_ok.mp h2
    obtain ⟨⟨len, b3⟩, h5, h6⟩ := Out.bind_eq_ok.mp h4
    cases h6; trivial
  · obtain ⟨⟨ty, b2⟩, h3, h4⟩ := Out.bind_eq_ok.mp h2
    obtain ⟨⟨len, b3⟩, h5, h6⟩ := Out.bind_eq_ok.mp h4
    cases h6; trivial
  · obtain ⟨⟨ty, b2⟩, h3, h4⟩ := Out.bind_eq_ok.mp h2
    obtain ⟨⟨len, b3⟩, h5, h6⟩ := Out.bind_eq_ok.mp h4
    cases h6; trivial
  · obtain ⟨⟨ty, b2⟩, h3, h4⟩ := Out.bind_eq_ok.mp h2
    obtain ⟨⟨k, b3⟩, h5, h6⟩ := Out.bind_eq_ok.mp h4
    obtain ⟨⟨len, b4⟩, h7, h8⟩ := Out.bind_eq_ok.mp h6
    cases h8; trivial
  · cases h2

end

end Verif
