import Verif.Lemmas.TyCodecRd
import Verif.Lemmas.StlValues
import Verif.Spec.LayoutCodec

/-! # Reading and writing layouts -/

namespace Verif

/-! ### What is written is read -/

theorem decItemCase_append (c : Ty.ItemCase) : ReadsBack Ty.ItemCase.encode decItemCase c := by
  intro rest
  cases c with
  | unnamedField p => rfl
  | namedField p n =>
    show (decName (encName n ++ rest) >>= _) = _
    rw [decName_append]; rfl
  | unionVariant p n =>
    show (decName (encName n ++ rest) >>= _) = _
    rw [decName_append]; rfl
  | _ => rfl

theorem decNestedCase_append (c : NestedCase) : ReadsBack NestedCase.encode decNestedCase c := by
  intro rest
  cases c with
  | newType f =>
    show (decOption decFqn (encOption encFqn f ++ rest) >>= _) = _
    rw [decOption_append decFqn_append]; rfl
  | asciiStr f =>
    show (decOption decFqn (encOption encFqn f ++ rest) >>= _) = _
    rw [decOption_append decFqn_append]; rfl
  | rStr f g s =>
    show (decOption decFqn (encOption encFqn f ++ encOption encFqn g ++ encSizing s ++ rest) >>= _) = _
    rw [List.append_assoc, List.append_assoc, decOption_append decFqn_append, Out.bind_ok]
    dsimp only
    rw [decOption_append decFqn_append, Out.bind_ok]
    dsimp only
    rw [decSizing_append]; rfl
  | _ => rfl

theorem decTypeInfo_append {i : TypeInfo} (h : i.Held) : ReadsBack TypeInfo.encode decTypeInfo i := by
  intro rest
  have hd := i.depth.isLt
  have hn := h.nested
  unfold TypeInfo.encode decTypeInfo
  simp only [List.append_assoc]
  rw [decNat_append (by omega), Out.bind_ok]
  dsimp only
  rw [semTy_append h.ty, Out.bind_ok]
  dsimp only
  rw [decOption_append decFqn_append, Out.bind_ok]
  dsimp only
  rw [decOption_append decItemCase_append, Out.bind_ok]
  dsimp only
  rw [decVec_append (fun c _ => decNestedCase_append c) (Nat.zero_le _) (by omega), Out.bind_ok]
  simp

theorem decLayout_append {l : List TypeInfo} (h : LayoutHeld l) : ReadsBack encLayout decLayout l :=
  decVec_append (fun i hi => decTypeInfo_append (h.items i hi)) (Nat.zero_le _) (by have := h.few; omega)

/-! ### What is read is what would be written -/

theorem decItemCase_ok : Canonical Ty.ItemCase.encode decItemCase := by
  intro bs c rest h
  obtain ⟨⟨tag, b1⟩, h1, h2⟩ := Out.bind_eq_ok.mp h
  rw [decByte_ok h1]
  dsimp only at h2
  split at h2
  · rename_i hn
    rw [byte_of_toNat hn]
    obtain ⟨⟨p, b2⟩, h3, h4⟩ := Out.bind_eq_ok.mp h2
    cases h4
    rw [decByte_ok h3]; rfl
  · rename_i hn
    rw [byte_of_toNat hn]
    obtain ⟨⟨p, b2⟩, h3, h4⟩ := Out.bind_eq_ok.mp h2
    obtain ⟨⟨n, b3⟩, h5, h6⟩ := Out.bind_eq_ok.mp h4
    cases h6
    dsimp only at h5 ⊢
    rw [decByte_ok h3, decName_ok _ _ _ h5]; rfl
  · rename_i hn
    rw [byte_of_toNat hn]
    obtain ⟨⟨p, b2⟩, h3, h4⟩ := Out.bind_eq_ok.mp h2
    obtain ⟨⟨n, b3⟩, h5, h6⟩ := Out.bind_eq_ok.mp h4
    cases h6
    dsimp only at h5 ⊢
    rw [decByte_ok h3, decName_ok _ _ _ h5]; rfl
  all_goals first
    | (rename_i hn; rw [byte_of_toNat hn]; cases h2; rfl)
    | cases h2

theorem decNestedCase_ok : Canonical NestedCase.encode decNestedCase := by
  intro bs c rest h
  obtain ⟨⟨tag, b1⟩, h1, h2⟩ := Out.bind_eq_ok.mp h
  rw [decByte_ok h1]
  dsimp only at h2
  split at h2
  · rename_i hn
    rw [byte_of_toNat hn]
    obtain ⟨⟨f, b2⟩, h3, h4⟩ := Out.bind_eq_ok.mp h2
    cases h4
    rw [decOption_ok decFqn_ok _ _ _ h3]; rfl
  · rename_i hn; rw [byte_of_toNat hn]; cases h2; rfl
  · rename_i hn; rw [byte_of_toNat hn]; cases h2; rfl
  · rename_i hn
    rw [byte_of_toNat hn]
    obtain ⟨⟨f, b2⟩, h3, h4⟩ := Out.bind_eq_ok.mp h2
    cases h4
    rw [decOption_ok decFqn_ok _ _ _ h3]; rfl
  · rename_i hn; rw [byte_of_toNat hn]; cases h2; rfl
  · rename_i hn
    rw [byte_of_toNat hn]
    obtain ⟨⟨f, b2⟩, h3, h4⟩ := Out.bind_eq_ok.mp h2
    obtain ⟨⟨g, b3⟩, h5, h6⟩ := Out.bind_eq_ok.mp h4
    obtain ⟨⟨s, b4⟩, h7, h8⟩ := Out.bind_eq_ok.mp h6
    cases h8
    dsimp only at h5 h7 ⊢
    rw [decOption_ok decFqn_ok _ _ _ h3, decOption_ok decFqn_ok _ _ _ h5, decSizing_ok _ _ _ h7]
    simp [NestedCase.encode]
  · cases h2

theorem decTypeInfo_near : Parsed (Near TypeInfo.encode TypeInfo.Held) decTypeInfo := by
  intro bs i rest h
  obtain ⟨⟨d, b1⟩, h1, h2⟩ := Out.bind_eq_ok.mp h
  obtain ⟨⟨t, b2⟩, h3, h4⟩ := Out.bind_eq_ok.mp h2
  obtain ⟨⟨f, b3⟩, h5, h6⟩ := Out.bind_eq_ok.mp h4
  obtain ⟨⟨c, b4⟩, h7, h8⟩ := Out.bind_eq_ok.mp h6
  obtain ⟨⟨n, b5⟩, h9, h10⟩ := Out.bind_eq_ok.mp h8
  cases h10
  obtain ⟨rfl, hl⟩ := decNat_ok h1
  obtain ⟨e, rfl, he⟩ := semTy_near _ _ _ h3
  obtain ⟨k, hk, hs⟩ := decVec_parsed decNestedCase_ok.parsed _ _ _ h9
  dsimp only at *
  subst hk
  rw [seqOf_exact hs] at *
  have hd : (BitVec.ofNat 32 d).toNat = d := by simp; omega
  refine ⟨le 4 d ++ e ++ encOption encFqn f ++ encOption Ty.ItemCase.encode c ++ encSeq 1 NestedCase.encode n, ?_, fun hw => ?_⟩
  · rw [decOption_ok decFqn_ok _ _ _ h5, decOption_ok decItemCase_ok _ _ _ h7]
    simp
  · rcases he hw.ty with he | he
    · left; rw [TypeInfo.encode, hd, he]
    · right
      simp only [TypeInfo.encode, List.length_append, hd]
      omega

theorem decLayout_near : Parsed (Near encLayout LayoutHeld) decLayout :=
  (decVec_parsed decTypeInfo_near).mono fun _ _ h hw => seqOf_near h hw.items

/-- Whatever is read is counted correctly, and only the types may be ill-formed. -/
theorem decLayout_held {bs rest : Bytes} {l : List TypeInfo} (h : decLayout bs = .ok (l, rest)) :
    l.length < 2 ^ 32 ∧ ∀ i ∈ l, i.nested.length ≤ 255 := by
  have key : Parsed (fun (i : TypeInfo) _ => i.nested.length ≤ 255) decTypeInfo := by
    intro bs i rest h
    obtain ⟨c, hc, -⟩ := decTypeInfo_near _ _ _ h
    refine ⟨c, hc, ?_⟩
    obtain ⟨⟨d, b1⟩, h1, h2⟩ := Out.bind_eq_ok.mp h
    obtain ⟨⟨t, b2⟩, h3, h4⟩ := Out.bind_eq_ok.mp h2
    obtain ⟨⟨f, b3⟩, h5, h6⟩ := Out.bind_eq_ok.mp h4
    obtain ⟨⟨c, b4⟩, h7, h8⟩ := Out.bind_eq_ok.mp h6
    obtain ⟨⟨n, b5⟩, h9, h10⟩ := Out.bind_eq_ok.mp h8
    cases h10
    obtain ⟨⟨m, b6⟩, k1, k2⟩ := Out.bind_eq_ok.mp h9
    obtain ⟨⟨n', b7⟩, k3, k4⟩ := Out.bind_eq_ok.mp k2
    obtain ⟨n'', k5, k6⟩ := Out.bind_eq_ok.mp k4
    unfold checkMin at k5
    split at k5
    · cases k5; cases k6
      have := (decNat_ok k1).2
      have := decN_length k3
      dsimp only
      omega
    · cases k5
  obtain ⟨c, -, cs, -, ha⟩ := decVec_parsed key _ _ _ h
  constructor
  · obtain ⟨⟨m, b6⟩, k1, k2⟩ := Out.bind_eq_ok.mp h
    obtain ⟨⟨n', b7⟩, k3, k4⟩ := Out.bind_eq_ok.mp k2
    obtain ⟨n'', k5, k6⟩ := Out.bind_eq_ok.mp k4
    unfold checkMin at k5
    split at k5
    · cases k5; cases k6
      have := (decNat_ok k1).2
      have := decN_length k3
      omega
    · cases k5
  · clear h
    induction l generalizing cs with
    | nil => simp
    | cons i l ih =>
      cases cs with
      | nil => exact ha.elim
      | cons c cs =>
        intro j hj
        rcases List.mem_cons.mp hj with rfl | hj
        · exact ha.1
        · exact ih cs ha.2 j hj

/-! ### Readers return and use only what they consume -/

theorem decItemCase_prefix : PrefixOnly decItemCase := by
  refine decByte_prefix.bind fun tag => ?_
  dsimp only
  split
  · follow_prefix [decByte_prefix]
  · follow_prefix [decByte_prefix, decName_prefix]
  · follow_prefix [decByte_prefix, decName_prefix]
  all_goals first
    | exact PrefixOnly.pure _
    | exact PrefixOnly.fail fun _ _ => by simp

theorem decNestedCase_prefix : PrefixOnly decNestedCase := by
  refine decByte_prefix.bind fun tag => ?_
  dsimp only
  split
  · follow_prefix [decOption_prefix decFqn_prefix]
  · exact PrefixOnly.pure _
  · exact PrefixOnly.pure _
  · follow_prefix [decOption_prefix decFqn_prefix]
  · exact PrefixOnly.pure _
  · follow_prefix [decOption_prefix decFqn_prefix, decSizing_prefix]
  · exact PrefixOnly.fail fun _ _ => by simp

theorem decTypeInfo_prefix : PrefixOnly decTypeInfo := by
  unfold decTypeInfo
  follow_prefix [decNat_prefix 4, decTy_prefix decId_prefix, decOption_prefix decFqn_prefix,
    decOption_prefix decItemCase_prefix, decVec_prefix decNestedCase_prefix _ _]

theorem decLayout_prefix : PrefixOnly decLayout := decVec_prefix decTypeInfo_prefix _ _

section
variable {k : Nat}

theorem decItemCase_returns : ReturnsBelow k decItemCase := by
  refine decByte_returns.bind fun tag => ?_
  dsimp only
  split
  · follow_returns [decByte_returns]
  · follow_returns [decByte_returns, decName_returns]
  · follow_returns [decByte_returns, decName_returns]
  all_goals first
    | exact ReturnsBelow.pure _
    | exact ReturnsBelow.fail fun _ => ⟨_, rfl⟩

theorem decNestedCase_returns : ReturnsBelow k decNestedCase := by
  refine decByte_returns.bind fun tag => ?_
  dsimp only
  split
  · follow_returns [decOption_returns decFqn_returns]
  · exact ReturnsBelow.pure _
  · exact ReturnsBelow.pure _
  · follow_returns [decOption_returns decFqn_returns]
  · exact ReturnsBelow.pure _
  · follow_returns [decOption_returns decFqn_returns, decSizing_returns]
  · exact ReturnsBelow.fail fun _ => ⟨_, rfl⟩

theorem decTypeInfo_returns : ReturnsBelow k decTypeInfo := by
  unfold decTypeInfo
  follow_returns [decNat_returns 4, decTy_returns decId_returns, decOption_returns decFqn_returns,
    decOption_returns decItemCase_returns, decVec_returns decNestedCase_returns _ _]

theorem decLayout_returns : ReturnsBelow k decLayout := decVec_returns decTypeInfo_returns _ _
end

/-! ### Layouts as values -/

namespace Stl

theorem u32_writes (x : BitVec 32) : u32.Writes (natVal x.toNat) (le 4 x.toNat) := by
  have hx := x.isLt
  have e : (BitVec.ofNat 64 x.toNat).toNat = x.toNat := by simp; omega
  have h : PrimWrites (BitVec.ofNat 8 4) (natVal x.toNat) (le 4 (BitVec.ofNat 64 x.toNat).toNat) :=
    .uint (by omega) (by omega) (by omega)
  rwa [e] at h

theorem opt_writes {α : Type} {t : RTy} {f : α → Val} {g : α → Bytes} {o : Option α}
    (h : ∀ a, o = some a → t.Writes (f a) (g a)) : (option t).Writes (optVal f o) (encOption g o) := by
  cases o with
  | none => exact RTy.writesVariants_mem (x := (⟨n!"none", 0⟩, payload [])) (List.mem_cons_self ..) payload0_writes
  | some a =>
    exact RTy.writesVariants_mem (x := (⟨n!"some", 1⟩, payload [t])) (List.mem_cons_of_mem _ (List.mem_cons_self ..))
      (payload1_writes (h a rfl))

theorem optFqn_writes {o : Option TypeFqn} (h : FqnCased o) : optFqn.Writes (optVal TypeFqn.val o) (encOption encFqn o) :=
  opt_writes fun f hf => rec_writes (capital_writes (h f hf).1) (capital_writes (h f hf).2)

theorem itemCase_writes {c : Ty.ItemCase} (h : c.Small) : itemCase.Writes c.val c.encode := by
  cases c with
  | unnamedField p => exact union_writes 0 rfl (payload1_writes (u8_writes p))
  | namedField p n => exact union_writes 1 rfl (payload2_writes (u8_writes p) (small_writes h))
  | unionVariant p n => exact union_writes 2 rfl (payload2_writes (u8_writes p) (small_writes h))
  | arrayItem => exact union_writes 3 rfl payload0_writes
  | listItem => exact union_writes 4 rfl payload0_writes
  | setItem => exact union_writes 5 rfl payload0_writes
  | mapKey => exact union_writes 6 rfl payload0_writes
  | mapValue => exact union_writes 7 rfl payload0_writes

theorem nestedCase_writes {c : NestedCase} (h : c.Cased) : nestedCase.Writes c.val c.encode := by
  cases c with
  | newType f => exact union_writes 0 rfl (payload1_writes (optFqn_writes h))
  | option => exact union_writes 1 rfl payload0_writes
  | byteStr => exact union_writes 2 rfl payload0_writes
  | asciiStr f => exact union_writes 3 rfl (payload1_writes (optFqn_writes h))
  | uniStr => exact union_writes 4 rfl payload0_writes
  | rStr f g s => exact union_writes 5 rfl (payload3_writes (optFqn_writes h.1) (optFqn_writes h.2) (sizing_writes s))

theorem typeInfo_writes {i : TypeInfo} (hw : i.Held) (hc : i.Cased) : typeInfo.Writes i.val i.encode := by
  have h2 : tySemId.Writes (i.ty.val Id32.val) (i.ty.encode encId) :=
    ty_writes _ rfl rfl hw.ty hc.ty fun r _ => semId_writes r
  have h4 : (option itemCase).Writes (optVal Ty.ItemCase.val i.item) (encOption Ty.ItemCase.encode i.item) :=
    opt_writes fun c h => itemCase_writes (hc.item c h)
  have h5 : nestedList.Writes (.list (i.nested.map NestedCase.val)) (encSeq 1 NestedCase.encode i.nested) :=
    list_writes (sz := ⟨0, 255⟩) rfl rfl rfl ⟨Nat.zero_le _, hw.nested⟩ fun c h => nestedCase_writes (hc.nested c h)
  refine ⟨[(some n!"depth", _), (some n!"ty", _), (some n!"fqn", _), (some n!"item", _), (some n!"nested", _)], rfl, ?_⟩
  have := fields_cons (n := some n!"depth") (u32_writes i.depth) (fields_cons (n := some n!"ty") h2
    (fields_cons (n := some n!"fqn") (optFqn_writes hc.fqn) (fields_cons (n := some n!"item") h4
      (fields_cons (n := some n!"nested") h5 fields_nil))))
  rw [List.append_nil, ← List.append_assoc, ← List.append_assoc, ← List.append_assoc] at this
  exact this

theorem memoryLayout_writes {l : List TypeInfo} (hw : LayoutHeld l) (hc : ∀ i ∈ l, i.Cased) :
    memoryLayout.Writes (layoutVal l) (encLayout l) := by
  have h : infoList.Writes (.list (l.map TypeInfo.val)) (encSeq 4 TypeInfo.encode l) :=
    list_writes (sz := ⟨0, 0xffffffff⟩) rfl rfl rfl ⟨Nat.zero_le _, by have := hw.few; show _ ≤ 4294967295; omega⟩
      fun i hi => typeInfo_writes (hw.items i hi) (hc i hi)
  refine ⟨[(some n!"items", _)], rfl, ?_⟩
  have := fields_cons (n := some n!"items") h fields_nil
  rw [List.append_nil] at this
  exact this

theorem opt_tidy {α : Type} {f : α → Val} (h : ∀ a, (f a).Tidy) (o : Option α) : (optVal f o).Tidy := by
  cases o with
  | none => exact .union .unit
  | some a => exact .union (tidy1 (h a))

theorem fqn_tidy (f : TypeFqn) : f.val.Tidy := rec_tidy (name_tidy _) (name_tidy _)

theorem itemCase_tidy (c : Ty.ItemCase) : c.val.Tidy := by
  cases c with
  | unnamedField p => exact .union (tidy1 (.num _))
  | namedField p n => exact .union (tidy2 (.num _) (name_tidy _))
  | unionVariant p n => exact .union (tidy2 (.num _) (name_tidy _))
  | _ => exact .union .unit

theorem nestedCase_tidy (c : NestedCase) : c.val.Tidy := by
  cases c with
  | newType f => exact .union (tidy1 (opt_tidy fqn_tidy _))
  | asciiStr f => exact .union (tidy1 (opt_tidy fqn_tidy _))
  | rStr f g s => exact .union (tidy3 (opt_tidy fqn_tidy _) (opt_tidy fqn_tidy _) (sizing_tidy _))
  | _ => exact .union .unit

theorem typeInfo_tidy {i : TypeInfo} (h : i.ty.WF) : i.val.Tidy := by
  refine .struct fun x hx => ?_
  simp only [List.mem_cons, List.not_mem_nil, or_false] at hx
  rcases hx with rfl | rfl | rfl | rfl | rfl
  · exact .num _
  · exact ty_tidy h fun r _ => id_tidy r
  · exact opt_tidy fqn_tidy _
  · exact opt_tidy itemCase_tidy _
  · refine .list fun v hv => ?_
    obtain ⟨c, -, rfl⟩ := List.mem_map.mp hv
    exact nestedCase_tidy c

theorem memoryLayout_tidy {l : List TypeInfo} (hw : LayoutHeld l) : (layoutVal l).Tidy := by
  refine .struct fun x hx => ?_
  rw [List.mem_singleton.mp hx]
  refine .list fun v hv => ?_
  obtain ⟨i, hi, rfl⟩ := List.mem_map.mp hv
  exact typeInfo_tidy (hw.items i hi).ty

end Stl
end Verif
