import Verif.Lemmas.TyCodecRd
import Verif.Lemmas.LayoutCodec
import Verif.Lemmas.Utf8
import Verif.Spec.PathCodec

/-! # Reading and writing paths and versions -/

namespace Verif

theorem Faithful.of_parsed {α : Type} {enc : α → Bytes} {dec : Bytes → Out CErr (α × Bytes)} {P : α → Prop}
    (h1 : ∀ a, P a → ReadsBack enc dec a) (h2 : Parsed (fun a c => c = enc a ∧ P a) dec) (h3 : PrefixOnly dec)
    (h4 : ∀ k, ReturnsBelow k dec) : Faithful enc dec P where
  reads := h1
  canonical := fun bs a rest h => by obtain ⟨c, rfl, rfl, -⟩ := h2 bs a rest h; rfl
  only := fun bs a rest h => by obtain ⟨c, -, -, h⟩ := h2 bs a rest h; exact h
  consumed := h3
  returns := h4

theorem Faithful.parsed {α : Type} {enc : α → Bytes} {dec : Bytes → Out CErr (α × Bytes)} {P : α → Prop}
    (h : Faithful enc dec P) : Parsed (fun a c => c = enc a ∧ P a) dec := fun bs a rest hd =>
  ⟨enc a, h.canonical bs a rest hd, rfl, h.only bs a rest hd⟩

theorem decNat_faithful (w : Nat) : Faithful (le w) (decNat w) (· < 256 ^ w) := by
  refine .of_parsed (fun n hn rest => decNat_append hn rest) (fun bs n rest h => ?_) (decNat_prefix w)
    (fun k => decNat_returns w)
  obtain ⟨h1, h2⟩ := decNat_ok h
  exact ⟨le w n, h1, rfl, h2⟩

theorem decName_faithful : Faithful encName decName fun _ => True :=
  .of_parsed (fun n _ => decName_append n) (fun bs n rest h => ⟨_, decName_ok bs n rest h, rfl, trivial⟩) decName_prefix
    (fun _ => decName_returns)

theorem decVec_faithful {α : Type} {enc : α → Bytes} {dec : Bytes → Out CErr (α × Bytes)} {P : α → Prop} {w : Nat}
    (h : Faithful enc dec P) :
    Faithful (encSeq w enc) (decVec w 0 dec) fun l => l.length < 256 ^ w ∧ ∀ a ∈ l, P a := by
  refine .of_parsed (fun l hl => decVec_append (fun a ha => h.reads a (hl.2 a ha)) (Nat.zero_le _) hl.1)
    (fun bs l rest hd => ?_) (decVec_prefix h.consumed _ _) (fun k => decVec_returns (h.returns k) _ _)
  obtain ⟨c, hc, hs⟩ := decVec_parsed h.canonical.parsed _ _ _ hd
  refine ⟨c, hc, seqOf_exact hs, ?_, ?_⟩
  · obtain ⟨⟨m, b6⟩, k1, k2⟩ := Out.bind_eq_ok.mp hd
    obtain ⟨⟨n', b7⟩, k3, k4⟩ := Out.bind_eq_ok.mp k2
    obtain ⟨n'', k5, k6⟩ := Out.bind_eq_ok.mp k4
    unfold checkMin at k5
    split at k5
    · cases k5; cases k6
      have := (decNat_ok k1).2
      have := decN_length k3
      omega
    · cases k5
  · obtain ⟨c, -, cs, -, ha⟩ := decVec_parsed h.parsed _ _ _ hd
    clear hd hs hc
    induction l generalizing cs with
    | nil => simp
    | cons i l ih =>
      cases cs with
      | nil => exact ha.elim
      | cons c cs =>
        intro j hj
        rcases List.mem_cons.mp hj with rfl | hj
        · exact ha.1.2
        · exact ih cs ha.2 j hj

theorem Faithful.mono {α : Type} {enc : α → Bytes} {dec : Bytes → Out CErr (α × Bytes)} {P Q : α → Prop}
    (h : Faithful enc dec P) (e : ∀ a, P a ↔ Q a) : Faithful enc dec Q :=
  (funext fun a => propext (e a) : P = Q) ▸ h

/-! ### Elements -/

theorem decBlob_faithful : Faithful encBlob decBlob fun b => b.length ≤ 255 := by
  refine .of_parsed (fun b hb rest => ?_) (fun bs b rest h => ?_) ?_ (fun k => ?_)
  · unfold encBlob decBlob
    rw [List.append_assoc, decNat_append (by omega), Out.bind_ok]
    exact decRaw_append b rest
  · obtain ⟨⟨n, b1⟩, h1, h2⟩ := Out.bind_eq_ok.mp h
    obtain ⟨rfl, hn⟩ := decNat_ok h1
    obtain ⟨h3, h4⟩ := decRaw_ok h2
    subst h3
    refine ⟨encBlob b, by simp [encBlob, h4], rfl, by omega⟩
  · unfold decBlob
    follow_prefix [decNat_prefix 1, decRaw_prefix _]
  · unfold decBlob
    follow_returns [decNat_returns 1, decRaw_returns _]

theorem decText_faithful : Faithful encBlob decText fun b => b.length ≤ 255 ∧ utf8Valid b = true := by
  refine .of_parsed (fun b hb rest => ?_) (fun bs b rest h => ?_) ?_ (fun k => ?_)
  · unfold decText
    rw [decBlob_faithful.reads b hb.1, Out.bind_ok]
    simp [hb.2]
  · obtain ⟨⟨s, b1⟩, h1, h2⟩ := Out.bind_eq_ok.mp h
    dsimp only at h2
    split at h2
    · cases h2
      exact ⟨_, decBlob_faithful.canonical _ _ _ h1, rfl, decBlob_faithful.only _ _ _ h1, by assumption⟩
    · cases h2
  · unfold decText
    refine decBlob_faithful.consumed.bind fun s => ?_
    dsimp only
    split
    · exact PrefixOnly.pure _
    · exact PrefixOnly.fail fun _ _ => by simp
  · unfold decText
    refine (decBlob_faithful.returns k).bind fun s => ?_
    dsimp only
    split
    · exact ReturnsBelow.pure _
    · exact ReturnsBelow.fail fun _ => ⟨_, rfl⟩

/-! ### Tagged unions -/

/-- What is read after a tag. -/
structure Branch {α : Type} (enc : α → Bytes) (P : α → Prop) (tag : Byte) (body : Bytes → Out CErr (α × Bytes)) : Prop where
  reads : ∀ a c, enc a = tag :: c → P a → ∀ rest, body (c ++ rest) = .ok (a, rest)
  parsed : Parsed (fun a c => enc a = tag :: c ∧ P a) body
  consumed : PrefixOnly body
  returns : ∀ k, ReturnsBelow k body

theorem tagged_faithful {α : Type} {enc : α → Bytes} {P : α → Prop} {body : Byte × Bytes → Out CErr (α × Bytes)}
    (he : ∀ a, ∃ tag c, enc a = tag :: c) (h : ∀ tag, Branch enc P tag fun bs => body (tag, bs)) :
    Faithful enc (fun bs => decByte bs >>= body) P := by
  refine .of_parsed (fun a ha rest => ?_) (fun bs a rest hd => ?_) (decByte_prefix.bind fun tag => (h tag).consumed)
    (fun k => decByte_returns.bind fun tag => (h tag).returns k)
  · obtain ⟨tag, c, hc⟩ := he a
    rw [hc]
    exact (h tag).reads a c hc ha rest
  · obtain ⟨⟨tag, b1⟩, h1, h2⟩ := Out.bind_eq_ok.mp hd
    obtain ⟨c, rfl, hc, hp⟩ := (h tag).parsed _ _ _ h2
    exact ⟨tag :: c, decByte_ok h1, hc.symm, hp⟩

theorem Branch.map {α β : Type} {enc : α → Bytes} {P : α → Prop} {tag : Byte} {e : β → Bytes}
    {d : Bytes → Out CErr (β × Bytes)} {Q : β → Prop} (f : β → α) (h : Faithful e d Q)
    (hf : ∀ x, Q x → enc (f x) = tag :: e x ∧ P (f x))
    (hs : ∀ a c, enc a = tag :: c → P a → ∃ x, a = f x ∧ Q x) :
    Branch enc P tag fun bs => d bs >>= fun r => pure (f r.1, r.2) where
  reads := fun a c hc ha rest => by
    obtain ⟨x, rfl, hx⟩ := hs a c hc ha
    rw [(hf x hx).1] at hc
    cases hc
    rw [h.reads x hx rest]; rfl
  parsed := fun bs a rest hd => by
    obtain ⟨⟨x, b1⟩, h1, h2⟩ := Out.bind_eq_ok.mp hd
    cases h2
    have hx := h.only _ _ _ h1
    exact ⟨e x, h.canonical _ _ _ h1, hf x hx⟩
  consumed := h.consumed.bind fun x => PrefixOnly.pure (f x)
  returns := fun k => (h.returns k).bind fun x => ReturnsBelow.pure (f x)

theorem Branch.unit {α : Type} {enc : α → Bytes} {P : α → Prop} {tag : Byte} (a : α) (h : enc a = [tag]) (ha : P a)
    (hs : ∀ x c, enc x = tag :: c → x = a) : Branch enc P tag fun bs => .ok (a, bs) where
  reads := fun x c hc _ rest => by
    obtain rfl := hs x c hc
    rw [h] at hc
    cases hc
    rfl
  parsed := fun bs x rest hd => by cases hd; exact ⟨[], rfl, h, ha⟩
  consumed := .pure _
  returns := fun _ => .pure _

theorem Branch.fail {α : Type} {enc : α → Bytes} {P : α → Prop} {tag : Byte} (e : CErr)
    (hs : ∀ x c, enc x ≠ tag :: c) : Branch enc P tag fun _ => .err e where
  reads := fun x c hc => absurd hc (hs x c)
  parsed := fun _ _ _ hd => by cases hd
  consumed := .fail fun _ _ => by simp
  returns := fun _ => .fail fun _ => ⟨_, rfl⟩

/-- Numbers as bit vectors. -/
theorem decBits_branch {α : Type} {enc : α → Bytes} {P : α → Prop} {tag : Byte} {w n : Nat} (hw : 256 ^ w = 2 ^ n)
    (f : BitVec n → α) (hf : ∀ x, enc (f x) = tag :: le w x.toNat ∧ P (f x))
    (hs : ∀ a c, enc a = tag :: c → P a → ∃ x, a = f x) :
    Branch enc P tag fun bs => decNat w bs >>= fun r => pure (f (BitVec.ofNat n r.1), r.2) := by
  refine Branch.map (fun k => f (BitVec.ofNat n k)) (decNat_faithful w) (fun x hx => ?_) (fun a c hc ha => ?_)
  · have h := hf (BitVec.ofNat n x)
    rwa [BitVec.toNat_ofNat, Nat.mod_eq_of_lt (by omega)] at h
  · obtain ⟨x, rfl⟩ := hs a c hc ha
    refine ⟨x.toNat, by simp, ?_⟩
    have := x.isLt
    omega

theorem decByte_faithful : Faithful (fun b : Byte => [b]) decByte fun _ => True :=
  .of_parsed (fun _ _ _ => rfl) (fun _ b _ h => ⟨[b], decByte_ok h, rfl, trivial⟩) decByte_prefix fun _ => decByte_returns

/-! ### Paths -/

theorem decKeyStep_faithful : Faithful KeyStep.encode decKeyStep KeyStep.Held := by
  refine tagged_faithful (fun a => by cases a <;> exact ⟨_, _, rfl⟩) fun tag => ?_
  dsimp only
  split
  · rename_i h
    obtain rfl := byte_of_toNat h
    refine decBits_branch (by decide) KeyStep.number (fun x => ⟨rfl, trivial⟩) fun a c hc _ => ?_
    cases a <;> first | exact ⟨_, rfl⟩ | cases hc
  · rename_i h
    obtain rfl := byte_of_toNat h
    refine Branch.map KeyStep.blob decBlob_faithful (fun x hx => ⟨rfl, hx⟩) fun a c hc ha => ?_
    cases a <;> first | exact ⟨_, rfl, ha⟩ | cases hc
  · rename_i h
    obtain rfl := byte_of_toNat h
    refine Branch.map KeyStep.string decText_faithful (fun x hx => ⟨rfl, hx⟩) fun a c hc ha => ?_
    cases a <;> first | exact ⟨_, rfl, ha⟩ | cases hc
  · rename_i h0 h1 h2
    refine Branch.fail _ fun x c hc => ?_
    cases x <;> cases hc <;> first | exact h0 rfl | exact h1 rfl | exact h2 rfl

theorem decVStep_faithful : Faithful VStep.encode decVStep VStep.Held := by
  refine tagged_faithful (fun a => by cases a <;> exact ⟨_, _, rfl⟩) fun tag => ?_
  dsimp only
  split
  · rename_i h
    obtain rfl := byte_of_toNat h
    refine Branch.map VStep.namedField decName_faithful (fun x hx => ⟨rfl, hx⟩) fun a c hc ha => ?_
    cases a <;> first | exact ⟨_, rfl, trivial⟩ | cases hc
  · rename_i h
    obtain rfl := byte_of_toNat h
    refine Branch.map VStep.unnamedField decByte_faithful (fun x hx => ⟨rfl, hx⟩) fun a c hc ha => ?_
    cases a <;> first | exact ⟨_, rfl, trivial⟩ | cases hc
  · rename_i h
    obtain rfl := byte_of_toNat h
    refine decBits_branch (by decide) VStep.index (fun x => ⟨rfl, trivial⟩) fun a c hc _ => ?_
    cases a <;> first | exact ⟨_, rfl⟩ | cases hc
  · rename_i h
    obtain rfl := byte_of_toNat h
    refine Branch.map VStep.key decKeyStep_faithful (fun x hx => ⟨rfl, hx⟩) fun a c hc ha => ?_
    cases a <;> first | exact ⟨_, rfl, ha⟩ | cases hc
  · rename_i h0 h1 h2 h3
    refine Branch.fail _ fun x c hc => ?_
    cases x <;> cases hc <;> first | exact h0 rfl | exact h1 rfl | exact h2 rfl | exact h3 rfl

theorem decVPath_faithful : Faithful encVPath decVPath VPathHeld :=
  (decVec_faithful (w := 2) decVStep_faithful).mono fun l => by
    have : (256 : Nat) ^ 2 = 65536 := by decide
    constructor <;> rintro ⟨h1, h2⟩ <;> exact ⟨by omega, h2⟩

theorem decStep_faithful : Faithful Ty.Step.encode decStep fun _ => True := by
  refine tagged_faithful (fun a => by cases a <;> exact ⟨_, _, rfl⟩) fun tag => ?_
  dsimp only
  split
  · rename_i h
    obtain rfl := byte_of_toNat h
    refine Branch.map Ty.Step.namedField decName_faithful (fun x hx => ⟨rfl, hx⟩) fun a c hc ha => ?_
    cases a <;> first | exact ⟨_, rfl, trivial⟩ | cases hc
  · rename_i h
    obtain rfl := byte_of_toNat h
    refine Branch.map Ty.Step.unnamedField decByte_faithful (fun x hx => ⟨rfl, hx⟩) fun a c hc ha => ?_
    cases a <;> first | exact ⟨_, rfl, trivial⟩ | cases hc
  · rename_i h
    obtain rfl := byte_of_toNat h
    refine Branch.map Ty.Step.variant decName_faithful (fun x hx => ⟨rfl, hx⟩) fun a c hc ha => ?_
    cases a <;> first | exact ⟨_, rfl, trivial⟩ | cases hc
  case h_9 =>
    rename_i h0 h1 h2 h3 h4 h5 h6 h7
    refine Branch.fail _ fun x c hc => ?_
    cases x <;> cases hc <;> first
      | exact h0 rfl | exact h1 rfl | exact h2 rfl | exact h3 rfl | exact h4 rfl | exact h5 rfl | exact h6 rfl | exact h7 rfl
  all_goals
    rename_i h
    obtain rfl := byte_of_toNat h
    refine Branch.unit _ rfl trivial fun x c hc => ?_
    cases x <;> first | rfl | cases hc

theorem decCls_faithful : Faithful Cls.encode decCls fun _ => True := by
  refine tagged_faithful (fun a => by cases a <;> exact ⟨_, _, rfl⟩) fun tag => ?_
  dsimp only
  split
  case h_12 =>
    rename_i h0 h1 h2 h3 h4 h5 h6 h7 h8 h9 h10
    refine Branch.fail _ fun x c hc => ?_
    cases x <;> cases hc <;> first
      | exact h0 rfl | exact h1 rfl | exact h2 rfl | exact h3 rfl | exact h4 rfl | exact h5 rfl | exact h6 rfl
      | exact h7 rfl | exact h8 rfl | exact h9 rfl | exact h10 rfl
  all_goals
    rename_i h
    obtain rfl := byte_of_toNat h
    refine Branch.unit _ rfl trivial fun x c hc => ?_
    cases x <;> first | rfl | cases hc

/-! ### Versions -/

theorem decPreFragment_faithful : Faithful PreFragment.encode decPreFragment fun _ => True := by
  refine tagged_faithful (fun a => by cases a <;> exact ⟨_, _, rfl⟩) fun tag => ?_
  dsimp only
  split
  · rename_i h
    obtain rfl := byte_of_toNat h
    refine Branch.map PreFragment.ident decName_faithful (fun x hx => ⟨rfl, hx⟩) fun a c hc ha => ?_
    cases a <;> first | exact ⟨_, rfl, trivial⟩ | cases hc
  · rename_i h
    obtain rfl := byte_of_toNat h
    refine decBits_branch (by decide) PreFragment.digits (fun x => ⟨rfl, trivial⟩) fun a c hc _ => ?_
    cases a <;> first | exact ⟨_, rfl⟩ | cases hc
  · rename_i h0 h1
    refine Branch.fail _ fun x c hc => ?_
    cases x <;> cases hc <;> first | exact h0 rfl | exact h1 rfl

theorem decBuildFragment_faithful : Faithful BuildFragment.encode decBuildFragment fun _ => True := by
  refine tagged_faithful (fun a => by cases a <;> exact ⟨_, _, rfl⟩) fun tag => ?_
  dsimp only
  split
  · rename_i h
    obtain rfl := byte_of_toNat h
    refine Branch.map BuildFragment.ident decName_faithful (fun x hx => ⟨rfl, hx⟩) fun a c hc ha => ?_
    cases a <;> first | exact ⟨_, rfl, trivial⟩ | cases hc
  · rename_i h
    obtain rfl := byte_of_toNat h
    refine Branch.map BuildFragment.digits decName_faithful (fun x hx => ⟨rfl, hx⟩) fun a c hc ha => ?_
    cases a <;> first | exact ⟨_, rfl, trivial⟩ | cases hc
  · rename_i h0 h1
    refine Branch.fail _ fun x c hc => ?_
    cases x <;> cases hc <;> first | exact h0 rfl | exact h1 rfl

theorem decSemVer_faithful : Faithful SemVer.encode decSemVer SemVer.Held := by
  have hpre := decVec_faithful (w := 1) decPreFragment_faithful
  have hbuild := decVec_faithful (w := 1) decBuildFragment_faithful
  have h1 : (256 : Nat) ^ 1 = 256 := by decide
  have h2 : (256 : Nat) ^ 2 = 2 ^ 16 := by decide
  refine .of_parsed (fun v hv rest => ?_) (fun bs v rest h => ?_) ?_ (fun k => ?_)
  · obtain ⟨a, b, c, p, q⟩ := v
    unfold SemVer.encode decSemVer
    have ha := a.isLt
    have hb := b.isLt
    have hc := c.isLt
    simp only [List.append_assoc]
    rw [decNat_append (by omega), Out.bind_ok]
    dsimp only
    rw [decNat_append (by omega), Out.bind_ok]
    dsimp only
    rw [decNat_append (by omega), Out.bind_ok]
    dsimp only
    rw [hpre.reads p ⟨by have := hv.1; dsimp only at this; omega, fun _ _ => trivial⟩, Out.bind_ok]
    dsimp only
    rw [hbuild.reads q ⟨by have := hv.2; dsimp only at this; omega, fun _ _ => trivial⟩, Out.bind_ok]
    simp
  · obtain ⟨⟨a, b1⟩, k1, h⟩ := Out.bind_eq_ok.mp h
    obtain ⟨⟨b, b2⟩, k2, h⟩ := Out.bind_eq_ok.mp h
    obtain ⟨⟨c, b3⟩, k3, h⟩ := Out.bind_eq_ok.mp h
    obtain ⟨⟨p, b4⟩, k4, h⟩ := Out.bind_eq_ok.mp h
    obtain ⟨⟨q, b5⟩, k5, h⟩ := Out.bind_eq_ok.mp h
    cases h
    obtain ⟨e1, l1⟩ := decNat_ok k1
    obtain ⟨e2, l2⟩ := decNat_ok k2
    obtain ⟨e3, l3⟩ := decNat_ok k3
    have e4 := hpre.canonical _ _ _ k4
    have l4 := (hpre.only _ _ _ k4).1
    have e5 := hbuild.canonical _ _ _ k5
    have l5 := (hbuild.only _ _ _ k5).1
    refine ⟨_, ?_, rfl, by dsimp only; omega, by dsimp only; omega⟩
    dsimp only at *
    simp only [SemVer.encode, BitVec.toNat_ofNat]
    rw [Nat.mod_eq_of_lt (by omega), Nat.mod_eq_of_lt (by omega), Nat.mod_eq_of_lt (by omega), e1, e2, e3, e4, e5]
    simp
  · unfold decSemVer
    follow_prefix [decNat_prefix 2, hpre.consumed, hbuild.consumed]
  · unfold decSemVer
    follow_returns [decNat_returns 2, hpre.returns k, hbuild.returns k]

/-! ### Types with origin -/

theorem decSymTy_append {s : SymTy} (h : s.ty.WF) : ReadsBack SymTy.encode decSymTy s := by
  intro rest
  unfold SymTy.encode decSymTy
  rw [List.append_assoc, decOption_append decFqn_append, Out.bind_ok]
  dsimp only
  rw [semTy_append h, Out.bind_ok]
  rfl

theorem decSymTy_near : Parsed (Near SymTy.encode fun s => s.ty.WF) decSymTy := by
  intro bs s rest h
  obtain ⟨⟨o, b1⟩, h1, h2⟩ := Out.bind_eq_ok.mp h
  obtain ⟨⟨t, b2⟩, h3, h4⟩ := Out.bind_eq_ok.mp h2
  cases h4
  obtain ⟨e, he, hn⟩ := semTy_near _ _ _ h3
  refine ⟨encOption encFqn o ++ e, ?_, fun hw => ?_⟩
  · rw [decOption_ok decFqn_ok _ _ _ h1, he]; simp
  · rcases hn hw with rfl | hn
    · exact .inl rfl
    · right
      simp only [SymTy.encode, List.length_append]
      omega

theorem decSymTy_prefix : PrefixOnly decSymTy := by
  unfold decSymTy
  follow_prefix [decOption_prefix decFqn_prefix, decTy_prefix decId_prefix]

theorem decSymTy_returns {k : Nat} : ReturnsBelow k decSymTy := by
  unfold decSymTy
  follow_returns [decOption_returns decFqn_returns, decTy_returns decId_returns]

/-! ### Paths as values -/

namespace Stl

theorem keyStep_writes {k : KeyStep} (hk : k.Held) (hn : ∀ n, k ≠ .number n) : keyStep.Writes k.val k.encode := by
  cases k with
  | number n => exact absurd rfl (hn n)
  | blob b =>
    refine union_writes 1 rfl (payload1_writes ?_)
    exact ⟨b, rfl, ⟨Nat.zero_le _, hk⟩, rfl⟩
  | string s =>
    refine union_writes 2 rfl (payload1_writes ?_)
    exact ⟨s, rfl, (utf8Valid_iff s).mp hk.2, ⟨Nat.zero_le _, hk.1⟩, rfl⟩

theorem vstep_writes {s : VStep} (hs : s.Held) (hd : s.Described) : vstep.Writes s.val s.encode := by
  cases s with
  | namedField n => exact union_writes 0 rfl (payload1_writes (small_writes hd))
  | unnamedField i => exact union_writes 1 rfl (payload1_writes (u8_writes i))
  | index i => exact union_writes 2 rfl (payload1_writes (u32_writes i))
  | key k =>
    refine union_writes 3 rfl (payload1_writes (keyStep_writes hs ?_))
    rintro n rfl
    exact hd

theorem vpath_writes {p : List VStep} (hp : VPathHeld p) (hd : ∀ s ∈ p, s.Described) :
    vpath.Writes (.tuple [.list (p.map VStep.val)]) (encVPath p) :=
  newtype_writes (list_writes (sz := ⟨0, 65535⟩) rfl rfl rfl ⟨Nat.zero_le _, hp.1⟩
    fun s h => vstep_writes (hp.2 s h) (hd s h))

theorem tstep_writes {s : Ty.Step} (hs : s.Small) : tstep.Writes s.val s.encode := by
  cases s with
  | namedField n => exact union_writes 0 rfl (payload1_writes (small_writes hs))
  | unnamedField i => exact union_writes 1 rfl (payload1_writes (u8_writes i))
  | variant n => exact union_writes 2 rfl (payload1_writes (small_writes hs))
  | index => exact union_writes 3 rfl payload0_writes
  | list => exact union_writes 4 rfl payload0_writes
  | set => exact union_writes 5 rfl payload0_writes
  | mapKey => exact union_writes 6 rfl payload0_writes
  | mapValue => exact union_writes 7 rfl payload0_writes

end Stl

end Verif
