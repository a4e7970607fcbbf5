import Verif.Props.ByName
import Verif.Lemmas.ReflectTyped

/-!
# C80 and C81: the values of Rust types and the values of type systems
-/

namespace Verif

/-! ## C80 -/

/-- **C80, partial** (for systems where definitions with the same id are the same, for types without
tuples which look like restricted strings, integers up to 128 bits, collections of less than `2 ^ 32` items):
the well-typed values of the id of a Rust type are exactly the dynamic values of its Rust values without
repeated items and keys; each of them is written in one way only, and no two of them are written in the same
way, not even as the beginning of something longer (or there is a hash collision). -/
theorem C80_exact_partial (H : Hash) (debug : Bool) (cs : List Crate) (hb : Buildable debug cs)
    (fuel : Nat) (hf : 65535 ≤ fuel) (ls ms : List TypeLib) (h : buildAll H debug fuel cs [] = .ok ls)
    (hp : ls.Perm ms) (sys : SymbolicSys) (hs : assembleSys H debug ms = .ok sys)
    (hcon : Consistent (allDefs H ms)) (E : Env) (hH : E.H = H) (hE : E.sys = sys.types)
    (hm : 2 ^ 32 * (2 * E.valSize) < 2 ^ 63)
    (h1 : ∀ n, 1 ≤ n → n ≤ 16 → E.primSize (BitVec.ofNat 8 n) = n)
    (h2 : ∀ n, n = 1 ∨ n = 2 ∨ n = 4 ∨ n = 8 ∨ n = 16 → E.primSize (BitVec.ofNat 8 (0x40 + n)) = n)
    (h3 : E.primSize Ty.BYTE_CODE = 1) (c : Crate) (hcm : c ∈ cs) (s : RTy) (n : Name) (ho : c.Owns s n) (q : RTy)
    (hq : s.Contains q)
    (hok : ∀ p, q.Contains p → p.DistinctFields ∧ p.Ordinary ∧ ¬ p.LooksLikeString ∧ p.UpTo128) :
    ((∀ v, WellTyped E v (q.semId H) ↔ v.Tidy ∧ ∃ bs, q.Writes v bs) ∧
      (∀ v bs bs', q.Writes v bs → q.Writes v bs' → bs = bs') ∧
      ∀ v v' bs bs' r r', q.Writes v bs → q.Writes v' bs' → bs ++ r = bs' ++ r' → v = v' ∧ bs = bs') ∨
    CrateCollision H debug fuel cs := by
  by_cases hc : CrateCollision H debug fuel cs
  · exact .inr hc
  have hok' := fun p hp => (⟨(hok p hp).1, (hok p hp).2.1, (hok p hp).2.2.1⟩ :
    p.DistinctFields ∧ p.Ordinary ∧ ¬ p.LooksLikeString)
  have hfit := crates_fit hc hb hf h hp hs hcon hH hE hcm ho hq hok'
  have huniq := writes_unique (H := E.H) q fun p hp => ⟨(hfit p hp).named, (hfit p hp).wf⟩
  refine .inl ⟨fun v => ⟨fun ⟨k, hk⟩ => ?_, fun ⟨ht, bs, hw⟩ => ⟨sizeOf q, ?_⟩⟩, huniq, fun v v' bs bs' r r' hw hw' e => ?_⟩
  · subst hH
    exact rust_all ⟨h1, h2, h3⟩ q (fun p hp => ⟨hfit p hp, (hok p hp).2.2.2⟩) k v hk
  · subst hH
    exact typed_all ⟨h1, h2, h3⟩ hm q hfit _ (Nat.le_refl _) v bs hw ht
  · exact writes_prefix (H := E.H) q (fun p hp => (hfit p hp).wf) v v' bs bs' r r' hw hw' e

/-! ## C81 -/

/-- **C81, partial** (under the conditions of C77, except that signed numbers have up to 128 bits, and
without raw bytes outside of byte strings, see `C81_byte_violated`): the dynamic value of a Rust value, if no set or map in it has repetitions, is accepted by
`typify` and is not changed (or there is a hash collision). -/
theorem C81_typify_partial (H : Hash) (debug : Bool) (cs : List Crate) (hb : Buildable debug cs)
    (fuel : Nat) (hf : 65535 ≤ fuel) (ls ms : List TypeLib) (h : buildAll H debug fuel cs [] = .ok ls)
    (hp : ls.Perm ms) (sys : SymbolicSys) (hs : assembleSys H debug ms = .ok sys)
    (hcon : Consistent (allDefs H ms)) (hd : ∀ c ∈ cs, ∀ q, c.Mentions q → q.DistinctFields)
    (E : Env) (hH : E.H = H) (hE : E.sys = sys.types) (hm : 2 ^ 32 * (2 * E.valSize) < 2 ^ 63)
    (h1 : ∀ n, 1 ≤ n → n ≤ 16 → E.primSize (BitVec.ofNat 8 n) = n)
    (h2 : ∀ n, n = 1 ∨ n = 2 ∨ n = 4 ∨ n = 8 ∨ n = 16 → E.primSize (BitVec.ofNat 8 (0x40 + n)) = n)
    (h3 : E.primSize Ty.BYTE_CODE = 1) (c : Crate) (hcm : c ∈ cs) (s : RTy) (n : Name) (ho : c.Owns s n) (q : RTy)
    (hq : s.Contains q) (hok : ∀ p, q.Contains p → p.Ordinary ∧ ¬ p.LooksLikeString ∧ ¬ p.WideUint)
    (hby : q ≠ .prim Ty.BYTE_CODE ∧ ∀ p, q.Contains p → ¬ p.BareByte)
    (v : Val) (bs : Bytes) (hv : q.Writes v bs) (ht : v.Tidy) (tfuel : Nat) (hr : sizeOf q ≤ tfuel) :
    typify E tfuel v (q.semId H) = .ok v ∨
    CrateCollision H debug fuel cs := by
  by_cases hc : CrateCollision H debug fuel cs
  · exact .inr hc
  have hsane := (C76_crates_sane H debug cs hb fuel hf ls ms h hp sys hs hd E hH hE
    (fun n a b => h1 n a (by omega)) (fun n hn => h2 n (by omega)) h3).resolve_right hc
  have hdist : ∀ p, q.Contains p → p.DistinctFields := fun p hp => hd c hcm p (by
    obtain ⟨t, ht, hts⟩ := ho.1
    exact ⟨t, ht, hts.trans (hq.trans hp)⟩)
  have hfit := crates_fit hc hb hf h hp hs hcon hH hE hcm ho hq fun p hp => ⟨hdist p hp, (hok p hp).1, (hok p hp).2.1⟩
  subst hH
  exact .inl (typify_rust hsane ⟨h1, h2, h3⟩ hm q (fun p hp => ⟨hfit p hp, hby.2 p hp, (hok p hp).2.2⟩) tfuel hr hby.1 v bs hv ht)

/-- **C81, by name**: a value made for the type `Crate.Type` is accepted, gets the id of the Rust type, and is
written as the Rust program writes it. What is missing: see `C79_crates_partial`, `C78_write_partial` and
`C81_typify_partial`. -/
theorem C81_by_name_partial (H : Hash) (debug : Bool) (cs : List Crate) (hb : Buildable debug cs)
    (fuel : Nat) (hf : 65535 ≤ fuel) (ls ms : List TypeLib) (h : buildAll H debug fuel cs [] = .ok ls)
    (hp : ls.Perm ms) (S : SymbolicSys) (hs : assembleSys H debug ms = .ok S)
    (hcon : Consistent (allDefs H ms)) (hd : ∀ c ∈ cs, ∀ q, c.Mentions q → q.DistinctFields)
    (hA : ∀ c ∈ cs, ∀ d ∈ cs, ∀ s s' n, c.Owns s n → d.Owns s' n → s.semId H = s'.semId H → c = d)
    (hC : ∀ p ∈ allDefs H ms, p.2.orig = none → ∀ c ∈ cs, ∀ s n, c.Owns s n → p.1 ≠ s.semId H)
    (E : Env) (hH : E.H = H) (hE : E.sys = S.types) (hm : 2 ^ 32 * (2 * E.valSize) < 2 ^ 63)
    (h1 : ∀ n, 1 ≤ n → n ≤ 16 → E.primSize (BitVec.ofNat 8 n) = n)
    (h2 : ∀ n, n = 1 ∨ n = 2 ∨ n = 4 ∨ n = 8 ∨ n = 16 → E.primSize (BitVec.ofNat 8 (0x40 + n)) = n)
    (h3 : E.primSize Ty.BYTE_CODE = 1) (c : Crate) (hcm : c ∈ cs) (s : RTy) (n : Name) (ho : c.Owns s n)
    (hok : ∀ p, s.Contains p → p.Ordinary ∧ ¬ p.LooksLikeString ∧ ¬ p.BareByte ∧ ¬ p.ItemArray ∧ ¬ p.WideUint)
    (v : Val) (bs : Bytes) (hv : s.Writes v bs) (ht : v.Tidy) (tfuel : Nat) (hr : sizeOf s ≤ tfuel)
    (maxLen : Nat) (hl : bs.length ≤ maxLen) :
    (∃ spec w, TypeSpec.ofText (c.name.bytes ++ b!"." ++ n.bytes) = .ok spec ∧
      S.typify E tfuel v spec = .ok w ∧ w.val = v ∧ w.orig.id = s.semId H ∧
      w.serialize E tfuel maxLen = .ok bs) ∨
    CrateCollision H debug fuel cs := by
  by_cases hc : CrateCollision H debug fuel cs
  · exact .inr hc
  left
  obtain ⟨spec, hspec, hmean, -⟩ :=
    (C79_crates_partial H debug cs hb fuel hf ls ms h hp S hs hA hC).resolve_right hc c hcm s n ho
  have hdist : ∀ p, s.Contains p → p.DistinctFields := fun p hp => hd c hcm p (by
    obtain ⟨t, ht, hts⟩ := ho.1
    exact ⟨t, ht, hts.trans hp⟩)
  have hnb : s ≠ .prim Ty.BYTE_CODE := by
    rintro rfl
    have := ho.2.2
    cases this
  have hty := (C81_typify_partial H debug cs hb fuel hf ls ms h hp S hs hcon hd E hH hE hm h1 h2 h3 c hcm s n ho s
    (.refl _) (fun p hp => ⟨(hok p hp).1, (hok p hp).2.1, (hok p hp).2.2.2.2⟩) ⟨hnb, fun p hp => (hok p hp).2.2.1⟩ v bs hv ht tfuel
    hr).resolve_right hc
  have hwr := (C78_write_partial H debug cs hb fuel hf ls ms h hp S hs hcon E hH hE hm h1 h2 h3 c hcm s n ho s (.refl _)
    (fun p hp => ⟨hdist p hp, (hok p hp).1, (hok p hp).2.1⟩) (fun p hp => (hok p hp).2.2.2.1) v bs hv tfuel hr).resolve_right hc
  have hEq : ({ E with sys := S.types } : Env) = E := by rw [← hE]
  refine ⟨spec, .unnamed (s.semId H) v, hspec, ((hmean.typify E tfuel v).1 _).mpr ⟨rfl, rfl, ?_⟩, rfl, rfl, ?_⟩
  · rw [hEq]; exact hty
  · simp only [TypedVal.serialize, TypedVal.unnamed, serialize, hwr, Out.mapErr]
    simp [hl]

/-- **C81 is violated** for raw bytes: in every system with this type, `typify` turns the value of a byte into a signed
number, if the hash tells the byte from the unit type. -/
theorem C81_byte_violated (E : Env) (hc : ¬ Clash E.H SEM_ID_TAG [0, Ty.BYTE_CODE] [0, Ty.UNIT_CODE])
    (hf : E.find ((RTy.prim Ty.BYTE_CODE).semId E.H) = some Ty.BYTE)
    (b : Byte) (fuel : Nat) : ∃ v w, (RTy.prim Ty.BYTE_CODE).Writes v [b] ∧
      typify E (fuel + 1) v ((RTy.prim Ty.BYTE_CODE).semId E.H) = .ok w ∧ v.eqv w = false := by
  have hu : (RTy.prim Ty.BYTE_CODE).semId E.H ≠ SemId.unit E.H := by
    intro e
    rw [RTy.semId_text] at e
    simp only [SemId.unit, Ty.semIdUnnamed_eq] at e
    cases (taggedHash_inj e).resolve_right hc
  refine ⟨_, .num (.int (BitVec.ofNat 64 b.toNat)), PrimWrites.byte, ?_, rfl⟩
  have := b.isLt
  have hlt : (BitVec.ofNat 64 b.toNat).toNat < 2 ^ 63 := by rw [BitVec.toNat_ofNat]; omega
  simp only [typify, Env.typeOf, hu, if_false, hf, typifyTy, Ty.BYTE, typifyPrim]
  rw [if_neg (by decide), if_pos ⟨by decide, hlt⟩]

/-- **C81 is violated** for unsigned numbers of 128 bits: in every system with this type, `typify` refuses the values of
the Rust type. It accepts small numbers instead, which cannot be written (if the hash tells the type from the unit
type). -/
theorem C81_u128_violated (E : Env) (hc : ¬ Clash E.H SEM_ID_TAG [0, 0x10] [0, Ty.UNIT_CODE])
    (hs : E.primSize 0x10 = 16) (hf : E.find ((RTy.prim 0x10).semId E.H) = some (.primitive 0x10)) (fuel : Nat) :
    (∃ v bs, (RTy.prim 0x10).Writes v bs) ∧
    (∀ v bs, (RTy.prim 0x10).Writes v bs → typify E (fuel + 1) v ((RTy.prim 0x10).semId E.H) = .err .typeMismatch) ∧
    ∀ x, typify E (fuel + 1) (.num (.uint x)) ((RTy.prim 0x10).semId E.H) = .ok (.num (.uint x)) ∧
      write E (fuel + 1) (.num (.uint x)) ((RTy.prim 0x10).semId E.H) = .panic := by
  have hu : (RTy.prim 0x10).semId E.H ≠ SemId.unit E.H := by
    intro e
    rw [RTy.semId_text] at e
    simp only [SemId.unit, Ty.semIdUnnamed_eq] at e
    cases (taggedHash_inj e).resolve_right hc
  have ht : E.typeOf ((RTy.prim 0x10).semId E.H) = some (.primitive 0x10) := by rw [Env.typeOf, if_neg hu, hf]
  refine ⟨⟨_, _, PrimWrites.bigUint (n := 16) (x := 0#1024) (by decide) (by decide) (by rw [BitVec.toNat_zero]; decide)⟩, fun v bs h => ?_, fun x => ?_⟩
  · have h : PrimWrites 0x10 v bs := h
    generalize hg : (0x10 : Byte) = c at h
    have hg' := congrArg BitVec.toNat hg
    cases h with
    | bigUint h1 h2 h3 => rw [hg] at ht; simp only [typify, ht, typifyTy, typifyPrim]; rw [← hg]; rfl
    | uint h1 h2 => rw [BitVec.toNat_ofNat] at hg'; change 16 = _ at hg'; omega
    | int h1 => rw [BitVec.toNat_ofNat] at hg'; change 16 = _ at hg'; omega
    | _ => cases hg'
  · simp only [typify, write, ht, typifyTy, typifyPrim, writeTy, writePrim, hs]
    exact ⟨rfl, rfl⟩

/-- A system with this type. -/
example : let E : Env := { exE true with sys := [((RTy.prim 0x10).semId toyHash, .primitive 0x10)] }
    E.find ((RTy.prim 0x10).semId E.H) = some (.primitive 0x10) ∧ E.primSize 0x10 = 16 ∧
    E.H (tagged E.H SEM_ID_TAG [0, 0x10]) ≠ E.H (tagged E.H SEM_ID_TAG [0, Ty.UNIT_CODE]) := by decide +kernel

/-! ### A concrete case -/

/-- The hypotheses of C80 and C81 about types and values hold for the picture of the example crates. -/
theorem exPicture_tidy : exPictureVal.Tidy ∧ (∀ p, exPicture.Contains p → p.Ordinary ∧ ¬ p.LooksLikeString ∧ ¬ p.BareByte ∧ ¬ p.ItemArray ∧
    p.UpTo64) := by
  refine ⟨?_, fun p hp => ?_⟩
  · refine .struct ?_
    simp only [List.mem_cons, List.not_mem_nil, or_false]
    rintro f (rfl | rfl | rfl)
    · refine .union (.tuple ?_)
      simp only [List.mem_cons, List.not_mem_nil, or_false]
      rintro _ rfl
      refine .struct ?_
      simp only [List.mem_cons, List.not_mem_nil, or_false]
      rintro _ (rfl | rfl) <;> exact .num _
    · refine .list ?_
      simp only [List.mem_cons, List.not_mem_nil, or_false]
      rintro _ rfl
      refine .struct ?_
      simp only [List.mem_cons, List.not_mem_nil, or_false]
      rintro _ (rfl | rfl) <;> exact .num _
    · refine .tuple ?_
      simp only [List.mem_cons, List.not_mem_nil, or_false]
      rintro _ rfl
      exact .bytes _
  · rw [exPicture_contains] at hp
    rcases hp with rfl | rfl | rfl | rfl | rfl | rfl | rfl | rfl | rfl <;>
    simp [exPicture, exShape, exPoint, exForeign, RTy.Ordinary, RTy.LooksLikeString, RTy.BareByte, RTy.parts, RTy.ItemArray,
      RTy.isByte, RTy.UpTo64, ReadablePrim, Ty.BYTE_CODE]

/-- A set with a repeated item is not tidy, and not well typed. -/
example : ¬ (Val.set [.num (.uint 7), .num (.uint 7)]).Tidy := by
  intro h
  cases h with
  | set _ h => exact absurd h (by decide)

/-- What the model makes of the picture, with the system assembled from the two libraries. -/
example : ((buildAll toyHash true 65535 exCrates []).get?.bind fun ls => (assembleSys toyHash true ls.reverse).get?.map fun s =>
      let E : Env := { exE true with sys := s.types }
      (typify E 5 exPictureVal (exPicture.semId toyHash)).get?.map (Val.eqv exPictureVal)) = some (some true) := by
  decide +kernel

end Verif
