import Verif.Spec.ByName
import Verif.Props.Text
import Verif.Props.Reflect

/-!
# C79: types used by their names
-/

namespace Verif

theorem typed_iff {id : SemId} {v : Val} {w : TypedVal} :
    TypedVal.unnamed id v = w ↔ w.orig.id = id ∧ w.orig.fqn = none ∧ v = w.val := by
  obtain ⟨⟨i, f⟩, u⟩ := w
  simp only [TypedVal.unnamed, TypedVal.mk.injEq, TypeSymbol.mk.injEq]
  constructor
  · rintro ⟨⟨rfl, rfl⟩, rfl⟩; exact ⟨rfl, rfl, rfl⟩
  · rintro ⟨rfl, rfl, rfl⟩; exact ⟨⟨rfl, rfl⟩, rfl⟩

theorem means_of {S : SymbolicSys} {spec : TypeSpec} {id : SemId} (h : S.toSemId spec = some id)
    (ht : ∃ t, S.types.get id = some t) : S.Means spec id := by
  obtain ⟨t, ht⟩ := ht
  refine ⟨by simp [SymbolicSys.get, h], by simp [SymbolicSys.typeTree, h, ht], ?_, ?_, ?_⟩
  · intro E fuel v
    simp only [SymbolicSys.typify, h, SymbolicSys.env]
    cases Verif.typify { E with sys := S.types } fuel v id with
    | ok w => simp [Out.mapErr, typed_iff]
    | _ => simp [Out.mapErr, eq_comm]
  · intro E fuel bs
    simp only [SymbolicSys.read, h, SymbolicSys.env]
    cases Verif.read { E with sys := S.types } fuel id bs with
    | ok p =>
      simp [Out.mapErr, typed_iff]
      intro w rest
      obtain ⟨v, r⟩ := p
      simp [and_assoc]
    | _ => simp [Out.mapErr, eq_comm]
  · intro E fuel bs
    simp only [SymbolicSys.deserialize, h, SymbolicSys.env]
    cases Verif.deserialize { E with sys := S.types } fuel id bs with
    | ok w => simp [Out.mapErr, typed_iff]
    | _ => simp [Out.mapErr, eq_comm]

theorem ofText_fqn (f : TypeFqn) : TypeSpec.ofText (f.lib.bytes ++ b!"." ++ f.name.bytes) = .ok (.fqn f) := by
  have h := ((C69_full_name f.text).1 f).mpr rfl
  rw [TypeFqn.text] at h
  rw [TypeSpec.ofText, h]; rfl

theorem refuses_of {S : SymbolicSys} {spec : TypeSpec} (h : S.toSemId spec = none) : S.Refuses spec :=
  ⟨by simp [SymbolicSys.get, h], by simp [SymbolicSys.typeTree, h], fun _ _ _ => by simp [SymbolicSys.typify, h],
    fun _ _ _ => by simp [SymbolicSys.read, h], fun _ _ _ => by simp [SymbolicSys.deserialize, h]⟩

/-- **C79, ids**: an id of a type of the system means this type; with any other id there is no type and no tree, and
no value is accepted or read (but the id of the unit is known to `typify` in any case). -/
theorem C79_ids (S : SymbolicSys) (id : SemId) :
    ((∃ t, S.types.get id = some t) → S.Means (.semId id) id) ∧
    (S.types.get id = none → S.get (.semId id) = none ∧ S.typeTree (.semId id) = none ∧
      ∀ E fuel, (id ≠ SemId.unit E.H → ∀ v w, S.typify E fuel v (.semId id) ≠ .ok w) ∧
        (∀ bs w, S.read E fuel (.semId id) bs ≠ .ok w) ∧
        ∀ bs w, S.deserialize E fuel (.semId id) bs ≠ .ok w) := by
  refine ⟨means_of rfl, fun h => ⟨by simp [SymbolicSys.get, SymbolicSys.toSemId, h],
    by simp [SymbolicSys.typeTree, SymbolicSys.toSemId, h], fun E fuel => ?_⟩⟩
  have hf : (S.env E).find id = none := by simp [Env.find, SymbolicSys.env, h]
  refine ⟨fun hu v w => ?_, fun bs w => ?_, fun bs w => ?_⟩
  · have ht : (S.env E).typeOf id = none := by
      rw [Env.typeOf, if_neg (by simpa [SymbolicSys.env] using hu), hf]
    cases fuel <;> simp [SymbolicSys.typify, SymbolicSys.toSemId, Verif.typify, ht, Out.mapErr]
  · cases fuel <;> simp [SymbolicSys.read, SymbolicSys.toSemId, Verif.read, hf, Out.mapErr]
  · cases fuel <;> simp [SymbolicSys.deserialize, SymbolicSys.toSemId, Verif.deserialize, Verif.read, hf, Out.mapErr]

/-- **C79, what texts do**: in an assembled system a text `Lib.Type` means the id of a type declared under this
name, or is refused by all functions. A name which no library declares is refused, and a text which is no full name
stops the program. -/
theorem C79_texts (H : Hash) (debug : Bool) (ls : List TypeLib) (S : SymbolicSys) (hw : ∀ l ∈ ls, l.WF)
    (h : assembleSys H debug ls = .ok S) (s : Bytes) :
    (∀ f : TypeFqn, s = f.lib.bytes ++ b!"." ++ f.name.bytes → ∃ spec, TypeSpec.ofText s = .ok spec ∧
      ((∃ l ∈ ls, ∃ id, l.name = f.lib ∧ l.Declares H f.name id ∧ S.Means spec id) ∨ S.Refuses spec) ∧
      ((∀ l ∈ ls, l.name = f.lib → ∀ id, ¬ l.Declares H f.name id) → S.Refuses spec)) ∧
    ((∀ f : TypeFqn, s ≠ f.lib.bytes ++ b!"." ++ f.name.bytes) → TypeSpec.ofText s = .panic) := by
  have hn := C69_full_name s
  refine ⟨fun f hs => ⟨.fqn f, ?_, ?_⟩, fun hs => ?_⟩
  · rw [TypeSpec.ofText, (hn.1 f).mpr hs]; rfl
  · cases hr : S.resolve f with
    | none => exact ⟨.inr (refuses_of hr), fun _ => refuses_of hr⟩
    | some id =>
      obtain ⟨-, ⟨l, hl, hln, hd⟩, ht, -⟩ := C16_resolve_sound H debug ls S f id hw h hr
      exact ⟨.inl ⟨l, hl, id, hln, hd, means_of hr ht⟩, fun hno => absurd hd (hno l hl hln id)⟩
  · rw [TypeSpec.ofText, hn.2 hs]; rfl

/-- **C79 is violated** if two libraries declare the same type under the same name: the name of the library
imported first is refused. -/
theorem C79_alias_violated (H : Hash) (debug : Bool) :
    ∃ (l m : TypeLib) (S : SymbolicSys) (n : Name) (id : SemId) (spec : TypeSpec), l.WF ∧ m.WF ∧
      assembleSys H debug [l, m] = .ok S ∧ l.Declares H n id ∧
      TypeSpec.ofText (l.name.bytes ++ b!"." ++ n.bytes) = .ok spec ∧ S.Refuses spec := by
  obtain ⟨l, m, S, n, id, hl, hm, hs, hd, hr⟩ := C16_alias_violated H debug
  refine ⟨l, m, S, n, id, .fqn ⟨l.name, n⟩, hl, hm, hs, hd, ofText_fqn ⟨l.name, n⟩, refuses_of hr⟩

/-- **C79, crates**: types of Rust programs are used by the name of the crate and the name of the type: all
functions then do what they do for the id of the Rust type, and the id has this name. What is missing: types which
two crates declare under the same name, and types which are also found unnamed inside of others. -/
theorem C79_crates_partial (H : Hash) (debug : Bool) (cs : List Crate) (hb : Buildable debug cs)
    (fuel : Nat) (hf : 65535 ≤ fuel) (ls ms : List TypeLib) (h : buildAll H debug fuel cs [] = .ok ls)
    (hp : ls.Perm ms) (S : SymbolicSys) (hs : assembleSys H debug ms = .ok S)
    (hA : ∀ c ∈ cs, ∀ d ∈ cs, ∀ s s' n, c.Owns s n → d.Owns s' n → s.semId H = s'.semId H → c = d)
    (hC : ∀ p ∈ allDefs H ms, p.2.orig = none → ∀ c ∈ cs, ∀ s n, c.Owns s n → p.1 ≠ s.semId H) :
    (∀ c ∈ cs, ∀ s n, c.Owns s n → ∃ spec, TypeSpec.ofText (c.name.bytes ++ b!"." ++ n.bytes) = .ok spec ∧
      S.Means spec (s.semId H) ∧ S.toSymbol (s.semId H) = ⟨s.semId H, some ⟨c.name, n⟩⟩) ∨ CrateCollision H debug fuel cs := by
  by_cases hc : CrateCollision H debug fuel cs
  · exact .inr hc
  have hres := (C67_names_resolve_partial H debug cs hb fuel hf ls ms h hp S hs hA hC).resolve_right hc
  have hw : ∀ l ∈ ms, l.WF := fun l hl => buildAll_wf hc hb hf h l (hp.mem_iff.mpr hl)
  refine .inl fun c hcm s n ho => ⟨.fqn ⟨c.name, n⟩, ofText_fqn ⟨c.name, n⟩, ?_, ?_⟩
  · obtain ⟨hr, -⟩ := hres c hcm s n ho
    exact means_of hr (C16_resolve_sound H debug ms S _ _ hw hs hr).2.2.1
  · rw [SymbolicSys.toSymbol, (hres c hcm s n ho).2]

/-- **C79, reading and writing**: what a Rust program writes for a value of a type is read back by the text
`Crate.Type`, and what is read is written as the same bytes (if it fits). What is missing: see
`C79_crates_partial`, `C77_read_partial` and `C78_write_partial`. -/
theorem C79_read_write_partial (H : Hash) (debug : Bool) (cs : List Crate) (hb : Buildable debug cs)
    (fuel : Nat) (hf : 65535 ≤ fuel) (ls ms : List TypeLib) (h : buildAll H debug fuel cs [] = .ok ls)
    (hp : ls.Perm ms) (S : SymbolicSys) (hs : assembleSys H debug ms = .ok S)
    (hcon : Consistent (allDefs H ms))
    (hA : ∀ c ∈ cs, ∀ d ∈ cs, ∀ s s' n, c.Owns s n → d.Owns s' n → s.semId H = s'.semId H → c = d)
    (hC : ∀ p ∈ allDefs H ms, p.2.orig = none → ∀ c ∈ cs, ∀ s n, c.Owns s n → p.1 ≠ s.semId H)
    (E : Env) (hH : E.H = H) (hE : E.sys = S.types) (hm : 2 ^ 32 * (2 * E.valSize) < 2 ^ 63)
    (h1 : ∀ n, 1 ≤ n → n ≤ 16 → E.primSize (BitVec.ofNat 8 n) = n)
    (h2 : ∀ n, n = 1 ∨ n = 2 ∨ n = 4 ∨ n = 8 ∨ n = 16 → E.primSize (BitVec.ofNat 8 (0x40 + n)) = n)
    (h3 : E.primSize Ty.BYTE_CODE = 1) (c : Crate) (hcm : c ∈ cs) (s : RTy) (n : Name) (ho : c.Owns s n)
    (hok : ∀ p, s.Contains p → p.DistinctFields ∧ p.Ordinary ∧ ¬ p.LooksLikeString ∧ p.UpTo64)
    (v : Val) (bs : Bytes) (hv : s.Writes v bs) (rfuel : Nat) (hr : sizeOf s ≤ rfuel) :
    (∃ spec w, TypeSpec.ofText (c.name.bytes ++ b!"." ++ n.bytes) = .ok spec ∧
      S.deserialize E rfuel spec bs = .ok w ∧ w.val = v ∧ w.orig.id = s.semId H ∧
      S.toSymbol w.orig.id = ⟨s.semId H, some ⟨c.name, n⟩⟩ ∧
      ((∀ p, s.Contains p → ¬ p.ItemArray) → ∀ maxLen, bs.length ≤ maxLen →
        w.serialize E rfuel maxLen = .ok bs)) ∨ CrateCollision H debug fuel cs := by
  by_cases hc : CrateCollision H debug fuel cs
  · exact .inr hc
  left
  obtain ⟨spec, hspec, hmean, hsym⟩ :=
    (C79_crates_partial H debug cs hb fuel hf ls ms h hp S hs hA hC).resolve_right hc c hcm s n ho
  have hrd := ((C77_read_partial H debug cs hb fuel hf ls ms h hp S hs hcon E hH hE hm c hcm s n ho s (.refl _) hok v bs hv
    rfuel hr).resolve_right hc).2
  have hEq : ({ E with sys := S.types } : Env) = E := by rw [← hE]
  refine ⟨spec, .unnamed (s.semId H) v, hspec, ?_, rfl, rfl, hsym, fun ha maxLen hl => ?_⟩
  · refine ((hmean.deserialize E rfuel bs).1 _).mpr ⟨rfl, rfl, ?_⟩
    rw [hEq]; exact hrd
  · have hwr := (C78_write_partial H debug cs hb fuel hf ls ms h hp S hs hcon E hH hE hm h1 h2 h3 c hcm s n ho s (.refl _)
      (fun p hp => ⟨(hok p hp).1, (hok p hp).2.1, (hok p hp).2.2.1⟩) ha v bs hv rfuel hr).resolve_right hc
    simp only [TypedVal.serialize, TypedVal.unnamed, serialize, hwr, Out.mapErr]
    simp [hl]

/-! ### A concrete case -/

/-- No type of the example crate with words and pairs is also found unnamed. -/
theorem wCrate_unnamed {H : Hash} {debug : Bool} (hc : ¬ CrateCollision H debug 65535 [wCrate])
    {ls : List TypeLib} (h : buildAll H debug 65535 [wCrate] [] = .ok ls) : ∀ p ∈ allDefs H ls, p.2.orig = none →
    ∀ s n, wCrate.Owns s n → p.1 ≠ s.semId H := by
  intro p hp hn s n ho e
  obtain ⟨c, hcm, s', n', ho', ⟨r, hr, u, hu, rfl⟩ | rfl⟩ :=
    (buildAll_defs hc (wCrate_buildable debug) (by decide) h (.refl _) _).mp hp
  · rw [List.mem_singleton] at hcm
    subst hcm
    obtain ⟨q, hq, he⟩ := s'.nested r hr u hu
    obtain ⟨t, ht, hts⟩ := ho'.1
    have hqm : wCrate.Mentions q := ⟨t, ht, hts.trans hq⟩
    have hself : (TranspileRef.embedded u).id H = q.semId H ∧ u.mapRefs (TranspileRef.id H) = q.img H := by
      generalize (TranspileRef.embedded u).id H = i at he ⊢
      generalize u.mapRefs (TranspileRef.id H) = t' at he ⊢
      cases he with
      | self => exact ⟨rfl, rfl⟩
      | char sz => exact absurd (wCrate_mentions.mp hqm) (by simp [wWord, wLetter, wPair])
      | tail c c1 sz => exact absurd (wCrate_mentions.mp hqm) (by simp [wWord, wLetter, wPair])
    rw [unnamedDef, hself.1] at e
    have := wCrate_ids (fun h => hc (.inl h)) hqm ho.1 e
    subst this
    have h1 : u.cls = (q.img H).cls := by rw [← hself.2]; cases u <;> rfl
    have h2 := hself.1
    rw [RTy.semId_text] at h2
    have h3 : TranspileRef.commitTy u = q.text H := by
      refine semHash_inj (D := crateTexts H [wCrate]) (fun h => hc (.inl h)) ?_ (hqm.text (List.mem_singleton.mpr rfl)) h2
      rcases s'.nested_text r hr u hu with ⟨p, hsp, d, hd, e⟩ | e
      · exact .inl ⟨d, ⟨wCrate, List.mem_singleton.mpr rfl, p, ⟨t, ht, hts.trans hsp⟩, hd⟩, e⟩
      · rw [e]
        exact .inr basicTexts_mem.2.2.2
    have h4 : (TranspileRef.commitTy u).head? = some u.cls.code := by cases u <;> rfl
    rw [h3, h1] at h4
    rcases wCrate_owns ho with ⟨rfl, -⟩ | ⟨rfl, -⟩ | ⟨rfl, -⟩ <;>
    simp [RTy.text, RTy.name, wWord, wLetter, wPair, Name.commit, RTy.img_tuple, RTy.img_enum, Ty.cls, Cls.code] at h4
  · cases hn

/-- The hypotheses of C79 hold for the crate with words and pairs. -/
example (H : Hash) (debug : Bool) : (∃ ls S, Buildable debug [wCrate] ∧ buildAll H debug 65535 [wCrate] [] = .ok ls ∧
      assembleSys H debug ls = .ok S ∧ Consistent (allDefs H ls) ∧ wCrate.Owns wPair n!"Pair" ∧
      (∀ c ∈ [wCrate], ∀ d ∈ [wCrate], ∀ s s' n, c.Owns s n → d.Owns s' n → s.semId H = s'.semId H → c = d) ∧
      ∀ p ∈ allDefs H ls, p.2.orig = none → ∀ c ∈ [wCrate], ∀ s n, c.Owns s n → p.1 ≠ s.semId H) ∨
    CrateCollision H debug 65535 [wCrate] := by
  by_cases hc : CrateCollision H debug 65535 [wCrate]
  · exact .inr hc
  obtain ⟨ls, S, h1, h2, h3, -⟩ := wCrate_system hc
  refine .inl ⟨ls, S, wCrate_buildable debug, h1, h2, h3, ⟨wCrate_mentions.mpr (by simp), rfl, rfl⟩, ?_, ?_⟩
  · intro c hc d hd _ _ _ _ _ _
    rw [List.mem_singleton.mp hc, List.mem_singleton.mp hd]
  · intro p hp hn c hcm s n ho
    rw [List.mem_singleton.mp hcm] at ho
    exact wCrate_unnamed hc h1 p hp hn s n ho

end Verif
