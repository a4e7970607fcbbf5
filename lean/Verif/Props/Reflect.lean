import Verif.Props.World
import Verif.Lemmas.ReflectLayer

/-! # Properties of Rust types described by type systems -/

namespace Verif

/-! ## C76 -/

/-- As `C76_system_sane`, given the texts of the ids. -/
theorem system_sane {H : Hash} {debug : Bool} {ls : List TypeLib} {sys : SymbolicSys} (hw : ∀ l ∈ ls, l.WF)
    (hs : assembleSys H debug ls = .ok sys) (hl : ∀ l ∈ ls, l.Linked H ls)
    (hf : ∀ p ∈ allDefs H ls, p.2.ty.FieldsDistinct) {E : Env} (hH : E.H = H) (hE : E.sys = sys.types)
    {D : Bytes → Prop} (hbas : ∀ p ∈ allDefs H ls, Basic H D p.1 p.2.ty) (hc : ¬ Collision H D)
    (hD : ∀ x ∈ basicTexts, D x)
    (h1 : ∀ n, 1 ≤ n → n ≤ 8 → E.primSize (BitVec.ofNat 8 n) = n)
    (h2 : ∀ n, n = 1 ∨ n = 2 ∨ n = 4 ∨ n = 8 → E.primSize (BitVec.ofNat 8 (0x40 + n)) = n)
    (h3 : E.primSize Ty.BYTE_CODE = 1) : E.Sane := by
  have hdef : ∀ id t, E.find id = some t → ∃ o, (id, ⟨o, t⟩) ∈ allDefs H ls := by
    intro id t h
    rw [Env.find, hE] at h
    exact (C58_definitions_partial H debug ls sys hw hs).1 id t h
  have hb : ∀ id t, E.find id = some t → (id = SemId.unit H → t = Ty.UNIT) ∧
      (id.isByte H = true → t = Ty.BYTE ∨ t = Ty.U8) ∧ (id.isUnicodeChar H = true → t = .unicodeChar) := by
    intro id t h
    obtain ⟨o, h⟩ := hdef id t h
    exact Basic.types hc hD (hbas _ h)
  subst hH
  refine ⟨?_, ?_, ?_, ?_, ?_, ?_, h1, h2, h3⟩
  · intro id t h
    obtain ⟨o, h⟩ := hdef id t h
    exact allDefs_wf (fun l hl => (hw l hl).types) _ h
  · intro id t h
    obtain ⟨o, h⟩ := hdef id t h
    exact hf _ h
  · intro id t h r hr
    have := (C14_complete_partial E.H debug ls sys hw hs).2 hl
    rw [Env.find, hE] at h
    have := this id t h r hr
    rw [Env.find, hE]
    exact this
  · intro t h
    exact (hb _ t h).1 rfl
  · intro id t hid h
    exact (hb _ t h).2.1 hid
  · intro id t hid h
    exact (hb _ t h).2.2 hid

/-- **C76**: a system assembled from complete libraries without repeated field names is fit for all the
theorems about values: types are within limits, every reference leads to a type, and the ids of the
unit, bytes and characters denote these types (or there is a hash collision). -/
theorem C76_system_sane (H : Hash) (debug : Bool) (ls : List TypeLib) (sys : SymbolicSys) (hw : ∀ l ∈ ls, l.WF)
    (hs : assembleSys H debug ls = .ok sys) (hl : ∀ l ∈ ls, l.Linked H ls)
    (hf : ∀ p ∈ allDefs H ls, p.2.ty.FieldsDistinct) (E : Env) (hH : E.H = H) (hE : E.sys = sys.types)
    (h1 : ∀ n, 1 ≤ n → n ≤ 8 → E.primSize (BitVec.ofNat 8 n) = n)
    (h2 : ∀ n, n = 1 ∨ n = 2 ∨ n = 4 ∨ n = 8 → E.primSize (BitVec.ofNat 8 (0x40 + n)) = n)
    (h3 : E.primSize Ty.BYTE_CODE = 1) : E.Sane ∨ Collision H fun x => x ∈ libTexts ls ∨ x ∈ basicTexts := by
  apply Classical.or_iff_not_imp_right.mpr
  intro hc
  exact system_sane hw hs hl hf hH hE (fun p hp => (allDefs_basic p hp).mono fun x hx => .inl hx) hc
    (fun x hx => .inr hx) h1 h2 h3

/-- Definitions of the libraries built, in whatever order they are. -/
theorem buildAll_defs {H : Hash} {debug : Bool} {cs : List Crate} {fuel : Nat} (hc : ¬ CrateCollision H debug fuel cs)
    (hb : Buildable debug cs) (hf : 65535 ≤ fuel) {ls ms : List TypeLib} (h : buildAll H debug fuel cs [] = .ok ls)
    (hp : ls.Perm ms) (p : SemId × SymTy) :
    p ∈ allDefs H ms ↔ ∃ c ∈ cs, ∃ s n, c.Owns s n ∧ ((∃ r ∈ (s.sem H).refs, ∃ t, r.Nests t ∧ p = unnamedDef H t) ∨
      p = (s.semId H, ⟨some ⟨c.name, n⟩, (s.sem H).mapRefs (TranspileRef.id H)⟩)) := by
  have ha := buildAll_built hc hb hf h
  have hall := allBuilt_all2 ha
  rw [allDefs, List.mem_flatMap]
  constructor
  · rintro ⟨l, hl, hpl⟩
    obtain ⟨c, hcm, before, hbt, -⟩ := allBuilt_mem ha l (hp.mem_iff.mpr hl)
    obtain ⟨s, n, h⟩ := (hbt.defs p).mp hpl
    exact ⟨c, hcm, s, n, h⟩
  · rintro ⟨c, hcm, s, n, ho, h⟩
    obtain ⟨l, hl, hof⟩ := all2_left hall hcm
    obtain ⟨d, hd, before, hbt, -⟩ := allBuilt_mem ha l hl
    have : d = c := nodup_map_inj hb.names hd hcm (hbt.name.symm.trans hof.name)
    subst this
    exact ⟨l, hp.mem_iff.mp hl, (hbt.defs p).mpr ⟨s, n, ho, h⟩⟩

/-- The texts of the definitions. -/
theorem defs_basic {H : Hash} {debug : Bool} {cs : List Crate} {fuel : Nat} (hc : ¬ CrateCollision H debug fuel cs)
    (hb : Buildable debug cs) (hf : 65535 ≤ fuel) {ls ms : List TypeLib} (h : buildAll H debug fuel cs [] = .ok ls)
    (hp : ls.Perm ms) : ∀ p ∈ allDefs H ms, Basic H (crateTexts H cs) p.1 p.2.ty := by
  intro p hpm
  obtain ⟨c, hcm, s, n, ho, ⟨r, hr, u, hu, rfl⟩ | rfl⟩ := (buildAll_defs hc hb hf h hp _).mp hpm
  · refine ⟨TranspileRef.commitTy u, ?_, ?_, ?_⟩
    · rcases s.nested_text r hr u hu with ⟨p, hsp, d, hd, e⟩ | e
      · obtain ⟨t, ht, hts⟩ := ho.1
        exact .inl ⟨d, ⟨c, hcm, p, ⟨t, ht, hts.trans hsp⟩, hd⟩, e⟩
      · rw [e]
        exact .inr basicTexts_mem.2.2.2
    · simp [unnamedDef, TranspileRef.id, TranspileRef.commit]
    · rw [TranspileRef.commitTy_eq]
      exact u.commit_basic _ _
  · refine ⟨s.text H, ho.1.text hcm, s.semId_text H, ?_, ?_⟩
    · intro c e
      have := ((s.text_basic H).1 c e).1
      rw [ho.2.2] at this
      cases this
    · intro e
      have := ((s.text_basic H).2 e).1
      rw [ho.2.2] at this
      cases this

theorem Buildable.owner {debug : Bool} {cs : List Crate} (hb : Buildable debug cs) {c : Crate} (hc : c ∈ cs) {p : RTy}
    (hp : c.Mentions p) {n : Name} (hn : p.name = Option.some n) : ∃ d ∈ cs, d.Owns p n := by
  obtain ⟨pre, post, e⟩ := List.append_of_mem hc
  rcases hb.layered pre c post e p hp (by simp [hn]) with h | ⟨d, hd, hm, h⟩
  · exact ⟨c, hc, hp, h, hn⟩
  · exact ⟨d, by rw [e]; simp [hd], hm, h, hn⟩

theorem Buildable.node_named {debug : Bool} {cs : List Crate} (hb : Buildable debug cs) {c : Crate} (hc : c ∈ cs) {p : RTy}
    (hp : c.Mentions p) : p.Named := by
  have := (hb.limits c hc p hp).2.2
  cases p with
  | record lib name isTuple fs =>
    cases isTuple with
    | true => trivial
    | false => exact this.2 rfl
  | _ => trivial

theorem RTy.Contains.cases_last {s q : RTy} (h : s.Contains q) : s = q ∨ ∃ m, s.Contains m ∧ q ∈ m.parts := by
  induction h with
  | refl => exact .inl rfl
  | @step t p q hp h ih =>
    rcases ih with rfl | ⟨m, hm, hq⟩
    · exact .inr ⟨t, .refl _, hp⟩
    · exact .inr ⟨m, .step hp hm, hq⟩

/-- Everything owned by the crates or mentioned by it is in the system. -/
theorem holds_all {H : Hash} {debug : Bool} {cs : List Crate} {fuel : Nat} (hc : ¬ CrateCollision H debug fuel cs)
    (hb : Buildable debug cs) (hf : 65535 ≤ fuel) {ls ms : List TypeLib} (h : buildAll H debug fuel cs [] = .ok ls)
    (hp : ls.Perm ms) {sys : SymbolicSys} (hs : assembleSys H debug ms = .ok sys)
    (hcon : Consistent (allDefs H ms)) {c : Crate} (hcm : c ∈ cs) {s : RTy} {n : Name} (ho : c.Owns s n) {q : RTy}
    (hq : s.Contains q) : Holds H sys.types q := by
  have hw : ∀ l ∈ ms, l.WF := fun l hl => buildAll_wf hc hb hf h l (hp.mem_iff.mpr hl)
  have hget := (C58_definitions_partial H debug ms sys hw hs).2.2 hcon
  have hown : ∀ d ∈ cs, ∀ s n, d.Owns s n → Holds H sys.types s := by
    intro d hd s n ho
    refine ⟨hget _ ((buildAll_defs hc hb hf h hp _).mpr ⟨d, hd, s, n, ho, .inr rfl⟩), fun r hr t ht => ?_⟩
    exact hget _ ((buildAll_defs hc hb hf h hp (unnamedDef H t)).mpr ⟨d, hd, s, n, ho, .inl ⟨r, hr, t, ht, rfl⟩⟩)
  have hment : ∀ p, s.Contains p → c.Mentions p := fun p hp => by
    obtain ⟨t, ht, hts⟩ := ho.1
    exact ⟨t, ht, hts.trans hp⟩
  suffices ∀ k : Nat, ∀ q, sizeOf s ≤ sizeOf q + k → s.Contains q → Holds H sys.types q from
    this (sizeOf s) q (by omega) hq
  intro k
  induction k with
  | zero =>
    intro q hk hq
    rcases hq.cases_last with rfl | ⟨m, hm, hqm⟩
    · exact hown c hcm _ n ho
    · have := RTy.parts_lt hqm
      have := hm.le
      omega
  | succ k ih =>
    intro q hk hq
    cases hqn : q.name with
    | some m =>
      obtain ⟨d, hd, hod⟩ := hb.owner hcm (hment q hq) hqn
      exact hown d hd q m hod
    | none =>
      rcases hq.cases_last with rfl | ⟨m, hm, hqm⟩
      · exact hown c hcm _ n ho
      · have := RTy.parts_lt hqm
        exact (ih m (by omega) hm).part (hb.node_named hcm (hment m hm)) hqm hqn

/-- **C76, partial** (the second half for systems where definitions with the same id are the same; without
that it is `C58_definitions_violated`): a system assembled from the libraries of crates contains the types
the crates own, the types those mention, the character of unicode strings and the tails of restricted
strings, each under its id, and nothing else (or there is a hash collision). -/
theorem C76_contents_partial (H : Hash) (debug : Bool) (cs : List Crate) (hb : Buildable debug cs)
    (fuel : Nat) (hf : 65535 ≤ fuel) (ls ms : List TypeLib) (h : buildAll H debug fuel cs [] = .ok ls)
    (hp : ls.Perm ms) (sys : SymbolicSys) (hs : assembleSys H debug ms = .ok sys) :
    ((∀ id t, sys.types.get id = some t → ∃ c ∈ cs, ∃ s n q, c.Owns s n ∧ s.Contains q ∧ q.Entry H id t) ∧
      (Consistent (allDefs H ms) → ∀ c ∈ cs, ∀ s n q id t, c.Owns s n → s.Contains q → q.Entry H id t →
        sys.types.get id = some t)) ∨ CrateCollision H debug fuel cs := by
  by_cases hc : CrateCollision H debug fuel cs
  · exact .inr hc
  have hw : ∀ l ∈ ms, l.WF := fun l hl => buildAll_wf hc hb hf h l (hp.mem_iff.mpr hl)
  refine .inl ⟨fun id t hg => ?_, fun hcon c hcm s n q id t ho hq he => ?_⟩
  · obtain ⟨o, hd⟩ := (C58_definitions_partial H debug ms sys hw hs).1 id t hg
    obtain ⟨c, hcm, s, n, ho, ⟨r, hr, u, hu, e⟩ | e⟩ := (buildAll_defs hc hb hf h hp _).mp hd
    · obtain ⟨p, hp, he⟩ := s.nested r hr u hu
      simp only [unnamedDef, Prod.mk.injEq, SymTy.mk.injEq] at e
      obtain ⟨rfl, -, rfl⟩ := e
      exact ⟨c, hcm, s, n, p, ho, hp, he⟩
    · simp only [Prod.mk.injEq, SymTy.mk.injEq] at e
      obtain ⟨rfl, -, rfl⟩ := e
      exact ⟨c, hcm, s, n, s, ho, .refl _, .self s⟩
  · have hh := holds_all hc hb hf h hp hs hcon hcm ho hq
    cases he with
    | self => exact hh.1
    | char => exact hh.find_unicode
    | tail c c1 sz => exact hh.find_tail

/-- **C76**: the same for crates: if no Rust struct has two fields of the same name, the system assembled
from their libraries is fit for all the theorems about values (or there is a hash collision). -/
theorem C76_crates_sane (H : Hash) (debug : Bool) (cs : List Crate) (hb : Buildable debug cs)
    (fuel : Nat) (hf : 65535 ≤ fuel) (ls ms : List TypeLib) (h : buildAll H debug fuel cs [] = .ok ls)
    (hp : ls.Perm ms) (sys : SymbolicSys) (hs : assembleSys H debug ms = .ok sys)
    (hd : ∀ c ∈ cs, ∀ q, c.Mentions q → q.DistinctFields) (E : Env) (hH : E.H = H) (hE : E.sys = sys.types)
    (h1 : ∀ n, 1 ≤ n → n ≤ 8 → E.primSize (BitVec.ofNat 8 n) = n)
    (h2 : ∀ n, n = 1 ∨ n = 2 ∨ n = 4 ∨ n = 8 → E.primSize (BitVec.ofNat 8 (0x40 + n)) = n)
    (h3 : E.primSize Ty.BYTE_CODE = 1) : E.Sane ∨ CrateCollision H debug fuel cs := by
  by_cases hc : CrateCollision H debug fuel cs
  · exact .inr hc
  have hw : ∀ l ∈ ms, l.WF := fun l hl => buildAll_wf hc hb hf h l (hp.mem_iff.mpr hl)
  have hl : ∀ l ∈ ms, l.Linked H ms := by
    intro l hl
    obtain ⟨h1, h2⟩ := buildAll_linked hc hb hf h l (hp.mem_iff.mpr hl)
    refine fun p hq r hr => ⟨fun id hid => ?_, fun e he => ?_⟩
    · obtain ⟨m, hm, x⟩ := (h1 p hq r hr).1 id hid
      exact ⟨m, hp.mem_iff.mp hm, x⟩
    · obtain ⟨m, hm, x⟩ := (h1 p hq r hr).2 e he
      exact ⟨m, hp.mem_iff.mp hm, x⟩
  refine .inl (system_sane hw hs hl ?_ hH hE (defs_basic hc hb hf h hp) (fun h => hc (.inl h)) (fun x hx => .inr hx)
    h1 h2 h3)
  intro p hpd
  have hentry : ∀ c ∈ cs, ∀ q, c.Mentions q → ∀ id t, q.Entry H id t → t.FieldsDistinct := by
    intro c hcm q hq id t he
    cases he with
    | self =>
      have hdq := hd c hcm q hq
      have hn := hb.node_named hcm hq
      change (q.img H).FieldsDistinct
      cases q with
      | record lib name isTuple fs =>
        cases fs with
        | nil => rw [RTy.img_empty]; trivial
        | cons f fs =>
          cases isTuple with
          | true => rw [RTy.img_tuple rfl]; trivial
          | false =>
            rw [RTy.img_struct rfl]
            exact fields_nodup hn hdq
      | unicode => rw [RTy.img_unicode]; trivial
      | rstring => rw [RTy.img_rstring]; trivial
      | union => rw [RTy.img_union]; trivial
      | _ => trivial
    | char => trivial
    | tail => trivial
  obtain ⟨c, hcm, s, n, ho, ⟨r, hr, u, hu, rfl⟩ | rfl⟩ := (buildAll_defs hc hb hf h hp _).mp hpd
  · obtain ⟨q, hq, he⟩ := s.nested r hr u hu
    obtain ⟨t, ht, hts⟩ := ho.1
    exact hentry c hcm q ⟨t, ht, hts.trans hq⟩ _ _ he
  · exact hentry c hcm s ho.1 _ _ (.self s)

/-! ## C77 -/

/-- The types of crates are fit for reading and writing. -/
theorem crates_fit {H : Hash} {debug : Bool} {cs : List Crate} {fuel : Nat} (hc : ¬ CrateCollision H debug fuel cs)
    (hb : Buildable debug cs) (hf : 65535 ≤ fuel) {ls ms : List TypeLib} (h : buildAll H debug fuel cs [] = .ok ls)
    (hp : ls.Perm ms) {sys : SymbolicSys} (hs : assembleSys H debug ms = .ok sys)
    (hcon : Consistent (allDefs H ms)) {E : Env} (hH : E.H = H) (hE : E.sys = sys.types)
    {c : Crate} (hcm : c ∈ cs) {s : RTy} {n : Name} (ho : c.Owns s n) {q : RTy}
    (hq : s.Contains q) (hok : ∀ p, q.Contains p → p.DistinctFields ∧ p.Ordinary ∧ ¬ p.LooksLikeString) :
    ∀ p, q.Contains p → Fit E p := by
  subst hH
  intro p hqp
  have hment : c.Mentions p := by
    obtain ⟨t, ht, hts⟩ := ho.1
    exact ⟨t, ht, hts.trans (hq.trans hqp)⟩
  obtain ⟨h1, h2, h3⟩ := hok p hqp
  refine ⟨?_, hb.node_named hcm hment, h1, ?_, h2, h3,
    RTy.plain (fun h => hc (.inl h)) (fun x hx => .inr hx) (hment.text hcm)⟩
  · rw [hE]
    exact holds_all hc hb hf h hp hs hcon hcm ho (hq.trans hqp)
  · obtain ⟨hd, hn⟩ := hb.limits c hcm p hment
    exact Ty.wf_mapRefs _ (RTy.tyWith_wf hd hn)

/-- Reading and writing values of Rust types, everything at once. -/
theorem crates_writes {H : Hash} {debug : Bool} {cs : List Crate} {fuel : Nat} (hc : ¬ CrateCollision H debug fuel cs)
    (hb : Buildable debug cs) (hf : 65535 ≤ fuel) {ls ms : List TypeLib} (h : buildAll H debug fuel cs [] = .ok ls)
    (hp : ls.Perm ms) {sys : SymbolicSys} (hs : assembleSys H debug ms = .ok sys)
    (hcon : Consistent (allDefs H ms)) {E : Env} (hH : E.H = H) (hE : E.sys = sys.types)
    (hm : 2 ^ 32 * (2 * E.valSize) < 2 ^ 63) {c : Crate} (hcm : c ∈ cs) {s : RTy} {n : Name} (ho : c.Owns s n) {q : RTy}
    (hq : s.Contains q) (hok : ∀ p, q.Contains p → p.DistinctFields ∧ p.Ordinary ∧ ¬ p.LooksLikeString) {A B : Prop}
    (hps : B → PrimSizes E) (hB : B → ∀ p, q.Contains p → ¬ p.ItemArray) (hA : A → ∀ p, q.Contains p → p.UpTo64)
    {v : Val} {bs : Bytes} (hv : q.Writes v bs)
    {rfuel : Nat} (hr : sizeOf q ≤ rfuel) : RW A B (write E rfuel v (q.semId H)) (read E rfuel (q.semId H)) v bs := by
  have hfit := crates_fit hc hb hf h hp hs hcon hH hE hcm ho hq hok
  subst hH
  exact writes_all hps hm q hfit (fun p hp hb => hB hb p hp) (fun p hp ha => hA ha p hp) rfuel hr v bs hv

/-- **C77, partial** (for systems where definitions with the same id are the same, and for types without
tuples which look like restricted strings, see `C77_read_violated`; numbers up to 64 bits, see
`C77_u128_violated`; collections of less than `2 ^ 32` items): whatever a Rust program writes for a value of a type owned by one of the crates,
or mentioned by such a type, is read back as this value with the type system assembled from the libraries
of the crates. What follows is left (or there is a hash collision). -/
theorem C77_read_partial (H : Hash) (debug : Bool) (cs : List Crate) (hb : Buildable debug cs)
    (fuel : Nat) (hf : 65535 ≤ fuel) (ls ms : List TypeLib) (h : buildAll H debug fuel cs [] = .ok ls)
    (hp : ls.Perm ms) (sys : SymbolicSys) (hs : assembleSys H debug ms = .ok sys)
    (hcon : Consistent (allDefs H ms)) (E : Env) (hH : E.H = H) (hE : E.sys = sys.types)
    (hm : 2 ^ 32 * (2 * E.valSize) < 2 ^ 63) (c : Crate) (hcm : c ∈ cs) (s : RTy) (n : Name) (ho : c.Owns s n) (q : RTy)
    (hq : s.Contains q) (hok : ∀ p, q.Contains p → p.DistinctFields ∧ p.Ordinary ∧ ¬ p.LooksLikeString ∧ p.UpTo64)
    (v : Val) (bs : Bytes) (hv : q.Writes v bs) (rfuel : Nat) (hr : sizeOf q ≤ rfuel) :
    ((∀ rest, read E rfuel (q.semId H) (bs ++ rest) = .ok (v, rest)) ∧
      deserialize E rfuel (q.semId H) bs = .ok v) ∨ CrateCollision H debug fuel cs := by
  by_cases hc : CrateCollision H debug fuel cs
  · exact .inr hc
  have := (crates_writes hc hb hf h hp hs hcon hH hE hm hcm ho hq
    (fun p hp => ⟨(hok p hp).1, (hok p hp).2.1, (hok p hp).2.2.1⟩) (A := True) (B := False) (fun h => h.elim)
    (fun h => h.elim) (fun _ p hp => (hok p hp).2.2.2) hv hr).2 trivial
  refine .inl ⟨this, ?_⟩
  have := this []
  rw [List.append_nil] at this
  simp [deserialize, this]

/-! ## C78 -/

/-- **C78, partial** (under the conditions of C77, except that numbers have up to 128 bits, and without arrays of
anything but bytes, the writing of which is not implemented): the dynamic value of a Rust value is written as the bytes the Rust program
writes (or there is a hash collision). -/
theorem C78_write_partial (H : Hash) (debug : Bool) (cs : List Crate) (hb : Buildable debug cs)
    (fuel : Nat) (hf : 65535 ≤ fuel) (ls ms : List TypeLib) (h : buildAll H debug fuel cs [] = .ok ls)
    (hp : ls.Perm ms) (sys : SymbolicSys) (hs : assembleSys H debug ms = .ok sys)
    (hcon : Consistent (allDefs H ms)) (E : Env) (hH : E.H = H) (hE : E.sys = sys.types)
    (hm : 2 ^ 32 * (2 * E.valSize) < 2 ^ 63)
    (h1 : ∀ n, 1 ≤ n → n ≤ 16 → E.primSize (BitVec.ofNat 8 n) = n)
    (h2 : ∀ n, n = 1 ∨ n = 2 ∨ n = 4 ∨ n = 8 ∨ n = 16 → E.primSize (BitVec.ofNat 8 (0x40 + n)) = n)
    (h3 : E.primSize Ty.BYTE_CODE = 1) (c : Crate) (hcm : c ∈ cs) (s : RTy) (n : Name) (ho : c.Owns s n) (q : RTy)
    (hq : s.Contains q) (hok : ∀ p, q.Contains p → p.DistinctFields ∧ p.Ordinary ∧ ¬ p.LooksLikeString)
    (ha : ∀ p, q.Contains p → ¬ p.ItemArray)
    (v : Val) (bs : Bytes) (hv : q.Writes v bs) (wfuel : Nat) (hr : sizeOf q ≤ wfuel) :
    write E wfuel v (q.semId H) = .ok bs ∨ CrateCollision H debug fuel cs := by
  by_cases hc : CrateCollision H debug fuel cs
  · exact .inr hc
  exact .inl ((crates_writes hc hb hf h hp hs hcon hH hE hm hcm ho hq hok (A := False) (B := True)
    (fun _ => ⟨h1, h2, h3⟩) (fun _ => ha) (fun h => h.elim) hv hr).1 trivial)

/-! ### A crate for which both fail -/

/-- The only letter. -/
def wLetter : RTy := .enum n!"Words" (some n!"L") [⟨n!"a", 97⟩]

/-- A letter and a list of letters. -/
def wWord : RTy := .record n!"Words" (some n!"Word") true [(none, wLetter), (none, .list wLetter ⟨0, 255⟩)]

/-- Two numbers. -/
def wPair : RTy := .record n!"Words" (some n!"Pair") true [(none, .array (.prim 2) 2)]

/-- The crate with these types. -/
def wCrate : Crate := ⟨n!"Words", [wWord, wPair]⟩

theorem wWord_contains {s : RTy} : wWord.Contains s ↔ s = wWord ∨ s = wLetter ∨ s = .list wLetter ⟨0, 255⟩ := by
  have hl : ∀ s, wLetter.Contains s ↔ s = wLetter := by
    intro s; rw [RTy.contains_iff]; simp [RTy.parts, wLetter]
  have hll : ∀ s, (RTy.list wLetter ⟨0, 255⟩).Contains s ↔ s = .list wLetter ⟨0, 255⟩ ∨ s = wLetter := by
    intro s; rw [RTy.contains_iff]
    simp only [RTy.parts, List.mem_cons, List.not_mem_nil, or_false, exists_eq_left, hl]
  rw [RTy.contains_iff]
  rw [show wWord.parts = [wLetter, .list wLetter ⟨0, 255⟩] from rfl]
  simp only [List.mem_cons, List.not_mem_nil, or_false, or_and_right, exists_or, exists_eq_left, hl, hll]
  constructor
  · rintro (h | h | h | h) <;> simp [h]
  · rintro (h | h | h) <;> simp [h]

theorem wPair_contains {s : RTy} : wPair.Contains s ↔ s = wPair ∨ s = .array (.prim 2) 2 ∨ s = .prim 2 := by
  have hprim : ∀ s, (RTy.prim 2).Contains s ↔ s = .prim 2 := by
    intro s; rw [RTy.contains_iff]; simp [RTy.parts]
  have harr : ∀ s, (RTy.array (.prim 2) 2).Contains s ↔ s = .array (.prim 2) 2 ∨ s = .prim 2 := by
    intro s; rw [RTy.contains_iff]
    simp only [RTy.parts, List.mem_cons, List.not_mem_nil, or_false, exists_eq_left, hprim]
  rw [RTy.contains_iff]
  rw [show wPair.parts = [.array (.prim 2) 2] from rfl]
  simp only [List.mem_cons, List.not_mem_nil, or_false, exists_eq_left, harr]

theorem wCrate_mentions {s : RTy} : wCrate.Mentions s ↔
    s ∈ [wWord, wLetter, .list wLetter ⟨0, 255⟩, wPair, .array (.prim 2) 2, .prim 2] := by
  unfold Crate.Mentions
  rw [show wCrate.types = [wWord, wPair] from rfl]
  simp only [List.mem_cons, List.not_mem_nil, or_false, or_and_right, exists_or, exists_eq_left, wWord_contains,
    wPair_contains, or_assoc]

theorem wCrate_owns {s : RTy} {n : Name} (h : wCrate.Owns s n) :
    s = wWord ∧ n = n!"Word" ∨ s = wLetter ∧ n = n!"L" ∨ s = wPair ∧ n = n!"Pair" := by
  obtain ⟨hm, -, hn⟩ := h
  have h := wCrate_mentions.mp hm
  simp only [List.mem_cons, List.not_mem_nil, or_false] at h
  rcases h with rfl | rfl | rfl | rfl | rfl | rfl <;> cases hn <;> simp

theorem wCrate_buildable (debug : Bool) : Buildable debug [wCrate] := by
  refine ⟨by decide, by decide, by decide, ?_, ?_, ?_, ?_, ?_, ?_⟩
  · intro c hc
    rw [List.mem_singleton] at hc
    subst hc
    exact ⟨wWord, n!"Word", wCrate_mentions.mpr (by simp), rfl, rfl⟩
  · intro c hc
    rw [List.mem_singleton] at hc
    subst hc
    refine ⟨[n!"Word", n!"L", n!"Pair"], by decide, fun s n h => ?_⟩
    rcases wCrate_owns h with ⟨-, rfl⟩ | ⟨-, rfl⟩ | ⟨-, rfl⟩ <;> simp
  · intro c hc s hm
    rw [List.mem_singleton] at hc
    subst hc
    have h := wCrate_mentions.mp hm
    simp only [List.mem_cons, List.not_mem_nil, or_false] at h
    rcases h with rfl | rfl | rfl | rfl | rfl | rfl <;>
    simp [RTy.DistinctVariants, RTy.NodeOk, RTy.name, RTy.lib, wWord, wLetter, wPair, wCrate]
  · intro c hc s n h
    rw [List.mem_singleton] at hc
    subst hc
    rcases wCrate_owns h with ⟨rfl, -⟩ | ⟨rfl, -⟩ | ⟨rfl, -⟩
    · simp [wWord, wLetter, RTy.sem, RTy.tyWith, RTy.tyWithFields, RTy.tyWithField,
          absolute, RTy.name, RTy.lib, Ty.DepthLe, Ty.refs, TranspileRef.DepthLe]
    · simp [wLetter, RTy.sem, RTy.tyWith, Ty.DepthLe, Ty.refs]
    · simp [wPair, RTy.sem, RTy.tyWith, RTy.tyWithFields, RTy.tyWithField,
          absolute, RTy.name, Ty.DepthLe, Ty.refs, TranspileRef.DepthLe]
  · intro c hc d hd s s' hs hs' h1 h2 h3
    rw [List.mem_singleton] at hc hd
    subst hc hd
    have h := wCrate_mentions.mp hs
    have h' := wCrate_mentions.mp hs'
    simp only [List.mem_cons, List.not_mem_nil, or_false] at h h'
    rcases h with rfl | rfl | rfl | rfl | rfl | rfl <;> rcases h' with rfl | rfl | rfl | rfl | rfl | rfl <;>
    first
      | rfl
      | exact absurd h3 (by decide)
      | exact absurd h1 (by decide)
  · intro pre c post e s hs hn
    have hc : c ∈ [wCrate] := by rw [e]; simp
    rw [List.mem_singleton] at hc
    subst hc
    have h := wCrate_mentions.mp hs
    simp only [List.mem_cons, List.not_mem_nil, or_false] at h
    rcases h with rfl | rfl | rfl | rfl | rfl | rfl
    · exact .inl rfl
    · exact .inl rfl
    · exact absurd rfl hn
    · exact .inl rfl
    · exact absurd rfl hn
    · exact absurd rfl hn

theorem wCrate_ids {H : Hash} (hc : ¬ Collision H (crateTexts H [wCrate])) {s s' : RTy} (hs : wCrate.Mentions s) (hs' : wCrate.Mentions s')
    (h : s.semId H = s'.semId H) : s = s' := by
  have hk : (s.text H).take 2 = (s'.text H).take 2 := by
    rw [RTy.semId_text, RTy.semId_text] at h
    rw [semHash_inj hc (hs.text (List.mem_singleton.mpr rfl)) (hs'.text (List.mem_singleton.mpr rfl)) h]
  rw [wCrate_mentions] at hs hs'
  simp only [List.mem_cons, List.not_mem_nil, or_false] at hs hs'
  rcases hs with rfl | rfl | rfl | rfl | rfl | rfl <;> rcases hs' with rfl | rfl | rfl | rfl | rfl | rfl <;>
  first
    | rfl
    | (exfalso
       simp [RTy.text, RTy.name, wWord, wLetter, wPair, Name.commit, RTy.sem, RTy.tyWith,
        TranspileRef.commitTy, Cls.code, RTy.tyWithFields] at hk
       done)

theorem wCrate_system {H : Hash} {debug : Bool} (hc : ¬ CrateCollision H debug 65535 [wCrate]) : ∃ ls sys,
    buildAll H debug 65535 [wCrate] [] = .ok ls ∧ assembleSys H debug ls = .ok sys ∧ Consistent (allDefs H ls) ∧
    ∀ s, wCrate.Mentions s → sys.types.get (s.semId H) = some (s.img H) := by
  have hb := wCrate_buildable debug
  obtain ⟨ls, h, -⟩ := (C66_crates_build H debug _ hb 65535 (by decide)).resolve_right hc
  have hdefs : ∀ p ∈ allDefs H ls, ∃ s, wCrate.Mentions s ∧ p.1 = s.semId H ∧ p.2.ty = s.img H := by
    intro p hp
    have hentry : ∀ q, wCrate.Mentions q → ∀ id t, q.Entry H id t → id = q.semId H ∧ t = q.img H := by
      intro q hq id t he
      cases he with
      | self => exact ⟨rfl, rfl⟩
      | char sz => exact absurd (wCrate_mentions.mp hq) (by simp [wWord, wLetter, wPair])
      | tail c c1 sz => exact absurd (wCrate_mentions.mp hq) (by simp [wWord, wLetter, wPair])
    obtain ⟨c, hcm, s, n, ho, ⟨r, hr, u, hu, rfl⟩ | rfl⟩ := (buildAll_defs hc hb (by decide) h (.refl _) _).mp hp
    · rw [List.mem_singleton] at hcm
      subst hcm
      obtain ⟨q, hq, he⟩ := s.nested r hr u hu
      obtain ⟨t, ht, hts⟩ := ho.1
      exact ⟨q, ⟨t, ht, hts.trans hq⟩, hentry q ⟨t, ht, hts.trans hq⟩ _ _ he⟩
    · rw [List.mem_singleton] at hcm
      subst hcm
      exact ⟨s, ho.1, rfl, rfl⟩
  have hcon : Consistent (allDefs H ls) := by
    intro p hp p' hp' e
    obtain ⟨s, hs, h1, h2⟩ := hdefs p hp
    obtain ⟨s', hs', h1', h2'⟩ := hdefs p' hp'
    rw [h1, h1'] at e
    rw [h2, h2', wCrate_ids (fun h => hc (.inl h)) hs hs' e]
  obtain ⟨sys, hs, -, -⟩ := (C67_system_complete H debug _ hb 65535 (by decide) ls ls h (.refl _)
    (by
      intro _ p hp
      obtain ⟨s, hs, -, h2⟩ := hdefs p hp
      rw [h2]
      rw [wCrate_mentions] at hs
      simp only [List.mem_cons, List.not_mem_nil, or_false] at hs
      rcases hs with rfl | rfl | rfl | rfl | rfl | rfl <;>
      simp [wWord, wLetter, wPair, RTy.img_tuple, RTy.img_enum, RTy.img_list, RTy.img_array, Ty.refs]
      simp [RTy.img, RTy.sem, RTy.tyWith, Ty.mapRefs])
    ⟨[wWord, wLetter, .list wLetter ⟨0, 255⟩, wPair, .array (.prim 2) 2, .prim 2].map (RTy.semId H), by simp, fun p hp => by
      obtain ⟨s, hs, h1, -⟩ := hdefs p hp
      rw [h1]
      exact List.mem_map_of_mem (wCrate_mentions.mp hs)⟩).resolve_right hc
  refine ⟨ls, sys, h, hs, hcon, fun s hm => ?_⟩
  have hW : wCrate.Owns wWord n!"Word" := ⟨wCrate_mentions.mpr (by simp), rfl, rfl⟩
  have hP : wCrate.Owns wPair n!"Pair" := ⟨wCrate_mentions.mpr (by simp), rfl, rfl⟩
  obtain ⟨t, ht, hts⟩ := hm
  rw [show wCrate.types = [wWord, wPair] from rfl] at ht
  simp only [List.mem_cons, List.not_mem_nil, or_false] at ht
  rcases ht with rfl | rfl
  · exact (holds_all hc hb (by decide) h (.refl _) hs hcon (List.mem_singleton.mpr rfl) hW hts).1
  · exact (holds_all hc hb (by decide) h (.refl _) hs hcon (List.mem_singleton.mpr rfl) hP hts).1

/-- **C77 is violated** for a tuple of a letter and a list of letters: the deserialiser takes it for a
restricted string, which has its length in front. A word of two letters `a` is written by a Rust program
as `a`, the length 1 and `a`; the first letter is read as the length, 97, and reading fails (or there is a
hash collision). -/
theorem C77_read_violated (H : Hash) (debug : Bool) :
    (∃ (cs : List Crate) (c : Crate) (s : RTy) (n : Name) (ls : List TypeLib) (sys : SymbolicSys) (v : Val) (bs : Bytes),
      Buildable debug cs ∧ buildAll H debug 65535 cs [] = .ok ls ∧ assembleSys H debug ls = .ok sys ∧
      Consistent (allDefs H ls) ∧ c ∈ cs ∧ c.Owns s n ∧ (∀ p, s.Contains p → p.DistinctFields ∧ p.Ordinary) ∧
      s.Writes v bs ∧ ∀ E : Env, E.H = H → E.sys = sys.types → ∀ fuel, 0 < fuel →
        deserialize E fuel (s.semId H) bs = .err .io) ∨ CrateCollision H debug 65535 [wCrate] := by
  by_cases hc : CrateCollision H debug 65535 [wCrate]
  · exact .inr hc
  obtain ⟨ls, sys, h1, h2, h3, h4⟩ := wCrate_system hc
  refine .inl ⟨[wCrate], wCrate, wWord, n!"Word", ls, sys, .tuple [.enum (.name n!"a"), .str [97]], [97, 1, 97],
    wCrate_buildable debug, h1, h2, h3, by simp, ⟨wCrate_mentions.mpr (by simp), rfl, rfl⟩, ?_, ?_, ?_⟩
  · intro p hp
    rw [wWord_contains] at hp
    rcases hp with rfl | rfl | rfl <;> simp [wWord, wLetter, RTy.DistinctFields, RTy.Ordinary]
  · show ∃ l, _ = _ ∧ _
    refine ⟨[(none, .enum (.name n!"a")), (none, .str [97])], rfl, ?_⟩
    refine ⟨_, _, [97], [1, 97], rfl, rfl, ⟨⟨n!"a", 97⟩, by simp, rfl, rfl⟩, ?_⟩
    refine ⟨_, _, [1, 97], [], rfl, rfl, ?_, rfl, rfl⟩
    show ∃ s, _ = _ ∧ _
    refine ⟨[97], rfl, ?_, by simp [Sizing.Allows], rfl⟩
    intro b hb
    rw [List.mem_singleton] at hb
    exact ⟨[⟨n!"a", 97⟩], rfl, ⟨n!"a", 97⟩, by simp, hb.symm⟩
  · intro E hH hE fuel hf
    subst hH
    cases fuel with
    | zero => omega
    | succ fuel =>
      have hW := h4 wWord (wCrate_mentions.mpr (by simp))
      have hL := h4 wLetter (wCrate_mentions.mpr (by simp))
      have hl := h4 (.list wLetter ⟨0, 255⟩) (wCrate_mentions.mpr (by simp))
      rw [← hE] at hW hL hl
      change E.find _ = _ at hW hL hl
      rw [RTy.img_list] at hl
      rw [show wLetter.img E.H = .enum (byTag Variant.tag [⟨n!"a", 97⟩]) from RTy.img_enum] at hL
      rw [show wWord.img E.H = .tuple [wLetter.semId E.H, (RTy.list wLetter ⟨0, 255⟩).semId E.H] from
        RTy.img_tuple rfl] at hW
      have hC : CharVariants (byTag Variant.tag [⟨n!"a", 97⟩]) := by
        intro v hv
        rw [mem_byTag, List.mem_singleton] at hv
        subst hv
        decide
      obtain ⟨k1, d, k2⟩ := isRString_true ⟨_, _, _, rfl, hL, hC, hl, hL, hC⟩ (Or.inr (by decide))
      simp only [deserialize, read, hW, readTy, readTupleTy, k1, k2, ofUnknown, Out.mapErr, Out.bind_ok, if_true]
      rfl

/-- **C77 is violated** for numbers of 128 bits: reading them is not implemented, in any system with such a type. -/
theorem C77_u128_violated (E : Env) (c : Byte) (hc : c = 0x10 ∨ c = 0x50)
    (hf : E.find ((RTy.prim c).semId E.H) = some (.primitive c)) (fuel : Nat) :
    (∃ v bs, (RTy.prim c).Writes v bs) ∧ ∀ v bs, (RTy.prim c).Writes v bs →
      deserialize E (fuel + 1) ((RTy.prim c).semId E.H) bs = .err .notImplemented := by
  refine ⟨?_, fun v bs _ => ?_⟩
  · rcases hc with rfl | rfl
    · exact ⟨_, _, PrimWrites.bigUint (n := 16) (x := 0#1024) (by decide) (by decide) (by rw [BitVec.toNat_zero]; decide)⟩
    · exact ⟨_, _, PrimWrites.bigInt (x := 0) (by simp) (by simp)⟩
  · simp only [deserialize, read, hf, readTy]
    rcases hc with rfl | rfl <;> rfl

/-- A system with both types. -/
example : let E : Env := { exE true with sys := [((RTy.prim 0x10).semId toyHash, .primitive 0x10), ((RTy.prim 0x50).semId toyHash, .primitive 0x50)] }
    E.find ((RTy.prim 0x10).semId E.H) = some (.primitive 0x10) ∧
    E.find ((RTy.prim 0x50).semId E.H) = some (.primitive 0x50) := by decide +kernel

/-- **C78 is violated** for arrays of anything but bytes: their dynamic values, which are read back as they
should be, cannot be written (or there is a hash collision). -/
theorem C78_array_violated (H : Hash) (debug : Bool) :
    (∃ (cs : List Crate) (c : Crate) (s : RTy) (n : Name) (ls : List TypeLib) (sys : SymbolicSys) (v : Val) (bs : Bytes),
      Buildable debug cs ∧ buildAll H debug 65535 cs [] = .ok ls ∧ assembleSys H debug ls = .ok sys ∧
      Consistent (allDefs H ls) ∧ c ∈ cs ∧ c.Owns s n ∧
      (∀ p, s.Contains p → p.DistinctFields ∧ p.Ordinary ∧ ¬ p.LooksLikeString) ∧
      s.Writes v bs ∧ ∀ E : Env, E.H = H → E.sys = sys.types → ∀ fuel, 1 < fuel →
        write E fuel v (s.semId H) = .panic) ∨ CrateCollision H debug 65535 [wCrate] := by
  by_cases hc : CrateCollision H debug 65535 [wCrate]
  · exact .inr hc
  obtain ⟨ls, sys, h1, h2, h3, h4⟩ := wCrate_system hc
  refine .inl ⟨[wCrate], wCrate, wPair, n!"Pair", ls, sys, .tuple [.list [.num (.uint 258), .num (.uint 1)]], [2, 1, 1, 0],
    wCrate_buildable debug, h1, h2, h3, by simp, ⟨wCrate_mentions.mpr (by simp), rfl, rfl⟩, ?_, ?_, ?_⟩
  · intro p hp
    rw [wPair_contains] at hp
    rcases hp with rfl | rfl | rfl <;> simp [wPair, RTy.DistinctFields, RTy.Ordinary, RTy.LooksLikeString]
  · show ∃ l, _ = _ ∧ _
    refine ⟨[(none, .list [.num (.uint 258), .num (.uint 1)])], rfl, ?_⟩
    refine ⟨_, _, [2, 1, 1, 0], [], rfl, rfl, ?_, rfl, rfl⟩
    show ∃ l bss, _ = _ ∧ _
    refine ⟨_, [[2, 1], [1, 0]], rfl, ⟨?_, ?_, trivial⟩, rfl, rfl⟩
    · exact PrimWrites.uint (n := 2) (x := 258) (by decide) (by decide) (by decide)
    · exact PrimWrites.uint (n := 2) (x := 1) (by decide) (by decide) (by decide)
  · intro E hH hE fuel hf
    subst hH
    match fuel, hf with
    | fuel + 2, _ =>
      have hW := h4 wPair (wCrate_mentions.mpr (by simp))
      have hL := h4 (.array (.prim 2) 2) (wCrate_mentions.mpr (by simp))
      rw [← hE] at hW hL
      change E.find _ = _ at hW hL
      rw [RTy.img_array] at hL
      rw [show wPair.img E.H = .tuple [(RTy.array (.prim 2) 2).semId E.H] from RTy.img_tuple rfl] at hW
      have hne : ∀ q : RTy, wCrate.Mentions q → q.sem E.H ≠ .primitive 0 → q.semId E.H ≠ SemId.unit E.H := by
        intro q hm hq e
        exact hq ((RTy.plain (fun h => hc (.inl h)) (fun x hx => .inr hx) (hm.text (List.mem_singleton.mpr rfl))).unit e)
      have hn1 := hne wPair (wCrate_mentions.mpr (by simp)) (by simp [wPair, RTy.sem, RTy.tyWith])
      have hn2 := hne (.array (.prim 2) 2) (wCrate_mentions.mpr (by simp)) (by simp [RTy.sem, RTy.tyWith])
      generalize (RTy.array (.prim 2) 2).semId E.H = i at hW hL hn2
      simp [write, Env.typeOf, hn1, hn2, hW, hL, writeTy, writeTuple, writeZip, Out.debugAssert, writeArray]

/-! ### A concrete case -/

/-- A value of the picture type of the example crates: a dot, two points and an id. -/
def exPictureVal : Val := .struct
  [(n!"shape", .union (.name n!"dot") (.tuple [.struct [(n!"x", .num (.uint 1)), (n!"y", .num (.uint 2))]])),
   (n!"points", .list [.struct [(n!"x", .num (.uint 3)), (n!"y", .num (.uint 4))]]),
   (n!"id", .tuple [.bytes (List.replicate 32 7)])]

/-- What a Rust program writes for it. -/
def exPictureBytes : Bytes := [1, 1, 2, 1, 3, 4] ++ List.replicate 32 7

theorem exPoint_writes (a b : Byte) : exPoint.Writes
    (.struct [(n!"x", .num (.uint (BitVec.ofNat 64 a.toNat))), (n!"y", .num (.uint (BitVec.ofNat 64 b.toNat)))]) [a, b] := by
  have h : ∀ c : Byte, PrimWrites 1 (.num (.uint (BitVec.ofNat 64 c.toNat))) [c] := by
    intro c
    have hc : (BitVec.ofNat 64 c.toNat).toNat = c.toNat := by
      have := c.isLt
      simp
      omega
    have := PrimWrites.uint (n := 1) (x := BitVec.ofNat 64 c.toNat) (by decide) (by decide)
      (by rw [hc]; have := c.isLt; omega)
    rw [hc, show le 1 c.toNat = [c] by simp [le]] at this
    exact this
  show ∃ l, _ = _ ∧ _
  refine ⟨[(some n!"x", .num (.uint (BitVec.ofNat 64 a.toNat))), (some n!"y", .num (.uint (BitVec.ofNat 64 b.toNat)))], rfl, ?_⟩
  exact ⟨_, _, [a], [b], rfl, rfl, h a, _, _, [b], [], rfl, rfl, h b, rfl, rfl⟩

/-- The hypotheses of C77 and C78 hold for the example: the value is written as these bytes, the types are
ordinary. -/
theorem exPicture_fits : exPicture.Writes exPictureVal exPictureBytes ∧
    (∀ p, exPicture.Contains p → p.DistinctFields ∧ p.Ordinary ∧ ¬ p.LooksLikeString ∧ p.UpTo64) ∧
    (∀ p, exPicture.Contains p → ¬ p.ItemArray) := by
  refine ⟨?_, fun p hp => ?_, fun p hp => ?_⟩
  · show ∃ l, _ = _ ∧ _
    refine ⟨[(some n!"shape", _), (some n!"points", _), (some n!"id", _)], rfl, ?_⟩
    refine ⟨_, _, [1, 1, 2], [1, 3, 4] ++ List.replicate 32 7, rfl, rfl, ?_, _, _, [1, 3, 4], List.replicate 32 7, rfl,
      rfl, ?_, _, _, List.replicate 32 7, [], rfl, rfl, ?_, rfl, rfl⟩
    · refine .inl ⟨_, [1, 2], rfl, rfl, ?_⟩
      show ∃ l, _ = _ ∧ _
      exact ⟨[(none, _)], rfl, _, _, [1, 2], [], rfl, rfl, exPoint_writes 1 2, rfl, rfl⟩
    · show ∃ l bss, _ = _ ∧ _
      exact ⟨_, [[3, 4]], rfl, ⟨exPoint_writes 3 4, trivial⟩, by simp [Sizing.Allows], rfl⟩
    · show ∃ l, _ = _ ∧ _
      refine ⟨[(none, .bytes (List.replicate 32 7))], rfl, _, _, List.replicate 32 7, [], rfl, rfl, ?_, rfl, rfl⟩
      show _ = _ ∧ _
      exact ⟨rfl, rfl⟩
  · rw [exPicture_contains] at hp
    rcases hp with rfl | rfl | rfl | rfl | rfl | rfl | rfl | rfl | rfl <;>
    simp [exPicture, exShape, exPoint, exForeign, RTy.DistinctFields, RTy.Ordinary, RTy.LooksLikeString,
      RTy.UpTo64, ReadablePrim]
  · rw [exPicture_contains] at hp
    rcases hp with rfl | rfl | rfl | rfl | rfl | rfl | rfl | rfl | rfl <;>
    simp [exPicture, exShape, exPoint, exForeign, RTy.ItemArray, RTy.isByte]

/-- What the model makes of it, with the system assembled from the two libraries. -/
example : ((buildAll toyHash true 65535 exCrates []).get?.bind fun ls => (assembleSys toyHash true ls.reverse).get?.map fun s =>
      let E : Env := { exE true with sys := s.types }
      (decide (write E 5 exPictureVal (exPicture.semId toyHash) = .ok exPictureBytes),
        (deserialize E 5 (exPicture.semId toyHash) exPictureBytes).get?.map (Val.eqv exPictureVal),
        s.types.all fun p => match p.2 with
          | .struct fs => decide (fs.map Prod.fst).Nodup
          | _ => true)) = some (true, some true, true) := by
  decide +kernel

end Verif
