import Verif.Lemmas.Nodes
import Verif.Props.ByName

/-! # C82: types of crates are told apart by their ids -/

namespace Verif

/-- The text of the id is the description of the type with ids filled in. -/
theorem RTy.outlined_fills {H : Hash} {D : Bytes → Prop} (q : RTy) (hD : ∀ p, q.Contains p → D (p.text H)) :
    Fills H D q.outlined (q.text H) := by
  unfold RTy.outlined RTy.text
  cases q.name with
  | none => exact q.outline_fills hD
  | some n => exact (Fills.pieces _).append (q.outline_fills hD)

theorem semId_apart {H : Hash} {D : Bytes → Prop} (hc : ¬ Collision H D) {q q' : RTy}
    (hq : ∀ p, q.Contains p → D (p.text H)) (hq' : ∀ p, q'.Contains p → D (p.text H))
    (ha : apart q.outlined q'.outlined = true) : q.semId H ≠ q'.semId H := by
  intro e
  rw [RTy.semId_text, RTy.semId_text] at e
  have h' := q'.outlined_fills hq'
  rw [← semHash_inj hc (hq q (.refl _)) (hq' q' (.refl _)) e] at h'
  rw [apart_ne hc (q.outlined_fills hq) h'] at ha
  cases ha

/-- **C82, two types**: Rust types described by texts which differ whatever ids are filled in have different ids (or
there is a hash collision among the texts of the ids of these types and of the types they are made of). -/
theorem C82_apart (H : Hash) (q q' : RTy) (ha : apart q.outlined q'.outlined = true) :
    q.semId H ≠ q'.semId H ∨ Collision H fun x => ∃ p, (q.Contains p ∨ q'.Contains p) ∧ x = p.text H := by
  apply Classical.or_iff_not_imp_right.mpr
  intro hc
  exact semId_apart hc (fun p hp => ⟨p, .inl hp, rfl⟩) (fun p hp => ⟨p, .inr hp, rfl⟩) ha

/-- What a described type is made of is described, too. -/
theorem Describe.contains {cs : List Crate} {q p : RTy} (h : Describe cs q) (hp : q.Contains p) : Describe cs p := by
  obtain ⟨c, hc, s, ⟨t, ht, hts⟩, hq⟩ := h
  by_cases e : q = s
  · subst e
    exact ⟨c, hc, p, ⟨t, ht, hts.trans hp⟩, mem_described p⟩
  cases s <;> simp [RTy.described] at hq <;> first | exact absurd hq e | skip
  rcases hq with hq | rfl
  · exact absurd hq e
  rename_i a b sz
  cases hp with
  | refl => exact ⟨c, hc, _, ⟨t, ht, hts⟩, by simp [RTy.described]⟩
  | step hm hp =>
    simp only [RTy.parts, List.mem_singleton] at hm
    subst hm
    exact ⟨c, hc, p, ⟨t, ht, hts.trans (.step (by simp [RTy.parts]) hp)⟩, mem_described p⟩

theorem unicodeChar_text {H : Hash} : SemId.unicodeChar H = taggedHash H SEM_ID_TAG [1] := by
  simp [SemId.unicodeChar, Ty.semIdUnnamed_eq, Ty.commit]
  rfl

/-- The character of strings has an id of its own. -/
theorem RTy.semId_ne_char {H : Hash} {D : Bytes → Prop} (hc : ¬ Collision H D) (h1 : D [1]) {q : RTy}
    (hq : D (q.text H)) : q.semId H ≠ SemId.unicodeChar H := by
  intro e
  rw [RTy.semId_text, unicodeChar_text] at e
  have e := semHash_inj hc hq h1 e
  exact absurd ((q.text_basic H).2 e).2 RTy.sem_ne_unicode

theorem Describe.ne_char {H : Hash} {cs : List Crate} (hc : ¬ Collision H (crateTexts H cs)) {q : RTy}
    (hq : Describe cs q) : q.semId H ≠ SemId.unicodeChar H :=
  RTy.semId_ne_char hc (.inr basicTexts_mem.2.2.2) (.inl ⟨q, hq, rfl⟩)

/-- What a system has for a Rust type it has for one of the types described, or it is the character. -/
theorem RTy.Entry.described {H : Hash} {q : RTy} {id : SemId} {t : Ty SemId} (h : q.Entry H id t) :
    (∃ p ∈ q.described, id = p.semId H ∧ t = p.img H ∧ (q.name = none → p.name = none)) ∨
      id = SemId.unicodeChar H ∧ t = .unicodeChar := by
  cases h with
  | self =>
    refine .inl ⟨q, ?_, rfl, rfl, id⟩
    cases q <;> simp [RTy.described]
  | char => exact .inr ⟨rfl, rfl⟩
  | tail c c1 sz =>
    refine .inl ⟨.list c ⟨sz.min - 1, sz.max - 1⟩, by simp [RTy.described], ?_, ?_, fun _ => rfl⟩
    · rw [← RTy.absRef_id]; rfl
    · rw [RTy.img_list]

/-- Definitions found in the libraries of crates. -/
theorem defs_described {H : Hash} {debug : Bool} {cs : List Crate} {fuel : Nat}
    (hc : ¬ CrateCollision H debug fuel cs) (hb : Buildable debug cs)
    (hf : 65535 ≤ fuel) {ls ms : List TypeLib} (h : buildAll H debug fuel cs [] = .ok ls)
    (hp : ls.Perm ms) {p : SemId × SymTy} (hm : p ∈ allDefs H ms) :
    (∃ q, Describe cs q ∧ p.1 = q.semId H ∧ p.2.ty = q.img H ∧ (p.2.orig = none → q.name = none)) ∨
      p.1 = SemId.unicodeChar H ∧ p.2.ty = .unicodeChar := by
  obtain ⟨c, hcm, s, n, ho, ⟨r, hr, u, hu, rfl⟩ | rfl⟩ := (buildAll_defs hc hb hf h hp _).mp hm
  · obtain ⟨q, hq, hqn, he⟩ := s.nested_unnamed r hr u hu
    obtain ⟨t, ht, hts⟩ := ho.1
    rcases he.described with ⟨p, hp, h1, h2, h3⟩ | h
    · exact .inl ⟨p, ⟨c, hcm, q, ⟨t, ht, hts.trans hq⟩, hp⟩, h1, h2, fun _ => h3 hqn⟩
    · exact .inr h
  · rcases (RTy.Entry.self (H := H) s).described with ⟨p, hp, h1, h2, -⟩ | ⟨h, -⟩
    · exact .inl ⟨p, ⟨c, hcm, s, ho.1, hp⟩, h1, h2, fun h => nomatch h⟩
    · exact absurd h (Describe.ne_char (fun h => hc (.inl h)) ⟨c, hcm, s, ho.1, mem_described s⟩)

/-- **C82, from texts to ids**: if the texts describing different types differ whatever the ids in them are, then
different types have different ids (or there is a hash collision among the texts of the ids of the types of these
crates). -/
theorem C82_outlines (H : Hash) (cs : List Crate) (ha : OutlinesApart cs) :
    IdsApart H cs ∨ Collision H (crateTexts H cs) := by
  apply Classical.or_iff_not_imp_right.mpr
  intro hc q q' h h' e
  exact (ha q q' h h').resolve_right fun ha => semId_apart hc (fun p hp => .inl ⟨p, h.contains hp, rfl⟩)
    (fun p hp => .inl ⟨p, h'.contains hp, rfl⟩) ha e

theorem ids_apart {H : Hash} {debug : Bool} {cs : List Crate} {fuel : Nat}
    (hc : ¬ CrateCollision H debug fuel cs) (hb : Buildable debug cs)
    (hsame : IdsApart H cs) (hf : 65535 ≤ fuel) {ls ms : List TypeLib}
    (h : buildAll H debug fuel cs [] = .ok ls) (hp : ls.Perm ms) : Consistent (allDefs H ms) ∧
      (∀ c ∈ cs, ∀ d ∈ cs, ∀ s s' n n', c.Owns s n → d.Owns s' n' → s.semId H = s'.semId H → c = d ∧ s = s') ∧
      ∀ p ∈ allDefs H ms, p.2.orig = none → ∀ c ∈ cs, ∀ s n, c.Owns s n → p.1 ≠ s.semId H := by
  refine ⟨?_, ?_, ?_⟩
  · intro p hpm q hqm e
    rcases defs_described hc hb hf h hp hpm with ⟨s, hs, h1, h2, -⟩ | ⟨h1, h2⟩ <;>
    rcases defs_described hc hb hf h hp hqm with ⟨s', hs', h1', h2', -⟩ | ⟨h1', h2'⟩
    · obtain ⟨-, -, e⟩ := hsame s s' hs hs' (by rw [← h1, ← h1', e])
      rw [h2, h2', RTy.img, RTy.img, e H]
    · exact absurd (by rw [← h1, e, h1']) (hs.ne_char fun h => hc (.inl h))
    · exact absurd (by rw [← h1', ← e, h1]) (hs'.ne_char fun h => hc (.inl h))
    · rw [h2, h2']
  · intro c hcm d hdm s s' n n' ho ho' e
    obtain ⟨h1, h2, -⟩ := hsame s s' ⟨c, hcm, s, ho.1, mem_described s⟩ ⟨d, hdm, s', ho'.1, mem_described s'⟩ e
    refine ⟨nodup_map_inj hb.names hcm hdm ?_, hb.one c hcm d hdm s s' ho.1 ho'.1 ?_ h1 h2⟩
    · rw [← ho.2.1, ← ho'.2.1, h1]
    · rw [ho.2.2]; simp
  · intro p hpm hn c hcm s n ho e
    rcases defs_described hc hb hf h hp hpm with ⟨q, hq, h1, -, h3⟩ | ⟨h1, -⟩
    · obtain ⟨-, h2, -⟩ := hsame q s hq ⟨c, hcm, s, ho.1, mem_described s⟩ (by rw [← h1, e])
      rw [h3 hn, ho.2.2] at h2
      cases h2
    · exact Describe.ne_char (fun h => hc (.inl h)) ⟨c, hcm, s, ho.1, mem_described s⟩ (by rw [← e, h1])

/-- **C82, partial** (if the texts describing different types differ whatever the ids in them are; without that it is
`C82_ids_violated`): in the libraries of crates, in whatever order they are, definitions with the same id are the same;
types of different crates have different ids; and no named type has the id of an unnamed one (or there is a hash
collision). The condition has nothing to do with the hash. -/
theorem C82_ids_partial (H : Hash) (debug : Bool) (cs : List Crate) (hb : Buildable debug cs) (ha : OutlinesApart cs)
    (fuel : Nat) (hf : 65535 ≤ fuel) (ls ms : List TypeLib) (h : buildAll H debug fuel cs [] = .ok ls)
    (hp : ls.Perm ms) : (Consistent (allDefs H ms) ∧
      (∀ c ∈ cs, ∀ d ∈ cs, ∀ s s' n n', c.Owns s n → d.Owns s' n' → s.semId H = s'.semId H → c = d ∧ s = s') ∧
      ∀ p ∈ allDefs H ms, p.2.orig = none → ∀ c ∈ cs, ∀ s n, c.Owns s n → p.1 ≠ s.semId H) ∨
    CrateCollision H debug fuel cs := by
  by_cases hc : CrateCollision H debug fuel cs
  · exact .inr hc
  exact .inl (ids_apart hc hb ((C82_outlines H cs ha).resolve_right fun h => hc (.inl h)) hf h hp)

theorem RTy.img_refs_lt {H : Hash} {q : RTy} (hd : q.DistinctVariants) (h : q.parts.length < 255) :
    (q.img H).refs.length < 255 := by
  cases q with
  | prim => simp [RTy.img, RTy.sem, RTy.tyWith, Ty.mapRefs, Ty.refs]
  | unicode => simp [RTy.img_unicode, Ty.refs]
  | rstring => simp [RTy.img_rstring, Ty.refs]
  | array => simp [RTy.img_array, Ty.refs]
  | list => simp [RTy.img_list, Ty.refs]
  | set => simp [RTy.img_set, Ty.refs]
  | map => simp [RTy.img_map, Ty.refs]
  | enum => simp [RTy.img_enum, Ty.refs]
  | union lib name vs w =>
    simp only [RTy.img_union, Ty.refs, List.length_map]
    rw [byTag_length hd.1]
    simpa [RTy.parts] using h
  | record lib name isTuple fs =>
    cases fs with
    | nil => rw [RTy.img_empty]; simp [Ty.refs]
    | cons f fs =>
      cases isTuple with
      | true =>
        rw [RTy.img_tuple rfl]
        simpa [RTy.parts, Ty.refs] using h
      | false =>
        rw [RTy.img_struct rfl]
        have := List.length_filterMap_le (fun f : Option Name × RTy => f.1.map fun n => (n, f.2.semId H)) (f :: fs)
        simp only [RTy.parts, List.length_map] at h
        simp only [Ty.refs, List.length_map]
        omega

theorem system_apart {H : Hash} {debug : Bool} {cs : List Crate} {fuel : Nat}
    (hc : ¬ CrateCollision H debug fuel cs) (hb : Buildable debug cs)
    (hi : IdsApart H cs) (hr : debug = true → ∀ c ∈ cs, ∀ q, c.Mentions q → q.parts.length < 255)
    (ht : ∃ ds : List RTy, ds.length < 2 ^ 24 - 1 ∧ ∀ q, Describe cs q → q ∈ ds) (hf : 65535 ≤ fuel) :
    ∃ ls, buildAll H debug fuel cs [] = .ok ls ∧ ∀ ms, ls.Perm ms → ∃ S, assembleSys H debug ms = .ok S ∧
      S.types.Closed ∧ Consistent (allDefs H ms) ∧
      (∀ id t, S.types.get id = some t ↔ ∃ c ∈ cs, ∃ s n q, c.Owns s n ∧ s.Contains q ∧ q.Entry H id t) ∧
      ∀ c ∈ cs, ∀ s n, c.Owns s n → S.resolve ⟨c.name, n⟩ = some (s.semId H) ∧
        S.lookup (s.semId H) = some ⟨c.name, n⟩ := by
  obtain ⟨ls, h, -⟩ := (C66_crates_build H debug cs hb fuel hf).resolve_right hc
  refine ⟨ls, h, fun ms hp => ?_⟩
  obtain ⟨hcon, hA, hC⟩ := ids_apart hc hb hi hf h hp
  have hfew : FewRefs H debug ms := by
    intro hdb p hpm
    rcases defs_described hc hb hf h hp hpm with ⟨q, ⟨c, hcm, s, hs, hq⟩, -, h2, -⟩ | ⟨-, h2⟩
    · rw [h2]
      by_cases hqs : q = s
      · rw [hqs]
        exact RTy.img_refs_lt (hb.limits c hcm s hs).1 (hr hdb c hcm s hs)
      · cases s <;> simp [RTy.described] at hq <;> first | exact absurd hq hqs | skip
        rcases hq with hq | rfl
        · exact absurd hq hqs
        · simp [RTy.img_list, Ty.refs]
    · rw [h2]; simp [Ty.refs]
  have hids : ∃ ids : List SemId, ids.length ≤ 2 ^ 24 - 1 ∧ ∀ p ∈ allDefs H ms, p.1 ∈ ids := by
    obtain ⟨ds, hl, hds⟩ := ht
    refine ⟨SemId.unicodeChar H :: ds.map (RTy.semId H), by simp; omega, fun p hpm => ?_⟩
    rcases defs_described hc hb hf h hp hpm with ⟨q, hq, h1, -, -⟩ | ⟨h1, -⟩
    · rw [h1]
      exact List.mem_cons_of_mem _ (List.mem_map.mpr ⟨q, hds q hq, rfl⟩)
    · rw [h1]; simp
  obtain ⟨S, hs, hcl, -⟩ := (C67_system_complete H debug cs hb fuel hf ls ms h hp hfew hids).resolve_right hc
  refine ⟨S, hs, hcl, hcon, ?_, ?_⟩
  · obtain ⟨h1, h2⟩ := (C76_contents_partial H debug cs hb fuel hf ls ms h hp S hs).resolve_right hc
    refine fun id t => ⟨h1 id t, ?_⟩
    rintro ⟨c, hcm, s, n, q, ho, hq, he⟩
    exact h2 hcon c hcm s n q id t ho hq he
  · exact (C67_names_resolve_partial H debug cs hb fuel hf ls ms h hp S hs
      (fun c hcm d hdm s s' n ho ho' e => (hA c hcm d hdm s s' n n ho ho' e).1) hC).resolve_right hc

/-- **C82, partial** (under the same condition, and within the limits of type systems): the libraries of the crates
can be built; in whatever order they are, a type system can be assembled from them; it contains the types the crates
own and everything they are made of, each under its id, and nothing else; and every type of a crate is found by its
name, and the name by the id (or there is a hash collision). -/
theorem C82_system_partial (H : Hash) (debug : Bool) (cs : List Crate) (hb : Buildable debug cs) (ha : OutlinesApart cs)
    (hr : debug = true → ∀ c ∈ cs, ∀ q, c.Mentions q → q.parts.length < 255)
    (ht : ∃ ds : List RTy, ds.length < 2 ^ 24 - 1 ∧ ∀ q, Describe cs q → q ∈ ds) (fuel : Nat) (hf : 65535 ≤ fuel) :
    (∃ ls, buildAll H debug fuel cs [] = .ok ls ∧ ∀ ms, ls.Perm ms → ∃ S, assembleSys H debug ms = .ok S ∧
      S.types.Closed ∧ Consistent (allDefs H ms) ∧
      (∀ id t, S.types.get id = some t ↔ ∃ c ∈ cs, ∃ s n q, c.Owns s n ∧ s.Contains q ∧ q.Entry H id t) ∧
      ∀ c ∈ cs, ∀ s n, c.Owns s n → S.resolve ⟨c.name, n⟩ = some (s.semId H) ∧
        S.lookup (s.semId H) = some ⟨c.name, n⟩) ∨
    CrateCollision H debug fuel cs := by
  by_cases hc : CrateCollision H debug fuel cs
  · exact .inr hc
  exact .inl (system_apart hc hb ((C82_outlines H cs ha).resolve_right fun h => hc (.inl h)) hr ht hf)

/-! ### Different types with the same id -/

/-- Unnamed tuple. -/
def ambTuple (ts : List RTy) : RTy := .record LIB_EMBEDDED none true (ts.map fun t => (none, t))

/-- A byte. -/
def ambU8 : RTy := .prim 1

/-- `((u8, u8), u8)`. -/
def ambLeft : RTy := ambTuple [ambTuple [ambU8, ambU8], ambU8]

/-- `((u8, u8, u8),)`. -/
def ambRight : RTy := ambTuple [ambTuple [ambU8, ambU8, ambU8]]

/-- `enum Either { Left((u8, u8), u8), Right((u8, u8, u8)) }`. -/
def ambEither : RTy := .union n!"Amb" (some n!"Either") [(⟨n!"left", 0⟩, ambLeft), (⟨n!"right", 1⟩, ambRight)] 0

/-- The crate with this type. -/
def ambCrate : Crate := ⟨n!"Amb", [ambEither]⟩

/-- All types mentioned. -/
def ambNodes : List RTy := [ambEither, ambLeft, ambRight, ambTuple [ambU8, ambU8], ambTuple [ambU8, ambU8, ambU8], ambU8]

theorem ambNodes_closed : ClosedNodes ambNodes := by
  simp [ClosedNodes, ambNodes, ambEither, ambLeft, ambRight, ambTuple, ambU8, RTy.parts]

theorem ambCrate_buildable (debug : Bool) : Buildable debug [ambCrate] := by
  refine buildable_of (ns := ambNodes) ambNodes_closed (by simp [ambCrate, ambNodes]) debug (by decide) (by decide)
    (by decide) (by decide +kernel) (by decide) (by decide +kernel) (by decide +kernel) (by decide +kernel) ?_
  intro pre c post e s hs hn
  have hc : c ∈ [ambCrate] := by rw [e]; simp
  rw [List.mem_singleton] at hc
  subst hc
  have := ambNodes_closed.mentions (by simp [ambCrate, ambNodes]) hs
  simp only [ambNodes, List.mem_cons, List.not_mem_nil, or_false] at this
  rcases this with rfl | rfl | rfl | rfl | rfl | rfl
  · exact .inl rfl
  all_goals exact absurd rfl hn

/-- **C82 is violated** without its condition: for every hash, the crate with `enum Either { Left((u8, u8), u8),
Right((u8, u8, u8)) }` (which can be built) has two types with the same id: the contents of both variants. The
lengths of tuples are not part of the text which is hashed. -/
theorem C82_ids_violated (H : Hash) (debug : Bool) : Buildable debug [ambCrate] ∧ ambCrate.Mentions ambLeft ∧
    ambCrate.Mentions ambRight ∧ ambLeft.semId H = ambRight.semId H ∧ ambLeft.sem H ≠ ambRight.sem H := by
  refine ⟨ambCrate_buildable debug, ⟨_, List.mem_singleton.mpr rfl, .step (p := ambLeft) ?_ (.refl _)⟩,
    ⟨_, List.mem_singleton.mpr rfl, .step (p := ambRight) ?_ (.refl _)⟩, rfl, ?_⟩
  · simp [ambEither, RTy.parts]
  · simp [ambEither, RTy.parts]
  · simp [ambLeft, ambRight, ambTuple, ambU8, RTy.sem, RTy.tyWith, RTy.tyWithFields]

theorem ambCrate_owns : ambCrate.Owns ambEither n!"Either" := ⟨⟨_, List.mem_singleton.mpr rfl, .refl _⟩, rfl, rfl⟩

theorem ambCrate_described {q : RTy} (h : Describe [ambCrate] q) : q ∈ ambNodes := by
  obtain ⟨c, hc, s, hs, hq⟩ := h
  rw [List.mem_singleton] at hc
  subst hc
  have hd : ∀ q ∈ ambNodes, ∀ p ∈ q.described, p ∈ ambNodes := by
    simp [ambNodes, ambEither, ambLeft, ambRight, ambTuple, ambU8, RTy.described]
  exact hd s (ambNodes_closed.mentions (by simp [ambCrate, ambNodes]) hs) q hq

theorem ambNodes_described {q : RTy} (h : q ∈ ambNodes) : Describe [ambCrate] q := by
  have hm : ambCrate.Mentions q := by
    refine ⟨ambEither, List.mem_singleton.mpr rfl, ?_⟩
    simp only [ambNodes, List.mem_cons, List.not_mem_nil, or_false] at h
    have hl : ambEither.Contains ambLeft := .step (by simp [ambEither, RTy.parts]) (.refl _)
    have hr : ambEither.Contains ambRight := .step (by simp [ambEither, RTy.parts]) (.refl _)
    rcases h with rfl | rfl | rfl | rfl | rfl | rfl
    · exact .refl _
    · exact hl
    · exact hr
    · exact hl.trans (.step (by simp [ambLeft, ambTuple, RTy.parts]) (.refl _))
    · exact hr.trans (.step (by simp [ambRight, ambTuple, RTy.parts]) (.refl _))
    · exact hl.trans (.step (by simp [ambLeft, ambTuple, RTy.parts]) (.refl _))
  exact ⟨ambCrate, List.mem_singleton.mpr rfl, q, hm, mem_described q⟩

/-- The bytes 1, 2 and 3. -/
def amb123 : List Val := [.num (.uint 1), .num (.uint 2), .num (.uint 3)]

/-- `Left((1, 2), 3)`. -/
def ambLeftVal : Val := .union (.name n!"left") (.tuple [.tuple [.num (.uint 1), .num (.uint 2)], .num (.uint 3)])

/-- `Right((1, 2, 3))`. -/
def ambRightVal : Val := .union (.name n!"right") (.tuple [.tuple amb123])

theorem ambU8_writes (x : BitVec 64) (h : x.toNat < 256) : ambU8.Writes (.num (.uint x)) (le 1 x.toNat) :=
  PrimWrites.uint (n := 1) (by omega) (by omega) h

theorem ambLeft_writes : ambEither.Writes ambLeftVal [0, 1, 2, 3] := by
  have w1 := ambU8_writes 1 (by decide)
  have w2 := ambU8_writes 2 (by decide)
  have w3 := ambU8_writes 3 (by decide)
  refine .inl ⟨_, [1, 2, 3], rfl, rfl, ?_⟩
  refine ⟨[(none, .tuple [.num (.uint 1), .num (.uint 2)]), (none, .num (.uint 3))], rfl, _, _, [1, 2], [3], rfl, rfl, ?_,
    _, _, [3], [], rfl, rfl, w3, rfl, rfl⟩
  exact ⟨[(none, .num (.uint 1)), (none, .num (.uint 2))], rfl, _, _, [1], [2], rfl, rfl, w1, _, _, [2], [], rfl, rfl, w2,
    rfl, rfl⟩

theorem ambRight_writes : ambEither.Writes ambRightVal [1, 1, 2, 3] := by
  have w1 := ambU8_writes 1 (by decide)
  have w2 := ambU8_writes 2 (by decide)
  have w3 := ambU8_writes 3 (by decide)
  refine .inr (.inl ⟨_, [1, 2, 3], rfl, rfl, ?_⟩)
  refine ⟨[(none, .tuple amb123)], rfl, _, _, [1, 2, 3], [], rfl, rfl, ?_, rfl, rfl⟩
  exact ⟨[(none, .num (.uint 1)), (none, .num (.uint 2)), (none, .num (.uint 3))], rfl, _, _, [1], [2, 3], rfl, rfl, w1,
    _, _, [2], [3], rfl, rfl, w2, _, _, [3], [], rfl, rfl, w3, rfl, rfl⟩

theorem amb_read {E : Env} {id pid : SemId} {vs : List (Variant × SemId)} {b : Byte} {n : Name} {fuel : Nat} {bs : Bytes}
    {v : Val} (hf : E.find id = some (.union vs)) (hv : Ty.unionByTag vs b = some (⟨n, b⟩, pid))
    (h : deserialize E (fuel + 1) id (b :: bs) = .ok v) :
    ∃ w, v = .union (.name n) w ∧ read E fuel pid bs = .ok (w, []) := by
  have hb : readLe 1 (b :: bs) = .ok (b.toNat, bs) := by simp [readLe, readRaw, fromLe]
  simp only [deserialize, read, hf, readTy, hb, Out.bind_ok, BitVec.ofNat_toNat, BitVec.setWidth_eq, hv] at h
  cases hr : read E fuel pid bs with
  | ok p =>
    obtain ⟨w, rest⟩ := p
    rw [hr] at h
    simp only [Out.bind_ok, Out.pure_eq] at h
    split at h
    · cases h
    · rename_i hl
      cases h
      cases rest with
      | nil => exact ⟨w, rfl, rfl⟩
      | cons => simp at hl
  | _ => rw [hr] at h; cases h

set_option maxRecDepth 10000 in
/-- **C82 is violated**, what it leads to: a type system can be assembled from the library of this crate, but one of
`Left((1, 2), 3)` and `Right((1, 2, 3))`, as written by a Rust program, is not read back as it was (or there is a hash
collision). -/
theorem C82_read_violated (H : Hash) (debug : Bool) :
    (∃ ls S, buildAll H debug 65535 [ambCrate] [] = .ok ls ∧ assembleSys H debug ls = .ok S ∧
      ambEither.Writes ambLeftVal [0, 1, 2, 3] ∧ ambEither.Writes ambRightVal [1, 1, 2, 3] ∧
      ∀ E : Env, E.H = H → E.sys = S.types → ∀ fuel,
        deserialize E fuel (ambEither.semId H) [0, 1, 2, 3] ≠ .ok ambLeftVal ∨
        deserialize E fuel (ambEither.semId H) [1, 1, 2, 3] ≠ .ok ambRightVal) ∨
    CrateCollision H debug 65535 [ambCrate] := by
  by_cases hc : CrateCollision H debug 65535 [ambCrate]
  · exact .inr hc
  have hb := ambCrate_buildable debug
  have hde : Describe [ambCrate] ambEither := ambNodes_described (by simp [ambNodes])
  obtain ⟨ls, h, -⟩ := (C66_crates_build H debug _ hb 65535 (by decide)).resolve_right hc
  have hd : ∀ p ∈ allDefs H ls, (∃ q ∈ ambNodes, p.1 = q.semId H ∧ p.2.ty = q.img H) ∨
      p.1 = SemId.unicodeChar H ∧ p.2.ty = .unicodeChar := by
    intro p hp
    rcases defs_described hc hb (by decide) h (.refl _) hp with ⟨q, hq, h1, h2, -⟩ | h
    · exact .inl ⟨q, ambCrate_described hq, h1, h2⟩
    · exact .inr h
  have hdn : ∀ q ∈ ambNodes, q.DistinctVariants ∧ q.parts.length < 255 := by decide +kernel
  obtain ⟨S, hs, -, hown⟩ := (C67_system_complete H debug _ hb 65535 (by decide) ls ls h (.refl _)
    (by
      intro _ p hp
      rcases hd p hp with ⟨q, hq, -, h2⟩ | ⟨-, h2⟩
      · rw [h2]
        exact RTy.img_refs_lt (hdn q hq).1 (hdn q hq).2
      · rw [h2]; simp [Ty.refs])
    ⟨SemId.unicodeChar H :: ambNodes.map (RTy.semId H), by simp [ambNodes], fun p hp => by
      rcases hd p hp with ⟨q, hq, h1, -⟩ | ⟨h1, -⟩
      · rw [h1]; exact List.mem_cons_of_mem _ (List.mem_map.mpr ⟨q, hq, rfl⟩)
      · rw [h1]; simp⟩).resolve_right hc
  refine .inl ⟨ls, S, h, hs, ambLeft_writes, ambRight_writes, ?_⟩
  have hw : ∀ l ∈ ls, l.WF := fun l hl => buildAll_wf hc hb (by decide) h l hl
  have hget : S.types.get (ambEither.semId H) = some (ambEither.img H) := by
    obtain ⟨t, ht⟩ := hown _ (List.mem_singleton.mpr rfl) _ _ ambCrate_owns
    obtain ⟨o, ho⟩ := (C58_definitions_partial H debug ls S hw hs).1 _ _ ht
    rw [ht]
    rcases hd _ ho with ⟨q, hq, h1, h2⟩ | ⟨h1, -⟩
    · have ha : ∀ q ∈ ambNodes, q.name = none → apart ambEither.outlined q.outlined = true := by decide +kernel
      by_cases hn : q.name = none
      · exact absurd h1 (semId_apart (D := crateTexts H [ambCrate]) (fun h => hc (.inl h))
          (fun p hp => .inl ⟨p, hde.contains hp, rfl⟩)
          (fun p hp => .inl ⟨p, (ambNodes_described hq).contains hp, rfl⟩) (ha q hq hn))
      · simp only [ambNodes, List.mem_cons, List.not_mem_nil, or_false] at hq
        rcases hq with rfl | rfl | rfl | rfl | rfl | rfl
        · rw [← h2]
        all_goals exact absurd rfl hn
    · exact absurd h1 (hde.ne_char fun h => hc (.inl h))
  intro E hH hE fuel
  subst hH
  cases fuel with
  | zero => left; simp [deserialize, read]
  | succ fuel =>
    have hfind : E.find (ambEither.semId E.H) = some (.union [(⟨n!"left", 0⟩, ambLeft.semId E.H),
        (⟨n!"right", 1⟩, ambLeft.semId E.H)]) := by
      rw [Env.find, hE, hget, show ambEither.img E.H = .union _ from RTy.img_union]
      rfl
    have hl : ∀ v, deserialize E (fuel + 1) (ambEither.semId E.H) [0, 1, 2, 3] = .ok v →
        ∃ w, v = .union (.name n!"left") w ∧ read E fuel (ambLeft.semId E.H) [1, 2, 3] = .ok (w, []) :=
      fun v hv => amb_read hfind (b := 0) rfl hv
    have hr : ∀ v, deserialize E (fuel + 1) (ambEither.semId E.H) [1, 1, 2, 3] = .ok v →
        ∃ w, v = .union (.name n!"right") w ∧ read E fuel (ambLeft.semId E.H) [1, 2, 3] = .ok (w, []) :=
      fun v hv => amb_read hfind (b := 1) rfl hv
    by_cases h0 : deserialize E (fuel + 1) (ambEither.semId E.H) [0, 1, 2, 3] = .ok ambLeftVal
    · refine .inr fun h1 => ?_
      obtain ⟨w, e, hw⟩ := hl _ h0
      obtain ⟨w', e', hw'⟩ := hr _ h1
      rw [hw] at hw'
      simp only [ambLeftVal, ambRightVal, Val.union.injEq] at e e'
      rw [← e.2, ← e'.2] at hw'
      simp [amb123] at hw'
    · exact .inl h0

/-! ### A concrete case -/

/-- All types mentioned by the crate with words and pairs. -/
def wNodes : List RTy := [wWord, wLetter, .list wLetter ⟨0, 255⟩, wPair, .array (.prim 2) 2, .prim 2]

/-- The hypotheses of C82 hold for the crate with words and pairs. -/
example (debug : Bool) : Buildable debug [wCrate] ∧ OutlinesApart [wCrate] ∧
    (debug = true → ∀ c ∈ [wCrate], ∀ q, c.Mentions q → q.parts.length < 255) ∧
    ∃ ds : List RTy, ds.length < 2 ^ 24 - 1 ∧ ∀ q, Describe [wCrate] q → q ∈ ds := by
  have hcl : ClosedNodes wNodes := by simp [ClosedNodes, wNodes, wWord, wLetter, wPair, RTy.parts]
  have hd : ∀ q ∈ wNodes, ∀ p ∈ q.described, p ∈ wNodes := by
    simp [wNodes, wWord, wLetter, wPair, RTy.described]
  have ht : ∀ c ∈ [wCrate], ∀ t ∈ c.types, t ∈ wNodes := by simp [wCrate, wNodes]
  refine ⟨wCrate_buildable debug, outlinesApart_of hcl ht hd (by decide +kernel), fun _ c hc q hq => ?_,
    wNodes, by decide, ?_⟩
  · have : ∀ q ∈ wNodes, q.parts.length < 255 := by decide +kernel
    exact this q (hcl.mentions (ht c hc) hq)
  · rintro q ⟨c, hc, s, hs, hq⟩
    exact hd s (hcl.mentions (ht c hc) hs) q hq

end Verif
