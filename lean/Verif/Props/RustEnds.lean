import Verif.Props.RustValues
import Verif.Props.Checking

/-!
# C33, C101: reading and checking values of Rust types come to an end
-/

namespace Verif

/-- The parts of the type of a Rust type, if these are not characters. -/
theorem RTy.img_refs {H : Hash} {q : RTy} (hu : ∀ sz, q ≠ .unicode sz) (hr : ∀ c c1 sz, q ≠ .rstring c c1 sz) {r : SemId}
    (h : r ∈ (q.img H).refs) : ∃ p ∈ q.parts, r = p.semId H := by
  cases q with
  | prim c => simp [RTy.img, RTy.sem, RTy.tyWith, Ty.mapRefs, Ty.refs] at h
  | unicode sz => exact absurd rfl (hu sz)
  | rstring c c1 sz => exact absurd rfl (hr c c1 sz)
  | array t len =>
    rw [RTy.img_array] at h
    exact ⟨t, by simp [RTy.parts], by simpa [Ty.refs] using h⟩
  | list t sz =>
    rw [RTy.img_list] at h
    exact ⟨t, by simp [RTy.parts], by simpa [Ty.refs] using h⟩
  | set t sz =>
    rw [RTy.img_set] at h
    exact ⟨t, by simp [RTy.parts], by simpa [Ty.refs] using h⟩
  | map k t sz =>
    rw [RTy.img_map] at h
    simp only [Ty.refs, List.mem_cons, List.not_mem_nil, or_false] at h
    rcases h with rfl | rfl
    · exact ⟨k, by simp [RTy.parts], rfl⟩
    · exact ⟨t, by simp [RTy.parts], rfl⟩
  | enum lib name vs => rw [RTy.img_enum] at h; simp [Ty.refs] at h
  | record lib name b fs =>
    cases fs with
    | nil => rw [RTy.img_empty] at h; simp [Ty.UNIT, Ty.refs] at h
    | cons f fs =>
      cases b
      · rw [RTy.img_struct rfl] at h
        simp only [Ty.refs, List.mem_map, List.mem_filterMap, Option.map_eq_some_iff] at h
        obtain ⟨_, ⟨g, hg, _, _, rfl⟩, rfl⟩ := h
        exact ⟨g.2, List.mem_map_of_mem hg, rfl⟩
      · rw [RTy.img_tuple rfl] at h
        obtain ⟨g, hg, rfl⟩ := List.mem_map.mp h
        exact ⟨g.2, List.mem_map_of_mem hg, rfl⟩
  | union lib name vs w =>
    rw [RTy.img_union] at h
    simp only [Ty.refs, List.map_map, List.mem_map, mem_byTag] at h
    obtain ⟨g, hg, rfl⟩ := h
    exact ⟨g.2, List.mem_map_of_mem hg, rfl⟩

/-- `Fit`, also for tuples which look like restricted strings. -/
structure NearFit (E : Env) (q : RTy) : Prop where
  holds : Holds E.H E.sys q
  named : q.Named
  fields : q.DistinctFields
  wf : (q.img E.H).WF
  ordinary : q.Ordinary
  plain : Plain E.H q

theorem NearFit.fit {E : Env} {q : RTy} (h : NearFit E q) (hs : ¬ q.LooksLikeString) : Fit E q :=
  ⟨h.holds, h.named, h.fields, h.wf, h.ordinary, hs, h.plain⟩

theorem NearFit.find {E : Env} {q : RTy} (h : NearFit E q) : E.find (q.semId E.H) = some (q.img E.H) := h.holds.1

section
variable {E : Env} {q : RTy}

theorem letters_not_string {t : RTy} (h : t.isLetters = true) : ¬ t.LooksLikeString := by
  obtain ⟨_, _, _, rfl, _⟩ := RTy.letters_enum h
  exact id

theorem queue_part (hall : ∀ p, q.Contains p → NearFit E p) {bs start : Bytes} {ids : List SemId}
    (h : Queue E (q.semId E.H) bs ids start) : ∀ r ∈ ids, ∃ p ∈ q.parts, r = p.semId E.H := by
  have hq := hall q (.refl _)
  have hf := hq.find
  have hu : ∀ sz, q ≠ .unicode sz := by
    rintro sz rfl
    rw [RTy.img_unicode] at hf
    have hlt := hq.ordinary.2
    cases h with
    | list h hp =>
      rw [hf] at h
      cases h
      have := hp.2 (.inr (by simp [SemId.isUnicodeChar]))
      omega
    | tuple h => rw [hf] at h; cases h
    | struct h => rw [hf] at h; cases h
    | union h => rw [hf] at h; cases h
    | array h => rw [hf] at h; cases h
    | set h => rw [hf] at h; cases h
    | map h => rw [hf] at h; cases h
  have hr : ∀ c c1 sz, q ≠ .rstring c c1 sz := by
    rintro c c1 sz rfl
    obtain ⟨A, C, hR, -⟩ := rstring_described (hq.fit id) fun p hp => (hall p (.step hp (.refl _))).fit (by
      have ho := hq.ordinary
      simp only [RTy.parts, List.mem_cons, List.not_mem_nil, or_false] at hp
      rcases hp with rfl | rfl
      · exact letters_not_string ho.2.1
      · exact letters_not_string ho.1)
    rw [RTy.img_rstring] at hf
    cases h with
    | tuple h hn => rw [hf] at h; cases h; exact hn _ _ _ hR
    | list h hp => rw [hf] at h; cases h
    | struct h => rw [hf] at h; cases h
    | union h => rw [hf] at h; cases h
    | array h => rw [hf] at h; cases h
    | set h => rw [hf] at h; cases h
    | map h => rw [hf] at h; cases h
  intro r hin
  refine RTy.img_refs hu hr ?_
  cases h with
  | tuple h => rw [hf] at h; rw [Option.some.inj h]; exact hin
  | struct h => rw [hf] at h; rw [Option.some.inj h]; exact hin
  | union h hv =>
    rw [hf] at h
    rw [Option.some.inj h, List.mem_singleton.mp hin]
    exact List.mem_map_of_mem hv
  | array h =>
    rw [hf] at h
    rw [Option.some.inj h, List.eq_of_mem_replicate hin]
    simp [Ty.refs]
  | list h =>
    rw [hf] at h
    rw [Option.some.inj h, List.eq_of_mem_replicate hin]
    simp [Ty.refs]
  | set h =>
    rw [hf] at h
    rw [Option.some.inj h, List.eq_of_mem_replicate hin]
    simp [Ty.refs]
  | map h =>
    rw [hf] at h
    rw [Option.some.inj h]
    obtain ⟨l, hl, hin⟩ := List.mem_flatten.mp hin
    rw [List.eq_of_mem_replicate hl] at hin
    exact hin

theorem announced {sz : Sizing} {bs rest : Bytes} {n w : Nat} (h : Announces sz.max bs n rest) (h32 : sz.max.toNat < 2 ^ 32)
    (hm : 2 ^ 32 * (2 * E.valSize) < 2 ^ 63) (hw : w ≤ 2 * E.valSize) : InMemory w n := by
  have h1 : 256 ^ prefixWidth sz.max.toNat ≤ 2 ^ 32 := by rw [← byteSize_eq]; exact width_le h32
  have h2 : n ≤ 2 ^ 32 := by have := h.1; omega
  have := Nat.mul_le_mul h2 hw
  unfold InMemory
  omega

theorem list_sizes {p : RTy} (hp : NearFit E p) {c : SemId} {sz : Sizing} (h : E.find (p.semId E.H) = some (.list c sz)) :
    sz.min.toNat ≤ sz.max.toNat ∧ sz.max.toNat < 2 ^ 32 := by
  rw [hp.find] at h
  have ho := hp.ordinary
  rcases RTy.img_list_inv (Option.some.inj h) with ⟨rfl, -⟩ | ⟨t, rfl, -⟩
  · exact ho
  · exact ho

theorem no_trap (hm : 2 ^ 32 * (2 * E.valSize) < 2 ^ 63) (hall : ∀ p, q.Contains p → NearFit E p) {bs : Bytes} :
    ¬ Trap E (q.semId E.H) bs := by
  have hq := hall q (.refl _)
  have hf := hq.find
  intro h
  cases h with
  | char h => rw [hf] at h; exact RTy.img_ne_unicode (Option.some.inj h)
  | pair h ho =>
    obtain ⟨_, a, b, c, sz, rfl, hb, hsz⟩ := ho
    rw [hf] at h
    by_cases hr : ∃ c c1 sz, q = .rstring c c1 sz
    · obtain ⟨c', c1, sz', rfl⟩ := hr
      rw [RTy.img_rstring] at h
      simp only [Option.some.injEq, Ty.tuple.injEq, List.cons.injEq, and_true] at h
      obtain ⟨-, rfl⟩ := h
      have h2 : E.find (tailId E.H c' sz') = _ := hq.holds.find_tail
      rw [hb] at h2
      cases h2
      have ho := hq.ordinary
      simp only [RTy.Ordinary] at ho
      simp only [BitVec.toNat_sub] at hsz
      have := sz'.min.isLt
      have := sz'.max.isLt
      simp at hsz
      omega
    · obtain ⟨p, hp, rfl⟩ := RTy.img_refs (H := E.H) (q := q) (r := b) (by
        rintro sz rfl; rw [RTy.img_unicode] at h; cases h) (fun c c1 sz e => hr ⟨c, c1, sz, e⟩) (by
        rw [Option.some.inj h]; simp [Ty.refs])
      have := list_sizes (hall p (.step hp (.refl _))) hb
      omega
  | list h _ ha hi => exact hi (announced ha (list_sizes hq h).2 hm (by omega))
  | set h ha hi =>
    rw [hf] at h
    have ho := hq.ordinary
    cases q with
    | set t sz => rw [RTy.img_set] at h; cases h; exact hi (announced ha ho hm (by omega))
    | record lib name b fs =>
      cases fs with
      | nil => rw [RTy.img_empty] at h; cases h
      | cons f fs =>
        cases b
        · rw [RTy.img_struct rfl] at h; cases h
        · rw [RTy.img_tuple rfl] at h; cases h
    | unicode => rw [RTy.img_unicode] at h; cases h
    | rstring => rw [RTy.img_rstring] at h; cases h
    | union => rw [RTy.img_union] at h; cases h
    | _ => simp [RTy.img, RTy.sem, RTy.tyWith, Ty.mapRefs] at h
  | map h ha hi =>
    rw [hf] at h
    have ho := hq.ordinary
    cases q with
    | map k t sz => rw [RTy.img_map] at h; cases h; exact hi (announced ha ho hm (by omega))
    | record lib name b fs =>
      cases fs with
      | nil => rw [RTy.img_empty] at h; cases h
      | cons f fs =>
        cases b
        · rw [RTy.img_struct rfl] at h; cases h
        · rw [RTy.img_tuple rfl] at h; cases h
    | unicode => rw [RTy.img_unicode] at h; cases h
    | rstring => rw [RTy.img_rstring] at h; cases h
    | union => rw [RTy.img_union] at h; cases h
    | _ => simp [RTy.img, RTy.sem, RTy.tyWith, Ty.mapRefs] at h

theorem next_part (hall : ∀ p, q.Contains p → NearFit E p) {bs bs' : Bytes} {id : SemId}
    (h : Next E (q.semId E.H) bs id bs') : ∃ p ∈ q.parts, id = p.semId E.H := by
  obtain ⟨before, after, start, hq, -⟩ := h
  exact queue_part hall hq id (by simp)

theorem gets_part {id id' : SemId} {bs bs' : Bytes} (h : GetsTo E id bs id' bs') :
    ∀ q : RTy, id = q.semId E.H → (∀ p, q.Contains p → NearFit E p) → ∃ p, q.Contains p ∧ id' = p.semId E.H := by
  induction h with
  | here => exact fun q e _ => ⟨q, .refl _, e⟩
  | step hn _ ih =>
    rintro q rfl hall
    obtain ⟨p, hp, rfl⟩ := next_part hall hn
    obtain ⟨s, hs, e⟩ := ih p rfl fun s hs => hall s (.step hp hs)
    exact ⟨s, .step hp hs, e⟩

/-- Reading at the id of a Rust type returns. -/
theorem read_rust (hs : E.Sane) (hm : 2 ^ 32 * (2 * E.valSize) < 2 ^ 63) (hall : ∀ p, q.Contains p → NearFit E p) (bs : Bytes) :
    ∃ n, (read E n (q.semId E.H) bs).returned = true := by
  refine (C33_outcomes_partial E hs (q.semId E.H) bs).2.2.1.mpr ⟨fun id' bs' hg ht => ?_, ?_⟩
  · obtain ⟨p, hp, rfl⟩ := gets_part hg q rfl hall
    exact no_trap hm (fun s hs => hall s (hp.trans hs)) ht
  · rintro ⟨f, h0, h⟩
    have : ∀ k, ∃ p, q.Contains p ∧ (f k).1 = p.semId E.H ∧ sizeOf p + k ≤ sizeOf q := fun k => by
      induction k with
      | zero => exact ⟨q, .refl _, by rw [h0], Nat.le_refl _⟩
      | succ k ih =>
        obtain ⟨p, hp, e, hk⟩ := ih
        have hn := h k
        rw [e] at hn
        obtain ⟨s, hs, e'⟩ := next_part (fun s hs => hall s (hp.trans hs)) hn
        exact ⟨s, hp.trans (.step hs (.refl _)), e', by have := RTy.parts_lt hs; omega⟩
    obtain ⟨p, -, -, hk⟩ := this (sizeOf q)
    cases p <;> simp at hk <;> omega

/-- Checking against a Rust type returns. -/
theorem typify_rust_ends (hs : E.Sane) : ∀ q : RTy, (∀ p, q.Contains p → NearFit E p) → ∀ n v, sizeOf q ≤ n →
    Fine true (typify E n v (q.semId E.H)) := by
  refine RTy.induct fun q ih hall n v hn => ?_
  have hq := hall q (.refl _)
  cases n with
  | zero => cases q <;> simp at hn
  | succ n =>
    simp only [typify, hs.typeOf hq.find]
    by_cases hu : ∃ sz, q = .unicode sz
    · obtain ⟨sz, rfl⟩ := hu
      have hc : ∀ u, Fine true (typify E n u (SemId.unicodeChar E.H)) := fun u => by
        cases n with
        | zero =>
          cases sz
          simp only [RTy.unicode.sizeOf_spec, Sizing.mk.sizeOf_spec] at hn
          omega
        | succ n =>
          simp only [typify, hs.typeOf (show E.find (SemId.unicodeChar E.H) = _ from hq.holds.find_unicode)]
          exact typifyUnicode_fine u
      rw [RTy.img_unicode]
      refine typifyTy_fine (fun r hr u _ => ?_) fun r hw => ?_
      · rw [List.mem_singleton.mp hr]; exact hc u
      · rcases hw with h | ⟨u, h⟩ <;> cases h
    · by_cases hr : ∃ c c1 sz, q = .rstring c c1 sz
      · obtain ⟨c, c1, sz, rfl⟩ := hr
        have h0 := RTy.parts_lt (show c ∈ (RTy.rstring c c1 sz).parts by simp [RTy.parts])
        have h1 := RTy.parts_lt (show c1 ∈ (RTy.rstring c c1 sz).parts by simp [RTy.parts])
        have hc1 : ∀ u, Fine true (typify E n u (c1.semId E.H)) := fun u =>
          ih c1 (by simp [RTy.parts]) (fun s hs => hall s (.step (by simp [RTy.parts]) hs)) n u (by omega)
        have ht : ∀ u, Fine true (typify E n u (tailId E.H c sz)) := fun u => by
          cases n with
          | zero =>
            have : 0 < sizeOf c := by cases c <;> simp <;> omega
            omega
          | succ n =>
            simp only [typify, hs.typeOf (show E.find (tailId E.H c sz) = _ from hq.holds.find_tail)]
            have hc : ∀ u, Fine true (typify E n u (c.semId E.H)) := fun u =>
              ih c (by simp [RTy.parts]) (fun s hs => hall s (.step (by simp [RTy.parts]) hs)) n u (by
                have : 0 < sizeOf c1 := by cases c1 <;> simp <;> omega
                simp only [RTy.rstring.sizeOf_spec] at hn
                omega)
            refine typifyTy_fine (fun r hr u _ => ?_) fun r hw => ?_
            · rw [List.mem_singleton.mp hr]; exact hc u
            · rcases hw with h | ⟨u, h⟩ <;> cases h
        have hp : ∀ r ∈ ((RTy.rstring c c1 sz).img E.H).refs, ∀ u, Fine true (typify E n u r) := fun r hin u => by
          rw [RTy.img_rstring] at hin
          simp only [Ty.refs, List.mem_cons, List.not_mem_nil, or_false] at hin
          rcases hin with rfl | rfl
          · exact hc1 u
          · exact ht u
        exact typifyTy_fine (fun r hr u _ => hp r hr u) fun r hw => hp r hw.refs v
      · have hp : ∀ r ∈ (q.img E.H).refs, ∀ u, Fine true (typify E n u r) := fun r hin u => by
          obtain ⟨p, hp, rfl⟩ := RTy.img_refs (fun sz e => hu ⟨sz, e⟩) (fun c c1 sz e => hr ⟨c, c1, sz, e⟩) hin
          exact ih p hp (fun s hs => hall s (.step hp hs)) n u (by have := RTy.parts_lt hp; omega)
        exact typifyTy_fine (fun r hr u _ => hp r hr u) fun r hw => hp r hw.refs v

end

theorem crates_near {H : Hash} {debug : Bool} {cs : List Crate} {fuel : Nat} (hc : ¬ CrateCollision H debug fuel cs)
    (hb : Buildable debug cs) (hf : 65535 ≤ fuel) {ls ms : List TypeLib} (h : buildAll H debug fuel cs [] = .ok ls)
    (hp : ls.Perm ms) {sys : SymbolicSys} (hs : assembleSys H debug ms = .ok sys)
    (hcon : Consistent (allDefs H ms)) {E : Env} (hH : E.H = H) (hE : E.sys = sys.types)
    {c : Crate} (hcm : c ∈ cs) {s : RTy} {n : Name} (ho : c.Owns s n) {q : RTy}
    (hq : s.Contains q) (hok : ∀ p, q.Contains p → p.DistinctFields ∧ p.Ordinary) :
    ∀ p, q.Contains p → NearFit E p := by
  subst hH
  intro p hqp
  have hment : c.Mentions p := by
    obtain ⟨t, ht, hts⟩ := ho.1
    exact ⟨t, ht, hts.trans (hq.trans hqp)⟩
  refine ⟨?_, hb.node_named hcm hment, (hok p hqp).1, ?_, (hok p hqp).2,
    RTy.plain (fun h => hc (.inl h)) (fun x hx => .inr hx) (hment.text hcm)⟩
  · rw [hE]
    exact holds_all hc hb hf h hp hs hcon hcm ho (hq.trans hqp)
  · obtain ⟨hd, hn⟩ := hb.limits c hcm p hment
    exact Ty.wf_mapRefs _ (RTy.tyWith_wf hd hn)

/-- **C33, C101, for Rust types, partial** (for systems where definitions with the same id are the same; for collections
of less than `2 ^ 32` items): whatever the bytes are, reading them as a value of a type owned by one of the crates, or
mentioned by such a type, returns, a value or an error; whatever the value is, checking it against the type returns.
There are no types on which the stack overflows (or there is a hash collision). -/
theorem C33_crates_partial (H : Hash) (debug : Bool) (cs : List Crate) (hb : Buildable debug cs)
    (fuel : Nat) (hf : 65535 ≤ fuel) (ls ms : List TypeLib) (h : buildAll H debug fuel cs [] = .ok ls)
    (hp : ls.Perm ms) (sys : SymbolicSys) (hs : assembleSys H debug ms = .ok sys)
    (hcon : Consistent (allDefs H ms)) (hd : ∀ c ∈ cs, ∀ q, c.Mentions q → q.DistinctFields)
    (E : Env) (hH : E.H = H) (hE : E.sys = sys.types) (hm : 2 ^ 32 * (2 * E.valSize) < 2 ^ 63)
    (h1 : ∀ n, 1 ≤ n → n ≤ 8 → E.primSize (BitVec.ofNat 8 n) = n)
    (h2 : ∀ n, n = 1 ∨ n = 2 ∨ n = 4 ∨ n = 8 → E.primSize (BitVec.ofNat 8 (0x40 + n)) = n)
    (h3 : E.primSize Ty.BYTE_CODE = 1) (c : Crate) (hcm : c ∈ cs) (s : RTy) (n : Name) (ho : c.Owns s n) (q : RTy)
    (hq : s.Contains q) (hok : ∀ p, q.Contains p → p.Ordinary) :
    ((∀ bs, ∃ rfuel, ∀ more, rfuel ≤ more → (read E more (q.semId H) bs).returned = true ∧
        (deserialize E more (q.semId H) bs).returned = true) ∧
      ∀ v tfuel, sizeOf q ≤ tfuel → (typify E tfuel v (q.semId H)).returned = true) ∨
    CrateCollision H debug fuel cs := by
  by_cases hc : CrateCollision H debug fuel cs
  · exact .inr hc
  have hsane := (C76_crates_sane H debug cs hb fuel hf ls ms h hp sys hs hd E hH hE h1 h2 h3).resolve_right hc
  have hdist : ∀ p, q.Contains p → p.DistinctFields := fun p hp => hd c hcm p (by
    obtain ⟨t, ht, hts⟩ := ho.1
    exact ⟨t, ht, hts.trans (hq.trans hp)⟩)
  have hnear := crates_near hc hb hf h hp hs hcon hH hE hcm ho hq fun p hp => ⟨hdist p hp, hok p hp⟩
  subst hH
  refine .inl ⟨fun bs => ?_, fun v tfuel ht => (typify_rust_ends hsane q hnear tfuel v ht).returned⟩
  obtain ⟨k, hk⟩ := read_rust hsane hm hnear bs
  refine ⟨k, fun more hmore => ?_⟩
  have he : read E more (q.semId E.H) bs = read E k (q.semId E.H) bs := read_mono_ne hmore (Out.returned_ne hk)
  rw [← he] at hk
  refine ⟨hk, ?_⟩
  unfold deserialize
  cases hx : read E more (q.semId E.H) bs with
  | ok a =>
    simp only [Out.bind_ok]
    split <;> rfl
  | err e => rfl
  | panic => rw [hx] at hk; cases hk
  | diverge => rw [hx] at hk; cases hk

/-- The example crates: bytes which are not a picture, and a value which is not one. -/
example : ((buildAll toyHash true 65535 exCrates []).get?.bind fun ls => (assembleSys toyHash true ls.reverse).get?.map fun s =>
      let E : Env := { exE true with sys := s.types }
      ((deserialize E 5 (exPicture.semId toyHash) [1, 2, 3]).returned,
        (typify E 5 (.tuple [.unit]) (exPicture.semId toyHash)).returned)) = some (true, true) := by
  decide +kernel

example : ∀ p, exPicture.Contains p → p.Ordinary := fun p hp => (exPicture_fits.2.1 p hp).2.1

end Verif
