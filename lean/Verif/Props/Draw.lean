import Verif.Lemmas.Draw
import Verif.Props.Apart
import Verif.Props.Layout
import Verif.Props.Stl

/-!
# Layouts of Rust types

The layout of a type in a system assembled from the libraries of crates is the tree of the Rust type.
-/

namespace Verif

/-- The Rust types of a system assembled from the libraries of the crates. -/
def Owned (cs : List Crate) (q : RTy) : Prop := ∃ c ∈ cs, ∃ s n, c.Owns s n ∧ s.Contains q

theorem Owned.mentions {cs : List Crate} {q : RTy} (h : Owned cs q) : ∃ c ∈ cs, c.Mentions q := by
  obtain ⟨c, hc, s, n, ⟨⟨t, ht, hts⟩, -, -⟩, hq⟩ := h
  exact ⟨c, hc, t, ht, hts.trans hq⟩

/-- A named type is owned by the crate of its library. -/
theorem Owned.named {debug : Bool} {cs : List Crate} (hb : Buildable debug cs) {q : RTy} (h : Owned cs q) {n : Name}
    (hn : q.name = some n) : ∃ c ∈ cs, c.name = q.lib ∧ c.Owns q n := by
  obtain ⟨c, hc, hq⟩ := h.mentions
  obtain ⟨pre, post, rfl⟩ := List.append_of_mem hc
  rcases hb.layered pre c post rfl q hq (by rw [hn]; simp) with h | ⟨d, hd, hm, h⟩
  · exact ⟨c, hc, h.symm, hq, h, hn⟩
  · exact ⟨d, by simp [hd], h.symm, hm, h, hn⟩

/-- Systems assembled from the libraries of crates. -/
theorem crates_draw {H : Hash} {debug : Bool} {cs : List Crate} {fuel : Nat}
    (hc : ¬ CrateCollision H debug fuel cs) (hb : Buildable debug cs) (hi : IdsApart H cs)
    (hd : ∀ c ∈ cs, ∀ q, c.Mentions q → q.Drawable debug)
    (ht : ∃ ds : List RTy, ds.length < 2 ^ 24 - 1 ∧ ∀ q, Describe cs q → q ∈ ds) (hf : 65535 ≤ fuel) :
    ∃ ls, buildAll H debug fuel cs [] = .ok ls ∧ ∀ ms, ls.Perm ms → ∃ S, assembleSys H debug ms = .ok S ∧
      Draws H debug S (Owned cs) ∧ (∃ rank wraps, S.Outlined debug rank wraps) ∧
      ∀ c ∈ cs, ∀ s n, c.Owns s n → S.resolve ⟨c.name, n⟩ = some (s.semId H) := by
  have hok : ∀ q, Owned cs q → q.Drawable debug := fun q hq => by
    obtain ⟨c, hc, hm⟩ := hq.mentions
    exact hd c hc q hm
  obtain ⟨ls, h, hsys⟩ := system_apart hc hb hi (fun hdb c hcm q hq => (hd c hcm q hq).few hdb) ht hf
  refine ⟨ls, h, fun ms hp => ?_⟩
  obtain ⟨S, hs, hcl, -, hget, hres⟩ := hsys ms hp
  have hw : ∀ l ∈ ms, l.WF := fun l hl => buildAll_wf hc hb hf h l (hp.mem_iff.mpr hl)
  have hdraws : Draws H debug S (Owned cs) := {
    parts := by
      rintro q p ⟨c, hc, s, n, ho, hq⟩ hp
      exact ⟨c, hc, s, n, ho, hq.trans (.step hp (.refl _))⟩
    get := by
      rintro q id t ⟨c, hc, s, n, ho, hq⟩ he
      exact (hget id t).mpr ⟨c, hc, s, n, q, ho, hq, he⟩
    only := by
      intro id t hg
      obtain ⟨c, hc, s, n, q, ho, hq, he⟩ := (hget id t).mp hg
      exact ⟨q, ⟨c, hc, s, n, ho, hq⟩, he⟩
    look := by
      intro q hq
      cases hn : q.name with
      | some n =>
        obtain ⟨c, hc, hl, ho⟩ := hq.named hb hn
        rw [(hres c hc q n ho).2, hl, RTy.full, hn]; rfl
      | none =>
        have hf' : q.full = none := by rw [RTy.full, hn]; rfl
        rw [hf']
        cases hlk : S.lookup (q.semId H) with
        | none => rfl
        | some fqn =>
          exfalso
          obtain ⟨⟨l, hl, hln, hdec⟩, -⟩ := C16_lookup_sound H debug ms S fqn _ hw hs hlk
          obtain ⟨t, ht, hdef⟩ := declares_def hl hdec
          obtain ⟨c, hcm, s, n, ho, ⟨r, hr, u, hu, e⟩ | e⟩ := (buildAll_defs hc hb hf h hp _).mp hdef
          · simp [unnamedDef] at e
          · have e := congrArg Prod.fst e
            dsimp only at e
            obtain ⟨d, hdm, hqm⟩ := hq.mentions
            obtain ⟨-, h2, -⟩ := hi q s ⟨d, hdm, q, hqm, mem_described q⟩ ⟨c, hcm, s, ho.1, mem_described s⟩ e
            rw [hn, ho.2.2] at h2
            cases h2
    byte := by
      intro q hq
      obtain ⟨d, hdm, hqm⟩ := hq.mentions
      have := (RTy.plain (H := H) (D := crateTexts H cs) (fun h => hc (.inl h)) (fun x hx => .inr hx) (p := q)
        (.inl ⟨q, ⟨d, hdm, q, hqm, mem_described q⟩, rfl⟩)).byte
      rw [← this, SemId.isByte, Bool.or_eq_true, decide_eq_true_eq, decide_eq_true_eq]
      unfold ByteId
      exact or_congr eq_comm eq_comm
    ok := hok
    variants := by
      intro q hq
      obtain ⟨d, hdm, hqm⟩ := hq.mentions
      exact (hb.limits d hdm q hqm).1
    node := by
      intro q hq
      obtain ⟨d, hdm, hqm⟩ := hq.mentions
      exact ⟨_, _, (hb.limits d hdm q hqm).2⟩ }
  refine ⟨S, hs, hdraws, hdraws.outlined hcl ?_, fun c hcm s n ho => (hres c hcm s n ho).1⟩
  intro id t hg hdb
  obtain ⟨q, hq, he⟩ := hdraws.only id t hg
  rcases Entry.tail_or he with ⟨-, rfl⟩ | ⟨sz, -, -, rfl⟩ | ⟨c, c1, sz, -, -, rfl⟩
  · exact RTy.img_refs_lt (hdraws.variants q hq) ((hok q hq).few hdb)
  · simp [Ty.refs]
  · simp [Ty.refs]

/-- The layout is the tree, and is shown as the tree if there are no optional types. -/
theorem Draws.layout {H : Hash} {debug : Bool} {S : SymbolicSys} {D : RTy → Prop} (h : Draws H debug S D)
    (ho : ∃ rank wraps, S.Outlined debug rank wraps) {s : RTy} (hs : D s) :
    ((s.draw H 0 none []).items.length ≤ 2 ^ 32 - 1 → ∃ enough, ∀ f, enough ≤ f →
      Verif.layout H debug f S (s.semId H) = .ok (s.draw H 0 none []).items) ∧
    ∀ maxAttrs maxContent, 255 ≤ maxContent → s.optionFree = true →
      (∀ i ∈ (s.draw H 0 none []).items, i.Labelled maxAttrs) →
      ∃ head : TypeInfo → VHead,
        (∀ i ∈ (s.draw H 0 none []).items, i.toVesper H maxAttrs = .ok (head i)) ∧
        toVesper H debug maxAttrs maxContent (s.draw H 0 none []).items = .ok ((s.draw H 0 none []).mirror head) := by
  obtain ⟨rank, wraps, ho⟩ := ho
  have hT : Outline H S (s.semId H) (s.draw H 0 none []) := ⟨_, h.shape _ s 0 none [] (Nat.le_refl _) hs⟩
  refine ⟨layout_items H debug ho ⟨_, h.self hs⟩ _ hT, fun maxAttrs maxContent hm hf hl => ?_⟩
  exact C49_mirror_partial H debug hm ho (h.optionFree hs hf) hT hl

/-! ## C93 -/

/-- **C93**: for crates whose different types are described by different texts, in whatever order their libraries are
assembled, the layout of every type of the crates is the tree of the Rust type: all its fields and variants with their
names, in order, each with what is below, parents before children (or there is a hash collision). -/
theorem C93_layout (H : Hash) (debug : Bool) (cs : List Crate) (hb : Buildable debug cs) (ha : OutlinesApart cs)
    (hd : ∀ c ∈ cs, ∀ q, c.Mentions q → q.Drawable debug)
    (ht : ∃ ds : List RTy, ds.length < 2 ^ 24 - 1 ∧ ∀ q, Describe cs q → q ∈ ds) (fuel : Nat) (hf : 65535 ≤ fuel) :
    (∃ ls, buildAll H debug fuel cs [] = .ok ls ∧ ∀ ms, ls.Perm ms → ∃ S, assembleSys H debug ms = .ok S ∧
      ∀ c ∈ cs, ∀ s n, c.Owns s n → s.mentions ≤ 2 ^ 32 - 1 → ∃ id, S.resolve ⟨c.name, n⟩ = some id ∧
        ∃ enough, ∀ f, enough ≤ f → layout H debug f S id = .ok (s.draw H 0 none []).items) ∨
    CrateCollision H debug fuel cs := by
  by_cases hc : CrateCollision H debug fuel cs
  · exact .inr hc
  left
  obtain ⟨ls, h, hsys⟩ := crates_draw hc hb ((C82_outlines H cs ha).resolve_right fun h => hc (.inl h)) hd ht hf
  refine ⟨ls, h, fun ms hp => ?_⟩
  obtain ⟨S, hs, hdr, hout, hres⟩ := hsys ms hp
  refine ⟨S, hs, fun c hcm s n ho hl => ⟨_, hres c hcm s n ho, ?_⟩⟩
  exact (hdr.layout hout ⟨c, hcm, s, n, ho, .refl s⟩).1
    (Nat.le_trans (draw_length _ s 0 none [] (Nat.le_refl _)) hl)

/-- **C93, partial** (for types without options: with them it is `C49_optional_root_violated` and
`C49_optional_fields_violated`): the text shown for a type of a crate has one node for each node of the tree of the Rust
type, with the nodes of what is below it below it, in order (or there is a hash collision). Enumerations have at most
`E` values and at most `W` one-field tuples directly contain each other. -/
theorem C93_shown_partial (H : Hash) (debug : Bool) (cs : List Crate) (hb : Buildable debug cs) (ha : OutlinesApart cs)
    (hd : ∀ c ∈ cs, ∀ q, c.Mentions q → q.Drawable debug)
    (ht : ∃ ds : List RTy, ds.length < 2 ^ 24 - 1 ∧ ∀ q, Describe cs q → q ∈ ds) (fuel : Nat) (hf : 65535 ≤ fuel)
    (E W maxAttrs maxContent : Nat) (hm : 255 ≤ maxContent) (hA : E + 3 * (W + 1) + 3 ≤ maxAttrs) :
    (∃ ls, buildAll H debug fuel cs [] = .ok ls ∧ ∀ ms, ls.Perm ms → ∃ S, assembleSys H debug ms = .ok S ∧
      ∀ c ∈ cs, ∀ s n, c.Owns s n → s.mentions ≤ 2 ^ 32 - 1 → s.optionFree = true →
        (∀ q, s.Contains q → q.values ≤ E ∧ q.wraps ≤ W) → ∃ id, S.resolve ⟨c.name, n⟩ = some id ∧
        ∃ enough, ∀ f, enough ≤ f → ∃ items, layout H debug f S id = .ok items ∧
          ∃ head : TypeInfo → VHead, (∀ i ∈ items, i.toVesper H maxAttrs = .ok (head i)) ∧
            toVesper H debug maxAttrs maxContent items = .ok ((s.draw H 0 none []).mirror head)) ∨
    CrateCollision H debug fuel cs := by
  by_cases hc : CrateCollision H debug fuel cs
  · exact .inr hc
  left
  obtain ⟨ls, h, hsys⟩ := crates_draw hc hb ((C82_outlines H cs ha).resolve_right fun h => hc (.inl h)) hd ht hf
  refine ⟨ls, h, fun ms hp => ?_⟩
  obtain ⟨S, hs, hdr, hout, hres⟩ := hsys ms hp
  refine ⟨S, hs, fun c hcm s n ho hl hof hEW => ⟨_, hres c hcm s n ho, ?_⟩⟩
  have hown : Owned cs s := ⟨c, hcm, s, n, ho, .refl s⟩
  obtain ⟨h1, h2⟩ := hdr.layout hout hown
  obtain ⟨enough, he⟩ := h1 (Nat.le_trans (draw_length _ s 0 none [] (Nat.le_refl _)) hl)
  refine ⟨enough, fun f hf' => ⟨_, he f hf', h2 maxAttrs maxContent hm hof ?_⟩⟩
  refine draw_labelled hA _ s 0 none [] (Nat.le_refl _) (fun p hp => ⟨?_, hEW p hp⟩) ?_
  · exact hdr.variants p ⟨c, hcm, s, n, ho, hp⟩
  · simpa using (hEW s (.refl s)).2

/-! ### The library `StrictTypes` -/

theorem RTy.Ordinary.drawable {debug : Bool} {q : RTy} (h : q.Ordinary) (hc : ¬ q.LooksLikeString) (hp : q.parts.length < 255)
    (hh : q.height < 2 ^ 32 - 4) (hw : q.wraps < 254) : q.Drawable debug where
  text := by
    rintro c c1 sz rfl
    exact ⟨h.1, h.2.1⟩
  clear := hc
  bounds := by
    rintro - sz (rfl | ⟨t, rfl⟩)
    · simp only [RTy.Ordinary] at h; omega
    · simp only [RTy.Ordinary] at h; omega
  few := fun _ => hp
  levels := hh
  wrappers := hw

theorem Stl.nodes_small : ∀ q ∈ Stl.nodes, q.height < 100 ∧ q.wraps < 5 ∧ q.values ≤ 128 := by decide +kernel

theorem Stl.nodes_drawable {debug : Bool} {cs : List Crate} (hn : ∀ c ∈ cs, ∀ t ∈ c.types, t ∈ Stl.nodes) :
    ∀ c ∈ cs, ∀ q, c.Mentions q → q.Drawable debug := fun c hcm q hq => by
  have hm := Stl.nodes_closed.mentions (hn c hcm) hq
  obtain ⟨-, h2, h3, -, -, -, h7⟩ := Stl.nodes_values q hm
  obtain ⟨h8, h9, -⟩ := Stl.nodes_small q hm
  exact h2.drawable h3 h7 (by omega) (by omega)

theorem Stl.nodes_mentions : ∀ q ∈ Stl.nodes, q.mentions ≤ 2 ^ 32 - 1 := by decide +kernel

/-- Systems assembled from libraries made of the types of `Std` and `StrictTypes`. -/
theorem Stl.layouts {H : Hash} {debug : Bool} {cs : List Crate} {fuel : Nat} (hn : ∀ c ∈ cs, ∀ t ∈ c.types, t ∈ Stl.nodes)
    (hb : Buildable debug cs) (hc : ¬ CrateCollision H debug fuel cs) (ho : ¬ Overlap H (crateTexts H cs))
    (hf : 65535 ≤ fuel) {maxAttrs maxContent : Nat} (hA : 155 ≤ maxAttrs) (hm : 255 ≤ maxContent) :
    ∃ ls, buildAll H debug fuel cs [] = .ok ls ∧ ∀ ms, ls.Perm ms → ∃ S, assembleSys H debug ms = .ok S ∧
      ∀ c ∈ cs, ∀ s n, c.Owns s n → S.resolve ⟨c.name, n⟩ = some (s.semId H) ∧
        (∃ t, S.types.get (s.semId H) = some t) ∧
        (∃ enough, ∀ f, enough ≤ f → layout H debug f S (s.semId H) = .ok (s.draw H 0 none []).items) ∧
        (s.optionFree = true → ∃ head : TypeInfo → VHead,
          (∀ i ∈ (s.draw H 0 none []).items, i.toVesper H maxAttrs = .ok (head i)) ∧
          toVesper H debug maxAttrs maxContent (s.draw H 0 none []).items = .ok ((s.draw H 0 none []).mirror head)) := by
  obtain ⟨ls, h, hsys⟩ := crates_draw hc hb (Stl.idsApart_of hn (fun h => hc (.inl h)) ho) (Stl.nodes_drawable hn)
    ⟨Stl.describedNodes, by decide +kernel, fun q hq => Stl.described_of hn hq⟩ hf
  refine ⟨ls, h, fun ms hp => ?_⟩
  obtain ⟨S, hs, hdr, hout, hres⟩ := hsys ms hp
  refine ⟨S, hs, fun c hcm s n hon => ?_⟩
  have hown : Owned cs s := ⟨c, hcm, s, n, hon, .refl s⟩
  have hnode : ∀ p, s.Contains p → p ∈ Stl.nodes := fun p hp => by
    obtain ⟨⟨t, ht, hts⟩, -, -⟩ := hon
    exact Stl.nodes_closed.mentions (hn c hcm) ⟨t, ht, hts.trans hp⟩
  obtain ⟨h1, h2⟩ := hdr.layout hout hown
  refine ⟨hres c hcm s n hon, ⟨_, hdr.self hown⟩, ?_, fun hof => ?_⟩
  · exact h1 (Nat.le_trans (draw_length _ s 0 none [] (Nat.le_refl _)) (Stl.nodes_mentions s (hnode s (.refl s))))
  · refine h2 maxAttrs maxContent hm hof ?_
    refine draw_labelled (E := 128) (W := 4) (by omega) _ s 0 none [] (Nat.le_refl _) (fun p hp => ?_) ?_
    · refine ⟨hdr.variants p ⟨c, hcm, s, n, hon, hp⟩, ?_⟩
      have := Stl.nodes_small p (hnode p hp)
      omega
    · have := (Stl.nodes_small s (hnode s (.refl s))).2.1
      simp; omega

/-- **C93**: the layout of every type of `Std` and `StrictTypes` is the tree of the Rust type, and those without options
are shown as the tree (or there is a hash collision among the texts of these two crates, or two of their ids overlap in
thirty bytes). -/
theorem C93_strict_types (H : Hash) (debug : Bool) (fuel : Nat) (hf : 65535 ≤ fuel) (maxAttrs maxContent : Nat)
    (hA : 155 ≤ maxAttrs) (hm : 255 ≤ maxContent) :
    (∃ ls, buildAll H debug fuel Stl.crates [] = .ok ls ∧ ∀ ms, ls.Perm ms → ∃ S, assembleSys H debug ms = .ok S ∧
      ∀ c ∈ Stl.crates, ∀ s n, c.Owns s n → S.resolve ⟨c.name, n⟩ = some (s.semId H) ∧
        (∃ enough, ∀ f, enough ≤ f → layout H debug f S (s.semId H) = .ok (s.draw H 0 none []).items) ∧
        (s.optionFree = true → ∃ head : TypeInfo → VHead,
          (∀ i ∈ (s.draw H 0 none []).items, i.toVesper H maxAttrs = .ok (head i)) ∧
          toVesper H debug maxAttrs maxContent (s.draw H 0 none []).items = .ok ((s.draw H 0 none []).mirror head))) ∨
    CrateCollision H debug fuel Stl.crates ∨ Overlap H (crateTexts H Stl.crates) := by
  by_cases hc : CrateCollision H debug fuel Stl.crates
  · exact .inr (.inl hc)
  by_cases ho : Overlap H (crateTexts H Stl.crates)
  · exact .inr (.inr ho)
  left
  obtain ⟨ls, h, hsys⟩ := Stl.layouts Stl.crates_nodes (Stl.buildable debug) hc ho hf hA hm
  refine ⟨ls, h, fun ms hp => ?_⟩
  obtain ⟨S, hs, hd⟩ := hsys ms hp
  refine ⟨S, hs, fun c hcm s n hon => ?_⟩
  obtain ⟨h1, -, h2, h3⟩ := hd c hcm s n hon
  exact ⟨h1, h2, h3⟩

/-! ### A concrete case -/

/-- Letters. -/
def dLetter : RTy := .enum n!"Shapes" (some n!"Letter") [⟨n!"a", 97⟩, ⟨n!"b", 98⟩]

/-- A newtype for a list of letters. -/
def dWord : RTy := .record n!"Shapes" (some n!"Word") true [(none, .list dLetter ⟨0, 255⟩)]

/-- Two fields. -/
def dPoint : RTy := .record n!"Shapes" (some n!"Point") false [(some n!"label", dWord), (some n!"size", .prim 2)]

/-- Two variants, the last one has the lower tag. -/
def dShape : RTy := .union n!"Shapes" (some n!"Shape") [(⟨n!"dot", 7⟩, dPoint), (⟨n!"line", 3⟩, .set dPoint ⟨2, 255⟩)] 0

/-- The crate with these types. -/
def dCrate : Crate := ⟨n!"Shapes", [dShape]⟩

/-- All types mentioned. -/
def dNodes : List RTy := [dShape, dPoint, .set dPoint ⟨2, 255⟩, dWord, .prim 2, .list dLetter ⟨0, 255⟩, dLetter]

theorem dNodes_closed : ClosedNodes dNodes := by
  simp [ClosedNodes, dNodes, dShape, dPoint, dWord, dLetter, RTy.parts]

/-- The hypotheses of C93 hold for the crate. -/
example (debug : Bool) : Buildable debug [dCrate] ∧ OutlinesApart [dCrate] ∧
    (∀ c ∈ [dCrate], ∀ q, c.Mentions q → q.Drawable debug) ∧
    (∃ ds : List RTy, ds.length < 2 ^ 24 - 1 ∧ ∀ q, Describe [dCrate] q → q ∈ ds) ∧
    ∀ q ∈ dNodes, q.mentions ≤ 2 ^ 32 - 1 ∧ q.optionFree = true ∧ q.values ≤ 2 ∧ q.wraps ≤ 1 := by
  have ht : ∀ c ∈ [dCrate], ∀ t ∈ c.types, t ∈ dNodes := by simp [dCrate, dNodes]
  have hd : ∀ q ∈ dNodes, ∀ p ∈ q.described, p ∈ dNodes := by
    simp [dNodes, dShape, dPoint, dWord, dLetter, RTy.described]
  have h : ∀ q ∈ dNodes, q.Ordinary ∧ ¬ q.LooksLikeString ∧ q.parts.length < 255 ∧ q.height < 2 ^ 32 - 4 ∧ q.wraps < 254 := by
    decide +kernel
  refine ⟨?_, outlinesApart_of dNodes_closed ht hd (by decide +kernel), fun c hc q hq => ?_, ⟨dNodes, by decide, ?_⟩,
    by decide +kernel⟩
  · refine buildable_of (ns := dNodes) dNodes_closed ht debug (by decide) (by decide)
      (by decide) (by decide +kernel) (by decide) (by decide +kernel) (by decide +kernel) (by decide +kernel) ?_
    intro pre c post e s hs hn
    have hc : c ∈ [dCrate] := by rw [e]; simp
    rw [List.mem_singleton] at hc
    subst hc
    have := dNodes_closed.mentions (by simp [dCrate, dNodes]) hs
    simp only [dNodes, List.mem_cons, List.not_mem_nil, or_false] at this
    rcases this with rfl | rfl | rfl | rfl | rfl | rfl | rfl <;> first | exact .inl rfl | exact absurd rfl hn
  · obtain ⟨h1, h2, h3, h4, h5⟩ := h q (dNodes_closed.mentions (ht c hc) hq)
    exact h1.drawable h2 h3 h4 h5
  · rintro q ⟨c, hc, s, hs, hq⟩
    exact hd s (dNodes_closed.mentions (ht c hc) hs) q hq

/-- The tree of `dShape`: the variant with the lower tag comes first, the newtype is not an item of its own. -/
example : (dShape.draw (fun _ => Id32.rep 0) 0 none []).items.map (fun i => (i.depth, i.fqn, i.item, i.nested)) =
    [(0, dShape.full, none, []),
      (1, none, some (.unionVariant 0 n!"line"), []),
      (2, dPoint.full, some .setItem, []),
      (3, none, some (.namedField 0 n!"label"), [.newType dWord.full, .asciiStr dLetter.full]),
      (3, none, some (.namedField 1 n!"size"), []),
      (1, dPoint.full, some (.unionVariant 1 n!"dot"), []),
      (2, none, some (.namedField 0 n!"label"), [.newType dWord.full, .asciiStr dLetter.full]),
      (2, none, some (.namedField 1 n!"size"), [])] := by decide +kernel

end Verif
