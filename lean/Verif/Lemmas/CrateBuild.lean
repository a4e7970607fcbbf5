import Verif.Lemmas.Crates
import Verif.Lemmas.CrateTypes
import Verif.Props.Transpile
import Verif.Props.Library
import Verif.Props.Ids
import Verif.Props.System

/-!
# Crates depending on each other: building them
-/

namespace Verif

/-! ### Compiled libraries -/

/-- What holds for a compiled library. -/
structure TypeLib.Good (H : Hash) (l : TypeLib) : Prop where
  wf : l.WF
  defined : l.Defined H
  recorded : l.Recorded
  acyclic : l.Acyclic H
  exact : l.ExactDeps

theorem compiled_good {H : Hash} {debug : Bool} {fuel : Nat} {s : SymbolicLib}
    (hw : s.WF) (hrec : s.Recorded) {l : TypeLib} (hcol : ¬ Collision H (· ∈ l.namedTexts))
    (h : s.compile H debug fuel = .ok l) : l.Good H := by
  have hc := compile_ok_compilesTo hw h
  obtain ⟨-, hac, -, hk, hlen⟩ := C22_conditions_necessary H debug fuel s hw l h
  have hback : ∀ q ∈ l.types, ∃ t, (q.1, t) ∈ s.types ∧ t.CompiledTo (l.idOf H) q.2 := by
    intro q hq
    have : q.1 ∈ s.types.keys := by rw [← hc.keys]; exact List.mem_map_of_mem (f := Prod.fst) hq
    obtain ⟨p, hp, hpn⟩ := List.mem_map.mp this
    have hp : (q.1, p.2) ∈ s.types := by rw [← hpn]; exact hp
    exact ⟨p.2, hp, hc.types _ _ _ hp hq⟩
  have hleneq : l.types.length = s.types.length := by
    rw [← OMap.length_keys, hc.keys, OMap.length_keys]
  have hsym : ∀ p ∈ s.types, ∀ sym, p.2.Uses sym → l.Symbol sym := by
    intro p hp sym hu
    obtain ⟨h1, h2, h3, m, h4, h5⟩ := hrec p hp sym hu
    refine ⟨(hc.used _).mpr ⟨h1, h2, ⟨m, h4⟩, ?_⟩, m, by rw [hc.externTypes]; exact h4, h5⟩
    intro e he hen
    rw [h3 e he hen]
    simp [LawfulKeyOrd.irrefl]
  have hlw : l.WF := by
    refine ⟨hc.sorted, ?_, by omega, hc.deps, ?_, ?_, ?_, ?_, ?_⟩
    · intro e
      have := hleneq
      rw [e] at this
      exact hw.nonEmpty (List.eq_nil_of_length_eq_zero this.symm)
    · refine Nat.le_trans (nodup_length_le ?_ fun d hd => ((hc.used d).mp hd).1) hw.fewDeps
      exact List.Pairwise.imp
        (fun {a b} h (e : a = b) => KeyOrd.ne_of_lt h (congrArg Dependency.id e)) hc.deps
    · rw [hc.externTypes]; exact hw.externSorted
    · rw [hc.externTypes]; exact hw.fewExterns
    · rw [hc.externTypes]; exact hw.externs
    · intro q hq
      obtain ⟨t, ht, hct⟩ := hback q hq
      exact hct.deep (hw.types _ ht)
  refine ⟨hlw, ?_, ?_, ?_, ?_, ?_, ?_⟩
  · intro q hq r hr id hid
    obtain ⟨t, ht, hct⟩ := hback q hq
    obtain ⟨n, -, hn⟩ := hct.from.locals id (List.mem_flatMap.mpr ⟨r, hr, hid⟩)
    exact ⟨n, hn⟩
  · intro q hq r hr e he
    obtain ⟨t, ht, hct⟩ := hback q hq
    obtain ⟨sym, hu, h1⟩ := hct.from.externs e (List.mem_flatMap.mpr ⟨r, hr, he⟩)
    exact ⟨sym, hsym _ ht sym (uses_embedded hu), h1⟩
  · obtain ⟨rank, hrank⟩ := hac
    classical
    refine ⟨fun id => if h : ∃ n, l.idOf H n = some id then rank (Classical.choose h) else 0, ?_⟩
    have hval : ∀ n id, l.idOf H n = some id →
        (if h : ∃ n, l.idOf H n = some id then rank (Classical.choose h) else 0) = rank n := by
      intro n id hn
      have hex : ∃ n, l.idOf H n = some id := ⟨n, hn⟩
      rw [dif_pos hex, idOf_inj hcol (Classical.choose_spec hex) hn]
    intro q hq r hr id hid
    obtain ⟨t, ht, hct⟩ := hback q hq
    obtain ⟨n, hm, hn⟩ := hct.from.locals id (List.mem_flatMap.mpr ⟨r, hr, hid⟩)
    have hq' : l.idOf H q.1 = some (q.2.semIdNamed H LibRef.commit q.1) := by
      unfold TypeLib.idOf
      rw [OMap.get_of_mem hlw.typesSorted hq]; rfl
    show (if h : _ then _ else _) < (if h : _ then _ else _)
    rw [hval n id hn, hval q.1 _ hq']
    exact hrank _ ht n (mentions_embedded hm)
  · intro d hd
    obtain ⟨-, h1, h2, -⟩ := (hc.used d).mp hd
    exact ⟨h1, by rw [hc.externTypes]; exact h2⟩
  · exact (C26_dependencies_exact H debug fuel s hw l h).2.1
  · exact (C26_dependencies_exact H debug fuel s hw l h).2.2.1

/-! ### Lists -/

theorem nodup_map_inj {α β : Type} {f : α → β} {l : List α} (h : (l.map f).Nodup) {a b : α} (ha : a ∈ l)
    (hb : b ∈ l) (e : f a = f b) : a = b := by
  induction l with
  | nil => cases ha
  | cons x l ih =>
    simp only [List.map_cons, List.nodup_cons, List.mem_map, not_exists, not_and] at h
    rcases List.mem_cons.mp ha with h1 | h1 <;> rcases List.mem_cons.mp hb with h2 | h2
    · rw [h1, h2]
    · rw [h1] at e; exact absurd e.symm (h.1 b h2)
    · rw [h2] at e; exact absurd e (h.1 a h1)
    · exact ih h.2 h1 h2

/-! ### Layers -/

section
variable {debug : Bool} {cs : List Crate}

theorem Buildable.mentions_part {c : Crate} {t s : RTy} (h : c.Mentions t) (hs : t.Contains s) : c.Mentions s := by
  obtain ⟨u, hu, h⟩ := h
  exact ⟨u, hu, h.trans hs⟩

theorem Buildable.ne_name (hb : Buildable debug cs) {pre post : List Crate} {c d : Crate}
    (e : cs = pre ++ c :: post) (hd : d ∈ pre) : d.name ≠ c.name := by
  have := hb.names
  rw [e, List.map_append, List.nodup_append] at this
  exact this.2.2 _ (List.mem_map_of_mem hd) _ (by simp)

/-- Types of other libraries have nothing to do with the library. -/
theorem Buildable.foreign (hb : Buildable debug cs) {pre post : List Crate} {c : Crate}
    (e : cs = pre ++ c :: post) {s : RTy} (hs : c.Mentions s) (hn : s.name ≠ none) (hl : s.lib ≠ c.name) :
    s.Foreign c.name ∧ ∃ d ∈ pre, d.Mentions s ∧ s.lib = d.name := by
  rcases hb.layered pre c post e s hs hn with h | ⟨d, hd, hm, hdl⟩
  · exact absurd h hl
  refine ⟨?_, d, hd, hm, hdl⟩
  intro s' hs' hn'
  obtain ⟨p1, p2, rfl⟩ := List.append_of_mem hd
  have hm' : d.Mentions s' := Buildable.mentions_part hm hs'
  rcases hb.layered p1 d (p2 ++ c :: post) (by rw [e]; simp) s' hm' hn' with h | ⟨d', hd', -, h⟩
  · rw [h]; exact hb.ne_name e hd
  · rw [h]; exact hb.ne_name e (by simp [hd'])

theorem Buildable.mem (e : cs = pre ++ c :: post) : c ∈ cs := by rw [e]; simp
end

/-! ### One library -/

/-- What the rest of the world needs to know about the library of a crate. -/
structure Offers (H : Hash) (c : Crate) (l : TypeLib) : Prop where
  wf : l.WF
  name : l.name = c.name
  declares : ∀ n id, l.Declares H n id ↔ ∃ s, c.Owns s n ∧ id = s.semId H

/-- What is known about the library of a crate built after `libs`. -/
structure Built (H : Hash) (libs : List TypeLib) (c : Crate) (l : TypeLib) : Prop extends Offers H c l where
  good : l.Good H
  types : ∀ s n, c.Owns s n → ∃ u, (n, u) ∈ l.types ∧ u.semIdNamed H LibRef.commit n = s.semId H ∧
    u.mapRefs (LibRef.semId H) = (s.sem H).mapRefs (TranspileRef.id H)
  defs : ∀ p, p ∈ l.defs H ↔ ∃ s n, c.Owns s n ∧ ((∃ r ∈ (s.sem H).refs, ∃ t, r.Nests t ∧ p = unnamedDef H t) ∨
    p = (s.semId H, ⟨some ⟨c.name, n⟩, (s.sem H).mapRefs (TranspileRef.id H)⟩))
  texts : ∀ x ∈ l.namedTexts, ∃ s n, c.Owns s n ∧ x = s.text H
  deps : ∀ d ∈ l.dependencies, ∃ m ∈ libs, d = ⟨m.id H, m.name⟩
  externs : ∀ lib id n, (∃ m, (lib, m) ∈ l.externTypes ∧ (id, n) ∈ m) ↔
    lib ≠ c.name ∧ ∃ s, c.Mentions s ∧ s.lib = lib ∧ s.name = some n ∧ id = s.semId H

/-- The ids of the libraries. -/
def libIds (H : Hash) (libs : List TypeLib) (lib : Name) : LibId :=
  ((libs.find? fun m => m.name = lib).map (TypeLib.id H)).getD (Id32.rep 0)

theorem build_step {H : Hash} {debug : Bool} {cs : List Crate} (hc : ¬ Collision H (crateTexts H cs))
    (hb : Buildable debug cs)
    {pre post : List Crate} {c : Crate} (e : cs = pre ++ c :: post) {libs : List TypeLib}
    (hpre : All2 (Offers H) pre libs)
    (hclash : ∀ l ∈ libs, ∀ m ∈ libs, ¬ Clash H LIB_ID_TAG (l.commit H) (m.commit H)) {fuel : Nat} (hf : 65535 ≤ fuel) :
    ∃ l, c.build H debug fuel libs = .ok l ∧ Built H libs c l := by
  have hcm : c ∈ cs := by rw [e]; simp
  have hpm : ∀ d ∈ pre, d ∈ cs := fun d hd => by rw [e]; simp [hd]
  -- names of the libraries
  have hnames : (libs.map TypeLib.name).Nodup := by
    have h1 : libs.map TypeLib.name = pre.map Crate.name :=
      (all2_eq (all2_map hpre fun a b h => h.name.symm)).symm
    have h2 := hb.names
    rw [e, List.map_append, List.nodup_append] at h2
    rw [h1]
    exact h2.1
  have hlw : ∀ m ∈ libs, m.WF := fun m hm => by
    obtain ⟨d, -, h⟩ := all2_right hpre hm
    exact h.wf
  let V : View := ⟨H, c.name, libIds H libs⟩
  let known := libs.map fun l => ((l.toDependencyTypes H).1, some (l.toDependencyTypes H).2)
  have hknown : ∀ p, p ∈ known ↔ ∃ m ∈ libs, p = (⟨m.id H, m.name⟩, some (m.types.map fun p => p.2.semIdNamed H LibRef.commit p.1)) := by
    intro p
    simp only [known, List.mem_map, TypeLib.toDependencyTypes]
    constructor
    · rintro ⟨m, hm, rfl⟩; exact ⟨m, hm, rfl⟩
    · rintro ⟨m, hm, rfl⟩; exact ⟨m, hm, rfl⟩
  have hlibId : ∀ m ∈ libs, libIds H libs m.name = m.id H := by
    intro m hm
    unfold libIds
    cases e : libs.find? fun k => k.name = m.name with
    | none =>
      have := List.find?_eq_none.mp e m hm
      simp at this
    | some k =>
      have h1 := List.find?_some e
      simp only [decide_eq_true_eq] at h1
      rw [nodup_map_inj hnames (List.mem_of_find?_eq_some e) hm h1]
      rfl
  have hdep : ∀ p ∈ known, p.1.id = V.dep p.1.name := by
    intro p hp
    obtain ⟨m, hm, rfl⟩ := (hknown p).mp hp
    exact (hlibId m hm).symm
  have hun : Unambiguous V c.types := by
    intro t ht t' ht' s s' hs hs' h1 h2 h3 h4
    have := hb.one c hcm c hcm s s' ⟨t, ht, hs⟩ ⟨t', ht', hs'⟩ h3 (h1.trans h2.symm) h4
    subst this
    exact ⟨rfl, fun _ _ _ => Iff.rfl⟩
  have htags : ∀ t ∈ c.types, ∀ s, t.Contains s → s.DistinctTags := by
    intro t ht s hs
    have := (hb.limits c hcm s ⟨t, ht, hs⟩).1
    cases s <;> simp only [RTy.DistinctVariants, RTy.DistinctTags] at this ⊢
    · exact this.1
    · exact this.1
  have hok : ∀ t ∈ c.types, ∀ s, t.Contains s → s.NodeOk debug V.own fun lib => ∃ d ∈ known, d.1.name = lib := by
    intro t ht s hs
    refine ⟨fun hn => ?_, (hb.limits c hcm s ⟨t, ht, hs⟩).2.2⟩
    rcases hb.layered pre c post e s ⟨t, ht, hs⟩ hn with h | ⟨d, hd, -, h⟩
    · exact .inl h
    · obtain ⟨m, hm, ho⟩ := all2_left hpre hd
      exact .inr ⟨_, (hknown _).mpr ⟨m, hm, rfl⟩, ho.name.trans h.symm⟩
  have htext : ∀ W : View, W.H = H → W.own = c.name → ∀ x, ExternText W c.types x → crateTexts H cs x := by
    rintro W rfl hW x ⟨t, ht, s, n, hs, hl, hn, rfl⟩
    have hm : c.Mentions s := ⟨t, ht, hs⟩
    have := hm.text (H := W.H) hcm
    rwa [RTy.text, hn, ← RTy.commit_foreign (V := W) s
      (by rw [hW]; exact (hb.foreign e hm (by simp [hn]) (by rw [← hW]; exact hl)).1)] at this
  have hcV : ¬ Collision V.H (ExternText V c.types) := fun h => hc (h.mono (htext V rfl rfl))
  obtain ⟨b, htr⟩ := (C57_succeeds V debug known hdep c.types hun htags hok).resolve_right hcV
  obtain ⟨hT, hE⟩ := (C57_exact V debug known hdep c.types hun htags b htr).resolve_right hcV
  obtain ⟨hbn, hbk, hcomp⟩ := (C57_recorded H debug c.name known c.types htags b htr).resolve_right
    fun h => hc (h.mono (htext _ rfl rfl))
  have hkey := keyed_transpile htr
  -- the contents of the builder
  have hT' : ∀ n ty, (n, ty) ∈ b.types ↔ ∃ s, c.Owns s n ∧ s.ty V = ty := by
    intro n ty
    constructor
    · intro h
      obtain ⟨t, ht, s, hs, h1, h2, h3⟩ := (hT n ty).mp (hmGet_of_mem hkey.types h)
      exact ⟨s, ⟨⟨t, ht, hs⟩, h1, h2⟩, h3⟩
    · rintro ⟨s, ⟨⟨t, ht, hs⟩, h1, h2⟩, h3⟩
      exact hmGet_mem ((hT n ty).mpr ⟨t, ht, s, hs, h1, h2, h3⟩)
  have hE' : ∀ lib id n, (∃ m, (lib, m) ∈ b.externTypes ∧ (id, n) ∈ m) ↔
      lib ≠ c.name ∧ ∃ s, c.Mentions s ∧ s.lib = lib ∧ s.name = some n ∧ id = s.semId H := by
    intro lib id n
    have hx : (∃ m, (lib, m) ∈ b.externTypes ∧ (id, n) ∈ m) ↔ b.HasExtern lib n id := by
      constructor
      · rintro ⟨m, hm, hi⟩
        exact ⟨m, hmGet_of_mem hkey.externs hm, OMap.get_of_mem (hkey.sorted _ hm).1 hi⟩
      · rintro ⟨m, hm, hi⟩
        exact ⟨m, hmGet_mem hm, OMap.get_mem hi⟩
    rw [hx, hE]
    clear hx
    constructor
    · rintro ⟨hl, t, ht, ty, ⟨s, hs, h1, h2, rfl⟩, rfl⟩
      refine ⟨hl, s, ⟨t, ht, hs⟩, h1, h2, ?_⟩
      exact RTy.semIdNamed_foreign (V := V) h2 (hb.foreign e ⟨t, ht, hs⟩ (by simp [h2]) (by rw [h1]; exact hl)).1
    · rintro ⟨hl, s, ⟨t, ht, hs⟩, h1, h2, rfl⟩
      refine ⟨hl, t, ht, s.ty V, ⟨s, hs, h1, h2, rfl⟩, ?_⟩
      exact (RTy.semIdNamed_foreign (V := V) h2 (hb.foreign e ⟨t, ht, hs⟩ (by simp [h2]) (by rw [h1]; exact hl)).1).symm
  have hEne : ∀ p ∈ b.externTypes, ∃ d ∈ pre, d.name = p.1 := by
    intro p hp
    obtain ⟨-, hne⟩ := hkey.sorted p hp
    obtain ⟨lib, m⟩ := p
    obtain ⟨⟨id, n⟩, hq⟩ := List.exists_mem_of_ne_nil _ hne
    obtain ⟨hl, s, hs, h1, h2, -⟩ := (hE' lib id n).mp ⟨m, hp, hq⟩
    obtain ⟨-, d, hd, -, h⟩ := hb.foreign e hs (by simp [h2]) (by rw [h1]; exact hl)
    exact ⟨d, hd, by rw [← h, h1]⟩
  have hbw : b.toLibBuilder.WF := by
    refine ⟨hkey.types, ?_, hkey.externs, ?_⟩
    · rw [hbk]
      have : (known.map fun p => p.1.id) = libs.map (TypeLib.id H) := by
        simp [known, TypeLib.toDependencyTypes, Function.comp_def]
      rw [this, List.Nodup, List.pairwise_map]
      rw [List.Nodup, List.pairwise_map] at hnames
      refine hnames.imp_of_mem fun {x y} hx hy hne he => ?_
      have hxy := hclash x hx y hy
      have hx := hlw x hx
      have hy := hlw y hy
      rcases C06_lib_id_commits H x y ⟨hx.fewDeps, hx.fewTypes⟩ ⟨hy.fewDeps, hy.fewTypes⟩ he with h | h
      · exact hne h.1
      · exact hxy h
    · intro p hp
      obtain ⟨d, hd, h⟩ := hEne p hp
      rw [← h]
      exact hb.named d (hpm d hd)
  have hbne : b.types ≠ [] := by
    obtain ⟨s, n, hs⟩ := hb.some c hcm
    intro h
    have := (hT' n (s.ty V)).mpr ⟨s, hs, rfl⟩
    rw [h] at this
    cases this
  have hdd : b.toLibBuilder.DirectlyDefined := by
    intro p hp n hn
    obtain ⟨u, hu⟩ := hcomp.names p.1 p.2 (hmGet_of_mem hkey.types hp) n ⟨_, hn, .named n⟩
    exact ⟨u, hmGet_mem hu⟩
  have huniq : ∀ d ∈ b.knownLibs, ∀ e ∈ b.knownLibs, d.1.name = e.1.name → d = e := by
    rw [hbk]
    intro d hd e he h
    obtain ⟨m, hm, rfl⟩ := (hknown d).mp hd
    obtain ⟨k, hk, rfl⟩ := (hknown e).mp he
    have := nodup_map_inj hnames hm hk h
    subst this
    rfl
  have hfew : b.externTypes.length ≤ 255 := by
    have h1 : (b.externTypes.map Prod.fst).length ≤ (pre.map Crate.name).length :=
      nodup_length_le hkey.externs fun x hx => by
        obtain ⟨p, hp, rfl⟩ := List.mem_map.mp hx
        obtain ⟨d, hd, h⟩ := hEne p hp
        exact List.mem_map.mpr ⟨d, hd, h⟩
    have h2 := hb.few
    rw [e] at h2
    simp at h1 h2
    omega
  have hprov : ∀ lib m id name, (lib, m) ∈ b.externTypes → (id, name) ∈ m →
      ∃ d ∈ pre, d.name = lib ∧ ∃ s, d.Owns s name ∧ id = s.semId H := by
    intro lib m id name hm hi
    obtain ⟨hl, s, hs, h1, h2, h3⟩ := (hE' lib id name).mp ⟨m, hm, hi⟩
    obtain ⟨-, d, hd, h4, h5⟩ := hb.foreign e hs (by simp [h2]) (by rw [h1]; exact hl)
    exact ⟨d, hd, by rw [← h5, h1], s, ⟨h4, h5, h2⟩, h3⟩
  have hlen : ∀ p ∈ b.externTypes, p.2.length ≤ 65535 := by
    rintro ⟨lib, m⟩ hp
    obtain ⟨d, hd, hdn⟩ := hEne _ hp
    obtain ⟨ns, hns, hall⟩ := hb.count d (hpm d hd)
    have hs := (hkey.sorted _ hp).1
    have hown : ∀ q ∈ m, ∃ s, d.Owns s q.2 ∧ q.1 = s.semId H := by
      intro q hq
      obtain ⟨d', hd', hn', s, hs', hi⟩ := hprov lib m q.1 q.2 hp hq
      have : d' = d := nodup_map_inj hb.names (hpm d' hd') (hpm d hd) (hn'.trans hdn.symm)
      subst this
      exact ⟨s, hs', hi⟩
    have hnd : (m.map Prod.snd).Nodup := by
      rw [List.Nodup, List.pairwise_map]
      refine List.Pairwise.imp_of_mem (fun {x y} hx hy hlt he => ?_) hs
      obtain ⟨s, hs, h1⟩ := hown x hx
      obtain ⟨s', hs', h2⟩ := hown y hy
      have : s = s' := hb.one d (hpm d hd) d (hpm d hd) s s' hs.1 hs'.1 (by simp [hs.2.2])
        (hs.2.1.trans hs'.2.1.symm) (by rw [hs.2.2, hs'.2.2, he])
      subst this
      exact KeyOrd.ne_of_lt hlt (h1.trans h2.symm)
    have : (m.map Prod.snd).length ≤ ns.length := nodup_length_le hnd fun x hx => by
      obtain ⟨q, hq, rfl⟩ := List.mem_map.mp hx
      obtain ⟨s, hs, -⟩ := hown q hq
      exact hall s _ hs
    simp at this ⊢
    omega
  -- symbols
  obtain ⟨sl, hsl⟩ : ∃ s, b.compileSymbols = .ok s := by
    refine (C27_externs_exact b.toLibBuilder hbw hbne hdd huniq hfew hlen).1.mpr ⟨?_, ?_⟩
    · intro p hp
      obtain ⟨d, hd, h⟩ := hEne p hp
      obtain ⟨m, hm, ho⟩ := all2_left hpre hd
      rw [hbk]
      exact ⟨_, (hknown _).mpr ⟨m, hm, rfl⟩, ho.name.trans h⟩
    · intro lib m id name hm hi
      obtain ⟨d, hd, hn, s, hs, rfl⟩ := hprov lib m id name hm hi
      obtain ⟨k, hk, ho⟩ := all2_left hpre hd
      refine ⟨_, by rw [hbk]; exact (hknown _).mpr ⟨k, hk, rfl⟩, ho.name.trans hn, ?_⟩
      rintro ids ⟨⟩
      obtain ⟨t, ht, h⟩ := (ho.declares name _).mpr ⟨s, hs, rfl⟩
      exact List.mem_map.mpr ⟨_, ht, h⟩
  obtain ⟨-, -, -, hsn, hsk, hsd, hss, hst, hses, hse⟩ := C27_externs_checked b.toLibBuilder hbw sl hsl
  have hdeps : DepsSorted sl.dependencies := by
    rcases compileSymbols_cases b.toLibBuilder hbw hbne with ⟨n, h', -⟩ | ⟨-, lib', m, -, h', -⟩ |
      ⟨hdef, dep, prov, h1, ⟨lib', m, id', name', ids, hm, hn, hp, hid, h'⟩ | ⟨lib', m, -, -, h'⟩ |
        ⟨h2, ⟨h', -⟩ | ⟨h', h3⟩⟩⟩
    all_goals rw [hsl] at h'; cases h'
    exact foldl_depInsert_sorted List.Pairwise.nil
  have hsfe : sl.externTypes.length ≤ 255 := by
    have : (sl.externTypes.map Prod.fst).length ≤ (b.externTypes.map Prod.fst).length :=
      nodup_length_le (by
        rw [List.Nodup, List.pairwise_map]
        exact hses.imp fun h => KeyOrd.ne_of_lt h) fun x hx => by
        obtain ⟨p, hp, rfl⟩ := List.mem_map.mp hx
        exact List.mem_map_of_mem ((hse p).mp hp)
    simp at this
    omega
  have hfd : sl.dependencies.length ≤ 255 := by
    have : (sl.dependencies.map Dependency.name).length ≤ (b.externTypes.map Prod.fst).length :=
      nodup_length_le (by
        rw [List.Nodup, List.pairwise_map]
        refine List.Pairwise.imp_of_mem (fun {x y} hx hy hlt he => ?_) hdeps
        obtain ⟨⟨v, hv⟩, -⟩ := hsd x hx
        obtain ⟨⟨w, hw⟩, -⟩ := hsd y hy
        have := congrArg (fun p : Dependency × Option (List SemId) => p.1.id) (huniq _ hv _ hw he)
        exact KeyOrd.ne_of_lt hlt this) fun x hx => by
        obtain ⟨d, hd, rfl⟩ := List.mem_map.mp hx
        obtain ⟨-, m, hm⟩ := hsd d hd
        exact List.mem_map.mpr ⟨_, hm, rfl⟩
    simp at this
    omega
  have hst' : ∀ n ty, (n, ty) ∈ sl.types ↔ ∃ s, c.Owns s n ∧ s.ty V = ty := fun n ty =>
    (hst (n, ty)).trans (hT' n ty)
  have hsw : sl.WF := by
    refine ⟨hss, ?_, hdeps, hfd, hses, hsfe, ?_, ?_⟩
    · intro h
      obtain ⟨s, n, hs⟩ := hb.some c hcm
      have := (hst' n (s.ty V)).mpr ⟨s, hs, rfl⟩
      rw [h] at this
      cases this
    · intro p hp
      have hp := (hse p).mp hp
      exact ⟨(hkey.sorted p hp).1, hlen p hp⟩
    · rintro ⟨n, ty⟩ hp
      obtain ⟨s, hs, rfl⟩ := (hst' n ty).mp hp
      exact RTy.ty_deep s fun s' hs' => hb.limits c hcm s' (Buildable.mentions_part hs.1 hs')
  have hrec : sl.Recorded := by
    rintro ⟨n, ty⟩ hp sym hu
    have hp := (hst _).mp hp
    obtain ⟨-, ⟨m, h2, h3⟩, d, ids, h4, h5, h6⟩ := hcomp.uses n ty (hmGet_of_mem hkey.types hp) sym hu
    have hm := hmGet_mem h2
    have hne := hbw.noEmbedded _ hm
    obtain ⟨d', hd', hdn⟩ := hsk (sym.libName, m) ((hse _).mpr hm) hne
    have huq : ∀ x ∈ sl.dependencies, x.name = sym.libName → x = ⟨sym.libId, sym.libName⟩ := by
      intro x hx hxn
      obtain ⟨⟨v, hv⟩, -⟩ := hsd x hx
      have := congrArg Prod.fst (huniq _ hv _ h4 (hxn.trans h5.symm))
      simp only at this
      rw [this, ← h5, ← h6]
    refine ⟨by rw [← huq d' hd' hdn]; exact hd', hne, fun x hx hxn => by rw [huq x hx hxn], m, (hse _).mpr hm,
      OMap.get_mem h3⟩
  have hdef : sl.Defined := by
    rintro ⟨n, ty⟩ hp k hk
    obtain ⟨u, hu⟩ := hcomp.names n ty (hmGet_of_mem hkey.types ((hst _).mp hp)) k hk
    exact ⟨u, (hst _).mpr (hmGet_mem hu)⟩
  have hac : sl.Acyclic := by
    classical
    refine ⟨fun n => if h : ∃ s, c.Owns s n then sizeOf (Classical.choose h) else 0, ?_⟩
    have hval : ∀ s n, c.Owns s n →
        (if h : ∃ s, c.Owns s n then sizeOf (Classical.choose h) else 0) = sizeOf s := by
      intro s n hs
      have hex : ∃ s, c.Owns s n := ⟨s, hs⟩
      have h1 := Classical.choose_spec hex
      rw [dif_pos hex, hb.one c hcm c hcm _ s h1.1 hs.1 (by simp [h1.2.2]) (h1.2.1.trans hs.2.1.symm)
        (by rw [h1.2.2, hs.2.2])]
    rintro ⟨n, ty⟩ hp k hk
    obtain ⟨s, hs, rfl⟩ := (hst' n ty).mp hp
    obtain ⟨p, hp, s', hs', h1, h2⟩ := RTy.ty_mentions s k hk
    show (if h : _ then _ else _) < (if h : _ then _ else _)
    rw [hval s n hs, hval s' k ⟨Buildable.mentions_part hs.1 (.step hp hs'), h1, h2⟩]
    exact Nat.lt_of_le_of_lt hs'.le (RTy.parts_lt hp)
  have hsh : sl.Shallow := by
    rintro ⟨n, ty⟩ hp
    obtain ⟨s, hs, rfl⟩ := (hst' n ty).mp hp
    exact (RTy.depth_iff s 3).mpr (hb.shallow c hcm s n hs)
  have hcount : sl.types.length ≤ 65535 := by
    obtain ⟨ns, hns, hall⟩ := hb.count c hcm
    have : (sl.types.map Prod.fst).length ≤ ns.length :=
      nodup_length_le (by
        rw [List.Nodup, List.pairwise_map]
        exact hss.imp fun h => KeyOrd.ne_of_lt h) fun x hx => by
        obtain ⟨⟨n, ty⟩, hp, rfl⟩ := List.mem_map.mp hx
        obtain ⟨s, hs, -⟩ := (hst' n ty).mp hp
        exact hall s n hs
    simp at this
    omega
  obtain ⟨l, hl⟩ := C22_terminates H debug sl hsw hdef hac hsh hsk hcount fuel (Nat.le_trans hcount hf)
  have hct := compile_ok_compilesTo hsw hl
  obtain ⟨hln, hle, hlt, hlk, hlc⟩ := C21_names_resolved H debug fuel sl hsw l hl
  have hids' : ∀ s n, c.Owns s n → ∃ u, l.types.get n = some u ∧ n.commit ++ u.commit LibRef.commit = s.text H ∧
      u.mapRefs (LibRef.semId H) = (s.sem H).mapRefs (TranspileRef.id H) ∧
      ∀ p, p ∈ u.inlineDefs H ↔ ∃ r ∈ (s.sem H).refs, ∃ t, r.Nests t ∧ p = unnamedDef H t := by
    intro s n hs
    refine compiled_id (V := V) (U := c.Mentions) (l := l) ?_ ?_ ?_ hs.1 hs.2.1 hs.2.2
    · intro s n hs h1 h2
      obtain ⟨u, hu, h⟩ := hlc n _ ((hst' n _).mpr ⟨s, ⟨hs, h1, h2⟩, rfl⟩)
      exact ⟨u, OMap.get_of_mem hlt hu, h⟩
    · exact fun t ht p hp => Buildable.mentions_part ht (.step hp (.refl p))
    · exact fun s hs hn hl => (hb.foreign e hs hn hl).1
  have hids : ∀ s n, c.Owns s n → ∃ u, l.types.get n = some u ∧ u.semIdNamed H LibRef.commit n = s.semId H ∧
      u.mapRefs (LibRef.semId H) = (s.sem H).mapRefs (TranspileRef.id H) ∧
      ∀ p, p ∈ u.inlineDefs H ↔ ∃ r ∈ (s.sem H).refs, ∃ t, r.Nests t ∧ p = unnamedDef H t := by
    intro s n hs
    obtain ⟨u, hu, h1, h2⟩ := hids' s n hs
    exact ⟨u, hu, by rw [Ty.semIdNamed_eq, h1, RTy.semId_text], h2⟩
  have htexts : ∀ x ∈ l.namedTexts, ∃ s n, c.Owns s n ∧ x = s.text H := by
    intro x hx
    obtain ⟨⟨n, u⟩, hu, rfl⟩ := List.mem_map.mp hx
    have hk : n ∈ sl.types.keys := by rw [← hlk]; exact List.mem_map_of_mem (f := Prod.fst) hu
    obtain ⟨⟨n', ty⟩, hq, rfl⟩ := List.mem_map.mp hk
    obtain ⟨s, hs, -⟩ := (hst' _ ty).mp hq
    obtain ⟨u', hu', h1, -⟩ := hids' s _ hs
    rw [OMap.get_of_mem hlt hu] at hu'
    cases hu'
    exact ⟨s, n', hs, h1⟩
  have hgood := compiled_good hsw hrec (fun h => hc (h.mono fun x hx => by
    obtain ⟨s, n, hs, rfl⟩ := htexts x hx
    exact hs.1.text hcm)) hl
  refine ⟨l, ?_, ⟨hgood.wf, ?_, ?_⟩, hgood, ?_, ?_, htexts, ?_, ?_⟩
  · unfold Crate.build
    have htr' : Transpiler.transpile H debug c.types (.new c.name known) = .ok b := htr
    simp only [known] at htr'
    simp only
    rw [htr']
    show Out.bind b.compileSymbols _ = _
    rw [hsl]
    exact hl
  · rw [hln, hsn, hbn]
  · intro n id
    constructor
    · rintro ⟨t, ht, rfl⟩
      have hk : n ∈ sl.types.keys := by rw [← hlk]; exact List.mem_map_of_mem (f := Prod.fst) ht
      obtain ⟨⟨n', ty⟩, hp, rfl⟩ := List.mem_map.mp hk
      obtain ⟨s, hs, -⟩ := (hst' _ ty).mp hp
      obtain ⟨u, hu, h1, -⟩ := hids s _ hs
      rw [OMap.get_of_mem hlt ht] at hu
      cases hu
      exact ⟨s, hs, h1⟩
    · rintro ⟨s, hs, rfl⟩
      obtain ⟨u, hu, h1, -⟩ := hids s n hs
      exact ⟨u, OMap.get_mem hu, h1⟩
  · intro s n hs
    obtain ⟨u, hu, h1, h2, -⟩ := hids s n hs
    exact ⟨u, OMap.get_mem hu, h1, h2⟩
  · intro p
    have hdef : p ∈ l.defs H ↔ ∃ n u, (n, u) ∈ l.types ∧ (p ∈ u.inlineDefs H ∨
        p = (u.semIdNamed H LibRef.commit n, ⟨some ⟨l.name, n⟩, u.mapRefs (LibRef.semId H)⟩)) := by
      simp only [TypeLib.defs, List.mem_flatMap, List.mem_append, List.mem_singleton, Prod.exists]
    rw [hdef]
    have hln' : l.name = c.name := by rw [hln, hsn, hbn]
    constructor
    · rintro ⟨n, u, hu, hp⟩
      have hk : n ∈ sl.types.keys := by rw [← hlk]; exact List.mem_map_of_mem (f := Prod.fst) hu
      obtain ⟨⟨n', ty⟩, hq, rfl⟩ := List.mem_map.mp hk
      obtain ⟨s, hs, -⟩ := (hst' _ ty).mp hq
      obtain ⟨u', hu', h1, h2, h3⟩ := hids s _ hs
      rw [OMap.get_of_mem hlt hu] at hu'
      cases hu'
      refine ⟨s, n', hs, ?_⟩
      rw [h3, h1, h2, hln'] at hp
      exact hp
    · rintro ⟨s, n, hs, hp⟩
      obtain ⟨u, hu, h1, h2, h3⟩ := hids s n hs
      refine ⟨n, u, OMap.get_mem hu, ?_⟩
      rw [h3, h1, h2, hln']
      exact hp
  · intro d hd
    obtain ⟨⟨v, hv⟩, -⟩ := hsd d ((hct.used d).mp hd).1
    rw [hbk] at hv
    obtain ⟨m, hm, h⟩ := (hknown _).mp hv
    exact ⟨m, hm, congrArg Prod.fst h⟩
  · intro lib id n
    rw [← hE', hle]
    constructor
    · rintro ⟨m, hm, h⟩; exact ⟨m, (hse _).mp hm, h⟩
    · rintro ⟨m, hm, h⟩; exact ⟨m, (hse _).mpr hm, h⟩

/-! ### All libraries -/

/-- The libraries of the crates, each built after the ones before it. -/
def AllBuilt (H : Hash) : List Crate → List TypeLib → List TypeLib → Prop
  | [], _, [] => True
  | c :: cs, libs, l :: ls => Built H libs c l ∧ AllBuilt H cs (libs ++ [l]) ls
  | _, _, _ => False

theorem buildAll_append {H : Hash} {debug : Bool} {fuel : Nat} {c : Crate} {libs' : List TypeLib} {l : TypeLib}
    (hl : c.build H debug fuel libs' = .ok l) : ∀ (pre : List Crate) (libs : List TypeLib),
    buildAll H debug fuel pre libs = .ok libs' → buildAll H debug fuel (pre ++ [c]) libs = .ok (libs' ++ [l])
  | [], libs, h => by
    rw [buildAll] at h
    cases h
    simp [buildAll, hl]
  | d :: pre, libs, h => by
    rw [buildAll] at h
    rw [List.cons_append, buildAll]
    cases hd : d.build H debug fuel libs with
    | ok k => rw [hd] at h; exact buildAll_append hl pre _ h
    | _ => rw [hd] at h; cases h

theorem buildAll_steps {H : Hash} {debug : Bool} {cs : List Crate} {fuel : Nat}
    (hc : ¬ CrateCollision H debug fuel cs) (hb : Buildable debug cs)
    (hf : 65535 ≤ fuel) : ∀ (post pre : List Crate) (libs : List TypeLib), cs = pre ++ post →
    buildAll H debug fuel pre [] = .ok libs → All2 (Offers H) pre libs →
    ∃ ls, buildAll H debug fuel post libs = .ok (libs ++ ls) ∧ AllBuilt H post libs ls
  | [], pre, libs, _, _, _ => ⟨[], by simp [buildAll], trivial⟩
  | c :: post, pre, libs, e, h0, h => by
    obtain ⟨l, h1, h2⟩ := build_step (fun h => hc (.inl h)) hb e h
      (fun l hl m hm hcl => hc (.inr ⟨pre, _, libs, e, h0, l, hl, m, hm, hcl⟩)) hf
    obtain ⟨ls, h3, h4⟩ := buildAll_steps hc hb hf post (pre ++ [c]) (libs ++ [l]) (by simp [e])
      (buildAll_append h1 pre [] h0)
      (all2_append h ⟨h2.toOffers, trivial⟩)
    refine ⟨l :: ls, ?_, h2, h4⟩
    rw [buildAll, h1, Out.bind_ok, h3]
    simp

end Verif
