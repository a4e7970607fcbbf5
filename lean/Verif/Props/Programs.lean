import Verif.Props.Draw
import Verif.Props.Export
import Verif.Props.Util
import Verif.Lemmas.Lengths

/-!
# The programs
-/

namespace Verif
open Stl

/-- The crates of the program `strict-vesper`. -/
def vesperCrates : List Crate := [stdCrate, typeLibCrate]

theorem vesperCrates_nodes : ∀ c ∈ vesperCrates, ∀ t ∈ c.types, t ∈ nodes := by
  intro c hc t ht
  simp only [vesperCrates, List.mem_cons, List.not_mem_nil, or_false] at hc
  rcases hc with rfl | rfl
  · exact crates_nodes stdCrate (by simp [crates]) t ht
  · simp only [typeLibCrate, List.mem_cons, List.not_mem_nil, or_false] at ht
    subst ht
    exact crates_nodes strictTypesCrate (by simp [crates]) _ (by simp [strictTypesCrate])

theorem vesperCrates_buildable (debug : Bool) : Buildable debug vesperCrates := by
  refine buildable_of nodes_closed vesperCrates_nodes debug (by decide +kernel) (by decide +kernel) (by decide) (by decide +kernel)
    (by decide +kernel) (fun c hc q hq => ⟨nodes_variants q hq, ?_⟩) nodes_shallow nodes_keys ?_
  · have : ∀ c ∈ vesperCrates, ∀ q ∈ nodes, q.NodeOk true c.name fun lib => ∃ d ∈ vesperCrates, d.name = lib := by
      decide +kernel
    exact this c hc q hq
  intro pre c post e s hs hn
  match pre, e with
  | [], e =>
    cases e
    obtain ⟨t, ht, hts⟩ := hs
    obtain rfl := std_contains ht hts
    exact .inl (nodes_libs.1 _ ht)
  | [d], e =>
    cases e
    have hmem := nodes_closed.mentions (vesperCrates_nodes typeLibCrate (by simp [vesperCrates])) hs
    rw [← List.take_append_drop stdTypes.length nodes, List.mem_append] at hmem
    rcases hmem with h | h
    · have h : s ∈ stdTypes := by
        simpa only [nodes, List.append_assoc, List.take_left'] using h
      exact .inr ⟨stdCrate, by simp, ⟨s, h, .refl _⟩, nodes_libs.1 s h⟩
    · refine .inl (nodes_libs.2 s h ?_)
      cases h : s.name with
      | none => exact absurd h hn
      | some => rfl
  | d :: d' :: pre, e => simp [vesperCrates] at e

/-- Two crates built one after the other. -/
theorem buildAll_two {H : Hash} {debug : Bool} {fuel : Nat} {c d : Crate} {ls : List TypeLib}
    (h : buildAll H debug fuel [c, d] [] = .ok ls) :
    ∃ l m, c.build H debug fuel [] = .ok l ∧ d.build H debug fuel [l] = .ok m ∧ ls = [l, m] := by
  simp only [buildAll, Out.bind_eq_ok, List.nil_append, List.cons_append, Out.ok.injEq] at h
  obtain ⟨l, h1, m, h2, h3⟩ := h
  exact ⟨l, m, h1, h2, h3.symm⟩

theorem parseArgs_asks (armor : Bool) (args : List Bytes) (f : StlFormat) (dir : Option Bytes) :
    parseArgs armor args = .ok (f, dir) ↔ Asks armor args f dir := by
  rw [C50_arguments]
  constructor
  · rintro (⟨prog, rfl, rfl, rfl⟩ | ⟨prog, x, s, n, rfl, rfl, h, rfl⟩ | ⟨prog, x, s, n, d, rfl, rfl, h, rfl⟩)
    · exact .none prog
    · exact .format prog s n f h
    · exact .dir prog s d n f h
  · rintro (prog | ⟨prog, s, n, f, h⟩ | ⟨prog, s, d, n, f, h⟩)
    · exact .inl ⟨prog, rfl, rfl, rfl⟩
    · exact .inr (.inl ⟨prog, _, s, n, rfl, rfl, h, rfl⟩)
    · exact .inr (.inr ⟨prog, _, s, n, d, rfl, rfl, h, rfl⟩)

theorem parseArgs_total (armor : Bool) (args : List Bytes) :
    parseArgs armor args = .panic ∨ ∃ f dir, parseArgs armor args = .ok (f, dir) := by
  unfold parseArgs formatArg dirArg
  split
  · simp only [Out.bind_ok, Out.pure_eq]
    split
    · exact .inr ⟨_, _, rfl⟩
    · split
      · exact .inr ⟨_, _, rfl⟩
      · exact .inl rfl
  · exact .inl rfl

/-- Texts of the types of `Std` and `StrictTypes` are short. -/
theorem nodes_width : ∀ q ∈ nodes, width q.outlined ≤ 1000 := by decide +kernel

theorem nodes_length : nodes.length ≤ 200 := by decide +kernel

theorem sorted_nodup_keys {V : Type} {m : OMap K V} [KeyOrd K] [LawfulKeyOrd K] (h : m.Sorted) : (OMap.keys m).Nodup := by
  unfold OMap.keys List.Nodup
  rw [List.pairwise_map]
  exact h.imp fun {a b} hab e => by rw [e, LawfulKeyOrd.irrefl] at hab; cases hab

/-- Libraries made of these types are short and have room for more. -/
theorem Built.short {H : Hash} {libs : List TypeLib} {c : Crate} {l : TypeLib} (h : Built H libs c l)
    (hn : ∀ t ∈ c.types, t ∈ nodes) : l.encode.length < 2 ^ 24 ∧ l.Roomy := by
  have hmem : ∀ {s}, c.Mentions s → s ∈ nodes := fun hs => nodes_closed.mentions hn hs
  have hx : ∀ p ∈ l.externTypes, p.2.length ≤ 200 := by
    intro p hp
    have h1 : (OMap.keys p.2).Nodup := sorted_nodup_keys (h.wf.externs p hp).1
    have h2 := nodup_length_le h1 (m := nodes.map (RTy.semId H)) fun id hid => by
      obtain ⟨e, he, rfl⟩ := List.mem_map.mp hid
      obtain ⟨-, s, hs, -, -, h3⟩ := (h.externs p.1 e.1 e.2).mp ⟨p.2, hp, he⟩
      rw [h3]
      exact List.mem_map_of_mem (hmem hs)
    have h3 := nodes_length
    simp only [OMap.keys, List.length_map] at h2
    omega
  have ht : ∀ p ∈ l.types, (p.1.commit ++ p.2.commit LibRef.commit).length ≤ 1000 := by
    intro p hp
    obtain ⟨s, n, hs, e⟩ := h.texts _ (List.mem_map_of_mem (f := fun p => p.1.commit ++ p.2.commit LibRef.commit) hp)
    rw [e, (s.outlined_fills (H := H) (D := fun _ => True) fun _ _ => trivial).length]
    exact nodes_width s (hmem hs.1)
  have htn : l.types.length ≤ 200 := by
    have h1 : (OMap.keys l.types).Nodup := sorted_nodup_keys h.wf.typesSorted
    have h2 := nodup_length_le h1 (m := nodes.filterMap RTy.name) fun n hm => by
      obtain ⟨p, hp, rfl⟩ := List.mem_map.mp hm
      obtain ⟨s, hs, -⟩ := (h.declares p.1 _).mp ⟨p.2, hp, rfl⟩
      exact List.mem_filterMap.mpr ⟨s, hmem hs.1, hs.2.2⟩
    have h3 := nodes_length
    have h4 := List.length_filterMap_le RTy.name nodes
    simp only [OMap.keys, List.length_map] at h2
    omega
  refine ⟨?_, fun p hp => by have := hx p hp; omega⟩
  have := library_length ht htn h.wf.fewDeps h.wf.fewExterns hx
  omega

/-! ## C94 -/

/-- Lines of a file. -/
def fileLines (ls : List Bytes) : Bytes := ls.flatMap fun l => l ++ [10]

/-- What a program which exports the library of the crate does: the arguments have to ask for something, otherwise it
panics; it writes to the place asked for, in the format asked for, a library with the named types of the crate under their
ids; the binary form is read back as the library, the source form begins with a comment on the library and shows a
symbolic library which compiles to it. -/
structure ExportsLibrary (G : Glyphs) (H : Hash) (armored : TypeLib → Bytes) (armor : Bool) (about : List Bytes) (c : Crate)
    (l : TypeLib) (run : List Bytes → Out Unit Exported) : Prop where
  name : l.name = c.name
  types : ∀ n id, l.Declares H n id ↔ ∃ s, c.Owns s n ∧ id = s.semId H
  refuses : ∀ args, (∀ f dir, ¬ Asks armor args f dir) → run args = .panic
  place : ∀ args f dir, Asks armor args f dir → ∃ w, run args = .ok w ∧
    match dir with
    | none => w.path = none
    | some d => ∃ sep, (sep = [] ∨ sep = b!"/") ∧ w.path = some (d ++ sep ++ c.name.bytes ++ b!"@0.1.0." ++ f.display)
  binary : ∀ args dir, Asks armor args .binary dir → ∃ w, run args = .ok w ∧ fromSerialized decTypeLib w.content = .ok l
  armored : ∀ args dir, Asks armor args .armored dir → ∃ w, run args = .ok w ∧ w.content = armored l ++ [10]
  source : ∀ args dir, Asks armor args .source dir → ∃ w, ∃ s : SymbolicLib, run args = .ok w ∧
    w.content = fileLines ([b!"{-", b!"  Id: " ++ G.id (l.id H), b!"  Name: " ++ c.name.bytes, b!"  Version: 0.1.0"] ++
      about.map (b!"  " ++ ·) ++ [b!"-}", [], s.text G H]) ∧
    ∀ debug fuel, 65535 ≤ fuel → s.compile H debug fuel = .ok l

theorem about_lines (about : List Bytes) : [10] ++ fileLines (about.map (b!"  " ++ ·)) =
    (about.flatMap fun x => [10] ++ (b!"  " ++ x)) ++ [10] := by
  induction about with
  | nil => rfl
  | cons x xs ih =>
    simp only [fileLines, List.map_cons, List.flatMap_cons, List.append_assoc] at ih ⊢
    rw [ih]

theorem Built.exports {G : Glyphs} {H : Hash} {armored : TypeLib → Bytes} {armor : Bool} {libs : List TypeLib} {c : Crate}
    {l : TypeLib} (h : Built H libs c l) (hn : ∀ t ∈ c.types, t ∈ nodes) {header : Bytes} {about : List Bytes}
    (habout : header = about.flatMap fun x => [10] ++ (b!"  " ++ x)) {run : List Bytes → Out Unit Exported}
    (hrun : ∀ args, run args = (parseArgs armor args).bind fun p =>
      (l.export G H armored p.1 p.2 b!"0.1.0" (some header)).unwrap) :
    ExportsLibrary G H armored armor about c l run := by
  obtain ⟨hs, hr⟩ := h.short hn
  have hask : ∀ {args f dir}, Asks armor args f dir →
      run args = (l.export G H armored f dir b!"0.1.0" (some header)).unwrap := by
    intro args f dir ha
    rw [hrun, (parseArgs_asks armor args f dir).mpr ha]
    rfl
  obtain ⟨s, hsym, hcomp⟩ := C24_roundtrip_partial H l h.wf h.good.defined h.good.acyclic h.good.recorded h.good.exact hr
  have hsource : ∀ dir, l.export G H armored .source dir b!"0.1.0" (some header) =
      .ok ⟨exportPath dir l.name b!"0.1.0" StlFormat.source.display, l.source G H s b!"0.1.0" header⟩ := by
    intro dir
    unfold TypeLib.export
    simp only [hsym]
    rfl
  have hbin := fun dir => (C88_binary_partial G H armored dir l h.wf b!"0.1.0" (some header)).1 hs
  refine ⟨h.name, h.declares, ?_, ?_, ?_, ?_, ?_⟩
  · intro args ha
    rcases parseArgs_total armor args with e | ⟨f, dir, e⟩
    · rw [hrun, e]; rfl
    · exact absurd ((parseArgs_asks armor args f dir).mp e) (ha f dir)
  · intro args f dir ha
    have hok : ∃ w, l.export G H armored f dir b!"0.1.0" (some header) = .ok w := by
      cases f with
      | source => exact ⟨_, hsource dir⟩
      | binary => obtain ⟨w, hw, -⟩ := hbin dir; exact ⟨w, hw⟩
      | armored => exact ⟨_, rfl⟩
    obtain ⟨w, hw⟩ := hok
    refine ⟨w, by rw [hask ha, hw]; rfl, ?_⟩
    have := C88_place G H armored dir l f b!"0.1.0" (some header) w hw
    cases dir with
    | none => exact this
    | some d =>
      obtain ⟨sep, h1, h2⟩ := this
      refine ⟨sep, h1, ?_⟩
      rw [h2, h.name]
      simp [List.append_assoc]
  · intro args dir ha
    obtain ⟨w, hw, h1⟩ := hbin dir
    exact ⟨w, by rw [hask ha, hw]; rfl, h1⟩
  · intro args dir ha
    exact ⟨_, hask ha, rfl⟩
  · intro args dir ha
    refine ⟨_, s, by rw [hask ha, hsource]; rfl, ?_, fun debug fuel hf => hcomp debug fuel ?_⟩
    · show l.source G H s b!"0.1.0" header = _
      unfold TypeLib.source
      rw [habout, h.name]
      have hl := about_lines about
      simp only [fileLines, List.flatMap_append, List.flatMap_cons, List.flatMap_nil, List.append_nil, List.append_assoc] at hl ⊢
      rw [← List.append_assoc _ [10] (b!"-}" ++ _), ← hl]
      simp only [List.cons_append, List.nil_append]
    have := h.wf.fewTypes
    omega

/-- What the source file of `Std` says about it. -/
def stdAbout : List Bytes := [b!"Description: Strict types standard library",
  b!"Author: Dr Maxim Orlovsky <orlovsky@ubideco.org>",
  b!"Copyright (C) 2023-2024 UBIDECO Institute. All rights reserved.", b!"License: Apache-2.0"]

/-- What the source file of `StrictTypes` says about it. -/
def strictAbout : List Bytes := [b!"Description: Confined generalized algebraic data types (GADT)",
  b!"Author: Dr Maxim Orlovsky <orlovsky@ubideco.org>",
  b!"Copyright (C) 2023-2024 UBIDECO Institute. All rights reserved.", b!"License: Apache-2.0"]

/-- How the file with the layout begins. -/
def vesperAbout : List Bytes := [b!"{-", b!"  Description: Data type layout in Vesper language",
  b!"  Author: Dr Maxim Orlovsky <orlovsky@ubideco.org>",
  b!"  Copyright (C) 2024 UBIDECO Institute. All rights reserved.", b!"  License: Apache-2.0", b!"-}", [],
  b!"StrictTypes vesper lexicon=types", []]

/-- **C94**: the programs `std-stl` and `strict-stl` export the libraries `Std` and `StrictTypes`, whose types are the
named types of the crates (or there is a hash collision among the texts of these types). -/
theorem C94_libraries (G : Glyphs) (H : Hash) (armored : TypeLib → Bytes) (armor debug : Bool) (fuel : Nat) (hf : 65535 ≤ fuel) :
    (∃ std l, ExportsLibrary G H armored armor stdAbout stdCrate std (stdProgram G H armored armor debug fuel) ∧
      ExportsLibrary G H armored armor strictAbout strictTypesCrate l (strictProgram G H armored armor debug fuel)) ∨
    CrateCollision H debug fuel crates := by
  by_cases hc : CrateCollision H debug fuel crates
  · exact .inr hc
  left
  rcases C66_crates_build H debug crates (buildable debug) fuel hf with ⟨ls, h, -⟩ | h
  · have hb := buildAll_built hc (buildable debug) hf h
    obtain ⟨std, l, h1, h2, rfl⟩ := buildAll_two h
    refine ⟨std, l, hb.1.exports (header := STD_HEADER) (crates_nodes _ (by simp [crates])) (by decide +kernel) fun args => ?_,
      hb.2.1.exports (header := STRICT_HEADER) (crates_nodes _ (by simp [crates])) (by decide +kernel) fun args => ?_⟩
    · unfold stdProgram stdStl
      rw [h1]; rfl
    · unfold strictProgram strictTypesStl stdStl
      rw [h1]
      simp only [Out.unwrap, Out.bind_ok, h2]
      rfl
  · exact absurd h hc

theorem vesper_header : VESPER_HEADER = fileLines vesperAbout := by decide +kernel

/-- **C94**: the program `strict-vesper` does not panic, and the file it writes shows the tree of the Rust type `TypeLib`:
one line for each node, below its parent, in order (or there is a hash collision among the texts of the types of the
crates, or two of their ids overlap in thirty bytes). -/
theorem C94_vesper (G : Glyphs) (H : Hash) (debug : Bool) (maxAttrs maxContent : Nat) (hA : 155 ≤ maxAttrs)
    (hm : 255 ≤ maxContent) (fuel : Nat) (hf : 65535 ≤ fuel) :
    (∃ enough, ∀ layoutFuel, enough ≤ layoutFuel → ∃ head : TypeInfo → VHead,
      (∀ i ∈ (typeLib.draw H 0 none []).items, i.toVesper H maxAttrs = .ok (head i)) ∧
      vesperProgram G H debug maxAttrs maxContent fuel layoutFuel =
        .ok ⟨some b!"stl/TypeLib.vesper", fileLines vesperAbout ++ VExpr.text G 0 ((typeLib.draw H 0 none []).mirror head)⟩) ∨
    CrateCollision H debug fuel vesperCrates ∨ Overlap H (crateTexts H vesperCrates) := by
  by_cases hc : CrateCollision H debug fuel vesperCrates
  · exact .inr (.inl hc)
  by_cases ho : Overlap H (crateTexts H vesperCrates)
  · exact .inr (.inr ho)
  left
  obtain ⟨ls, h, hsys⟩ := Stl.layouts vesperCrates_nodes (vesperCrates_buildable debug) hc ho hf hA hm
  obtain ⟨std, l, h1, h2, rfl⟩ := buildAll_two h
  obtain ⟨S, hs, hd⟩ := hsys [l, std] (List.Perm.swap l std [])
  obtain ⟨hr, ⟨t, ht⟩, ⟨enough, he⟩, hv⟩ := hd typeLibCrate (by simp [vesperCrates]) typeLib n!"TypeLib"
    ⟨⟨typeLib, by simp [typeLibCrate], .refl _⟩, rfl, rfl⟩
  obtain ⟨head, hh, hv⟩ := hv (by decide +kernel)
  refine ⟨enough, fun layoutFuel hlf => ⟨head, hh, ?_⟩⟩
  have hspec : TypeSpec.ofText b!"StrictTypes.TypeLib" = .ok (.fqn ⟨n!"StrictTypes", n!"TypeLib"⟩) := by decide +kernel
  have hroot : S.typeTree (.fqn ⟨n!"StrictTypes", n!"TypeLib"⟩) = some (typeLib.semId H) := by
    have hr : S.resolve ⟨n!"StrictTypes", n!"TypeLib"⟩ = some (typeLib.semId H) := hr
    simp [SymbolicSys.typeTree, SymbolicSys.toSemId, hr, ht]
  simp only [vesperProgram, stdStl, h1, h2, hs, Out.unwrap, Out.bind_ok, hspec, hroot, Out.expect, he layoutFuel hlf, hv,
    Out.pure_eq, vesper_header]

/-! ### Cases which meet the hypotheses -/

example : Asks true [b!"std-stl"] .source none := .none _
example : Asks true [b!"std-stl", b!"--stl"] .binary (some b!"stl") := .format b!"std-stl" b!"stl" 1 .binary rfl
example : Asks true [b!"std-stl", b!"--sta", b!"/tmp"] .armored (some b!"/tmp") :=
  .dir b!"std-stl" b!"sta" b!"/tmp" 1 .armored ⟨rfl, rfl⟩
example : ∀ f dir, ¬ Asks false [b!"std-stl", b!"--sta"] f dir := by
  intro f dir h
  rw [← parseArgs_asks] at h
  have : parseArgs false [b!"std-stl", b!"--sta"] = .panic := by decide
  rw [this] at h
  cases h

/-- The place written by `std-stl`, with hashes which are all the same. -/
example : (match stdProgram ⟨fun _ => [], fun _ => [], fun _ => [], fun _ => []⟩ (fun _ => Id32.rep 0) (fun _ => []) true true 65535
    [b!"std-stl", b!"--stl"] with
    | .ok w => w.path
    | _ => none) = some b!"stl/Std@0.1.0.stl" := by decide +kernel

end Verif
