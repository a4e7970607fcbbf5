import Verif.Lemmas.TyCodecLib
import Verif.Lemmas.TyCodecRd
import Verif.Lemmas.TyListed
import Verif.Props.System
import Verif.Props.Compile

/-!
# Properties C09-C12, C59, C60: the binary form of types, libraries and systems
-/

namespace Verif

/-! ## C09 -/

/-- **C09**: any well-formed type, over semantic ids or over library references with inline types
inside, is read back from its encoding, and nothing of what follows is consumed. -/
theorem C09_type_roundtrip :
    (∀ t : Ty SemId, t.WF → ReadsBack (Ty.encode encId) (decTy decId) t) ∧
    (∀ t : Ty LibRef, t.LibDeep → ReadsBack (Ty.encode LibRef.encode) (decTy decLibRef) t) :=
  ⟨fun _ h => semTy_append h, fun _ h => libTy_append h⟩

/-- **C09** for types of symbolic libraries; the nesting the reader has to follow is bounded by the
length of the encoding. -/
theorem C09_symbolic_roundtrip {t : Ty TranspileRef} (h : t.Deep) {fuel : Nat}
    (hf : (TranspileRef.encodeTy t).length ≤ fuel) :
    ReadsBack TranspileRef.encodeTy (decTy (decTranspileRef fuel)) t :=
  symTy_append h hf

/-- A union, with an inline tuple of an inline enum and an external type. -/
def exDeepTy : Ty LibRef :=
  .union [(⟨n!"none", 0⟩, .named (Id32.rep 1)),
    (⟨n!"some", 3⟩, .inline (.tuple [.inline (.enum [⟨n!"b", 1⟩, ⟨n!"a", 2⟩]),
      .extern ⟨Id32.rep 9, Id32.rep 2⟩]))]

theorem exDeepTy_deep : exDeepTy.LibDeep := by
  refine ⟨?_, ?_⟩
  · simp [exDeepTy, Ty.WF, VariantsWF]
  · intro r hr
    simp only [exDeepTy, Ty.refs, List.map_cons, List.map_nil, List.mem_cons, List.not_mem_nil,
      or_false] at hr
    rcases hr with rfl | rfl
    · trivial
    · refine ⟨by simp [Ty.WF], ?_⟩
      intro r hr
      simp only [Ty.refs, List.mem_cons, List.not_mem_nil, or_false] at hr
      rcases hr with rfl | rfl
      · simp [InlineRef.Deep, Ty.WF, VariantsWF, Ty.refs]
      · trivial

/-! ## C10 -/

/-- Enum variants `b:3, c:6, a:7` and then `a:5`. -/
def exOddEnum : Bytes := [3, 4, 1, 98, 3, 1, 99, 6, 1, 97, 7, 1, 97, 5]

/-- **C10 is violated** for enums: variants count as equal if the name *or* the tag agree, so the
check for increasing order lets through `a:5` after `a:7`, and the insertion puts it in the middle.
Re-encoding gives other bytes, and these are rejected. -/
theorem C10_enum_violated :
    ∃ t : Ty SemId, decTy decId exOddEnum = .ok (t, []) ∧ t.encode encId ≠ exOddEnum ∧
      decTy decId (t.encode encId) = .err .repeated :=
  ⟨.enum [⟨n!"b", 3⟩, ⟨n!"a", 5⟩, ⟨n!"c", 6⟩, ⟨n!"a", 7⟩], by decide +kernel, by decide +kernel,
    by decide +kernel⟩

/-- Union variants `a:1` and `a:2` with different types. -/
def exOddUnion : Bytes :=
  [4, 2, 1, 1, 97] ++ (Id32.rep 1).bytes ++ [2, 1, 97] ++ (Id32.rep 2).bytes

/-- **C10 is violated** for unions: only tags are checked for repetition, and a repeated name makes
the second type replace the first under the first tag. Another, shorter string decodes as the same
well-formed union. -/
theorem C10_union_violated :
    ∃ t : Ty SemId, t.WF ∧ decTy decId exOddUnion = .ok (t, []) ∧
      decTy decId (t.encode encId) = .ok (t, []) ∧ (t.encode encId).length < exOddUnion.length :=
  ⟨.union [(⟨n!"a", 1⟩, Id32.rep 2)], by simp [Ty.WF, VariantsWF], by decide +kernel,
    by decide +kernel, by decide +kernel⟩

/-- **C10, partial**: if a byte string decodes as a well-formed type, it is the encoding of the type,
or it is longer: the encoding is the only shortest string. Missing: longer strings (unions with
repeated names), and ill-formed results (enums with repeated names). -/
theorem C10_shortest_partial :
    NearCanonical (Ty.encode encId) (decTy decId) Ty.WF ∧
    NearCanonical (Ty.encode LibRef.encode) (decTy decLibRef) Ty.LibDeep ∧
    ∀ fuel, NearCanonical TranspileRef.encodeTy (decTy (decTranspileRef fuel)) Ty.Deep :=
  ⟨semTy_near.near, libTy_near.near, fun fuel => (symTy_near_of (decTranspileRef_near fuel)).near⟩

/-- **C10, partial**: what is read as a type over semantic ids is the encoding of the type, unless it lists variants of which
two have the same name; and then it is never the encoding of a well-formed type. So for strings read as well-formed types the
condition is exact. Missing: strings which list a name twice. -/
theorem C10_canonical_partial {bs rest : Bytes} {t : Ty SemId} (h : decTy decId bs = .ok (t, rest)) :
    ∃ c, bs = c ++ rest ∧ (¬NamesTwice c → c = t.encode encId) ∧ (t.WF → (c = t.encode encId ↔ ¬NamesTwice c)) := by
  obtain ⟨c, h1, h2, h3⟩ := decTy_listed h
  exact ⟨c, h1, h2, fun hw => ⟨fun he hn => h3 hw hn he, h2⟩⟩

/-- In particular types other than enums and unions are read from their encodings only. -/
theorem C10_other_partial {bs rest : Bytes} {t : Ty SemId} (h : decTy decId bs = .ok (t, rest)) (he : ∀ vs, t ≠ .enum vs)
    (hu : ∀ vs, t ≠ .union vs) : bs = t.encode encId ++ rest := by
  obtain ⟨c, rfl, hc⟩ := decTy_exact decId_ok _ _ _ h
  rw [hc (fun vs e => absurd e (he vs)) hu]

/-- Unions with the same name twice, as the string above, meet the exception, and the enum of two variants does not. -/
example : NamesTwice exOddUnion ∧ (∃ t, decTy decId [3, 2, 1, 97, 5, 1, 98, 7] = .ok (t, [])) ∧
    ¬NamesTwice [3, 2, 1, 97, 5, 1, 98, 7] := by
  refine ⟨?_, ⟨.enum [⟨n!"a", 5⟩, ⟨n!"b", 7⟩], by decide +kernel⟩, fun h => ?_⟩
  · exact .union (vs := [(⟨n!"a", 1⟩, Id32.rep 1), (⟨n!"a", 2⟩, Id32.rep 2)]) (by decide) (by decide)
  · obtain ⟨c, h1, -, h2⟩ := C10_canonical_partial (bs := [3, 2, 1, 97, 5, 1, 98, 7])
      (t := .enum [⟨n!"a", 5⟩, ⟨n!"b", 7⟩]) (rest := []) (by decide +kernel)
    rw [List.append_nil] at h1
    subst h1
    exact (h2 (by decide)).mp (by decide +kernel) h

/-- Both theorems apply to actual inputs. -/
example : decTy decId ([6, 1, 1, 120] ++ (Id32.rep 4).bytes ++ [77]) =
    .ok (.struct [(n!"x", Id32.rep 4)], [77]) := by decide +kernel
example : decTy decLibRef (exDeepTy.encode LibRef.encode ++ [1, 2]) = .ok (exDeepTy, [1, 2]) :=
  C09_type_roundtrip.2 _ exDeepTy_deep [1, 2]

/-! ## C11 -/

/-- **C11**: any well-formed library is read back from its encoding; so `from_strict_serialized`
returns the same library, which has the same id. -/
theorem C11_library_roundtrip (H : Hash) {l : TypeLib} (hw : l.WF) :
    ReadsBack TypeLib.encode decTypeLib l ∧
    ∃ m, fromSerialized decTypeLib l.encode = .ok m ∧ m = l ∧ m.id H = l.id H := by
  refine ⟨decTypeLib_append hw, l, ?_, rfl, rfl⟩
  have := decTypeLib_append hw []
  rw [List.append_nil] at this
  simp [fromSerialized, this]

/-- **C11** for symbolic libraries. -/
theorem C11_symbolic_roundtrip {l : SymbolicLib} (hw : l.WF) (hl : l.types.length < 2 ^ 64)
    {fuel : Nat} (hf : l.encode.length ≤ fuel) :
    ReadsBack SymbolicLib.encode (decSymbolicLib fuel) l :=
  decSymbolicLib_append hw hl hf

/-- Different well-formed libraries have different encodings, and neither encoding begins with the
other. -/
theorem C11_library_injective {l m : TypeLib} (hl : l.WF) (hm : m.WF) {r s : Bytes}
    (h : l.encode ++ r = m.encode ++ s) : l = m ∧ r = s := by
  have h1 := decTypeLib_append hl r
  rw [h, decTypeLib_append hm s] at h1
  cases h1
  exact ⟨rfl, rfl⟩

/-- A library with a dependency, an external type and the type above. -/
def exBinLib : TypeLib :=
  ⟨n!"Lib", [⟨Id32.rep 9, n!"Std"⟩], [(n!"Std", [(Id32.rep 2, n!"U")])],
    [(n!"Alpha", exDeepTy), (n!"Beta", .list (.extern ⟨Id32.rep 9, Id32.rep 2⟩) ⟨1, 5⟩)]⟩

theorem exBinLib_wf : exBinLib.WF where
  typesSorted := by simp [exBinLib, OMap.Sorted]; decide
  nonEmpty := by simp [exBinLib]
  fewTypes := by simp [exBinLib]
  deps := by simp [exBinLib, DepsSorted]
  fewDeps := by simp [exBinLib]
  externSorted := by simp [exBinLib, OMap.Sorted]
  fewExterns := by simp [exBinLib]
  externs := by simp [exBinLib, OMap.Sorted]
  types := by
    intro p hp
    simp only [exBinLib, List.mem_cons, List.not_mem_nil, or_false] at hp
    rcases hp with rfl | rfl
    · exact exDeepTy_deep
    · exact ⟨trivial, by simp [Ty.refs, LibRef.Deep]⟩

example (H : Hash) : ∃ m, fromSerialized decTypeLib exBinLib.encode = .ok m ∧ m = exBinLib ∧
    m.id H = exBinLib.id H := (C11_library_roundtrip H exBinLib_wf).2

/-! ## C12 -/

/-- **C12**: type systems, symbol tables and symbolic systems are read back from their encodings. -/
theorem C12_system_roundtrip :
    (∀ s : TypeSystem, s.Held → ReadsBack TypeSystem.encode decTypeSystem s) ∧
    (∀ s : Symbols, s.Held → ReadsBack Symbols.encode decSymbols s) ∧
    (∀ s : SymbolicSys, s.Held → ReadsBack SymbolicSys.encode decSymbolicSys s) :=
  ⟨fun _ => decTypeSystem_append, fun _ => decSymbols_append, fun _ => decSymbolicSys_append⟩

/-- **C12**: whatever is decoded has strictly increasing keys and respects the size limits. -/
theorem C12_system_sorted :
    (∀ bs s rest, decTypeSystem bs = .ok (s, rest) → OMap.Sorted s ∧ s.length ≤ 2 ^ 24 - 1) ∧
    (∀ bs s rest, decSymbols bs = .ok (s, rest) → s.Held) ∧
    (∀ bs s rest, decSymbolicSys bs = .ok (s, rest) →
      s.symbols.Held ∧ OMap.Sorted s.types ∧ s.types.length ≤ 2 ^ 24 - 1) := by
  have h1 : ∀ bs s rest, decTypeSystem bs = .ok (s, rest) →
      OMap.Sorted s ∧ s.length ≤ 2 ^ 24 - 1 := fun bs s rest h =>
    ⟨(decMap_sorted h).1, by have := (decMap_sorted h).2.2; omega⟩
  refine ⟨h1, fun _ _ _ h => decSymbols_held h, fun bs s rest h => ?_⟩
  obtain ⟨⟨a, b1⟩, h2, h3⟩ := Out.bind_eq_ok.mp h
  obtain ⟨⟨b, b2⟩, h4, h5⟩ := Out.bind_eq_ok.mp h3
  cases h5
  exact ⟨decSymbols_held h2, h1 _ _ _ h4⟩

/-- **C12**: reading symbol tables is canonical; type systems and symbolic systems of well-formed
types have their encoding as the only shortest string (see C10 for what is longer). -/
theorem C12_system_canonical :
    Canonical Symbols.encode decSymbols ∧
    NearCanonical TypeSystem.encode decTypeSystem TypeSystem.Held ∧
    NearCanonical SymbolicSys.encode decSymbolicSys SymbolicSys.Held :=
  ⟨decSymbols_ok, decTypeSystem_near.near, decSymbolicSys_near.near⟩

/-- A symbolic system with two types and one library. -/
def exSymSys : SymbolicSys :=
  ⟨⟨[⟨Id32.rep 9, n!"Std"⟩], [⟨Id32.rep 1, none⟩, ⟨Id32.rep 2, some ⟨n!"Std", n!"U"⟩⟩]⟩,
    [(Id32.rep 1, Ty.U8), (Id32.rep 2, .tuple [Id32.rep 1, Id32.rep 1])]⟩

theorem exSymSys_held : exSymSys.Held where
  symbols := by
    refine ⟨?_, ?_, ?_, ?_⟩ <;> simp [exSymSys, DepsSorted, OSet.Sorted]
    decide
  types := by
    refine ⟨?_, ?_, ?_⟩
    · simp [exSymSys, OMap.Sorted]; decide
    · simp [exSymSys]
    · intro p hp
      simp only [exSymSys, List.mem_cons, List.not_mem_nil, or_false] at hp
      rcases hp with rfl | rfl
      · trivial
      · simp [Ty.WF]

example : decSymbolicSys (exSymSys.encode ++ [5]) = .ok (exSymSys, [5]) :=
  C12_system_roundtrip.2.2 _ exSymSys_held [5]

/-- Ids in the wrong order and repeated ids are rejected. -/
example : decTypeSystem ([2, 0, 0] ++ (Id32.rep 2).bytes ++ [1] ++ (Id32.rep 1).bytes ++ [1]) =
    .err .broken := by decide +kernel
example : decTypeSystem ([2, 0, 0] ++ (Id32.rep 2).bytes ++ [1] ++ (Id32.rep 2).bytes ++ [1]) =
    .err .repeated := by decide +kernel

/-! ## C59 -/

/-- **C59**: reading a type, a library, a type system, a symbol table or a symbolic system returns an
object or an error on any input; it looks only at the bytes it consumes; and cut short at any point
the input is reported as incomplete. -/
theorem C59_reading_total (k : Nat) :
    (ReturnsBelow k (decTy decId) ∧ PrefixOnly (decTy decId)) ∧
    (ReturnsBelow k (decTy decLibRef) ∧ PrefixOnly (decTy decLibRef)) ∧
    (ReturnsBelow k decTypeLib ∧ PrefixOnly decTypeLib) ∧
    (ReturnsBelow k decTypeSystem ∧ PrefixOnly decTypeSystem) ∧
    (ReturnsBelow k decSymbols ∧ PrefixOnly decSymbols) ∧
    (ReturnsBelow k decSymbolicSys ∧ PrefixOnly decSymbolicSys) :=
  ⟨⟨decTy_returns decId_returns, decTy_prefix decId_prefix⟩,
    ⟨decTy_returns decLibRef_returns, decTy_prefix decLibRef_prefix⟩,
    ⟨decTypeLib_returns, decTypeLib_prefix⟩, ⟨decTypeSystem_returns, decTypeSystem_prefix⟩,
    ⟨decSymbols_returns, decSymbols_prefix⟩, ⟨decSymbolicSys_returns, decSymbolicSys_prefix⟩⟩

/-- **C59** for symbolic libraries: the nesting of embedded types is unbounded, but less than the
length of the input. -/
theorem C59_symbolic_total (fuel : Nat) :
    (ReturnsBelow fuel (decTranspileRef fuel) ∧ PrefixOnly (decTranspileRef fuel)) ∧
    (ReturnsBelow fuel (decSymbolicLib fuel) ∧ PrefixOnly (decSymbolicLib fuel)) :=
  ⟨⟨decTranspileRef_returns fuel, decTranspileRef_prefix fuel⟩,
    ⟨decSymbolicLib_returns fuel, decSymbolicLib_prefix fuel⟩⟩

example : decSymbolicSys (exSymSys.encode.take 60) = .err .io := by
  obtain ⟨c, h1, -, h2⟩ := (C59_reading_total 0).2.2.2.2.2.2 (exSymSys.encode ++ []) exSymSys []
    (C12_system_roundtrip.2.2 _ exSymSys_held [])
  rw [List.append_nil, List.append_nil] at h1
  rw [h1]
  exact h2 (c.take 60) (c.drop 60) (by simp) (by rw [← h1]; decide +kernel)

theorem fromSerialized_whole {α : Type} {dec : Bytes → Out CErr (α × Bytes)} (h : PrefixOnly dec) :
    WholeOnly (fromSerialized dec) := by
  intro bs a hl
  unfold fromSerialized at hl
  obtain ⟨⟨a', rest⟩, h1, hl⟩ := Out.bind_eq_ok.mp hl
  simp only at hl
  split at hl
  · rename_i he
    simp only [List.isEmpty_iff] at he
    subst he
    obtain ⟨c, hc, hext, hcut⟩ := h bs a' [] h1
    rw [List.append_nil] at hc
    subst hc
    refine ⟨fun ext hne => ?_, fun p q hpq hq => ?_⟩
    · unfold fromSerialized
      rw [hext ext]
      simp [hne]
    · unfold fromSerialized
      rw [hcut p q hpq hq]
      rfl
  · cases hl

/-- **C59**: a file with a library, a type system, a symbol table or a symbolic system is accepted as a
whole only: it is refused with anything appended or cut off. -/
theorem C59_whole_file :
    WholeOnly (fromSerialized decTypeLib) ∧ WholeOnly (fromSerialized decTypeSystem) ∧
    WholeOnly (fromSerialized decSymbols) ∧ WholeOnly (fromSerialized decSymbolicSys) :=
  ⟨fromSerialized_whole (C59_reading_total 0).2.2.1.2, fromSerialized_whole (C59_reading_total 0).2.2.2.1.2,
    fromSerialized_whole (C59_reading_total 0).2.2.2.2.1.2,
    fromSerialized_whole (C59_reading_total 0).2.2.2.2.2.2⟩

example : fromSerialized decTypeLib (exBinLib.encode ++ [0]) = .err .left := by
  obtain ⟨m, h, rfl, -⟩ := (C11_library_roundtrip toyHash exBinLib_wf).2
  exact (C59_whole_file.1 _ _ h).1 [0] (by simp)

/-! ## C60 -/

/-- A type system whose only type refers to an absent one. -/
def exOpenSys : Bytes := [1, 0, 0] ++ (Id32.rep 1).bytes ++ [5, 1] ++ (Id32.rep 2).bytes

/-- **C60 is violated**: a type system with a reference to an absent type is decoded, contrary to the
documentation of `TypeSystem`; and a well-formed type is decoded under any id whatever. -/
theorem C60_decoded_violated :
    (∃ s, fromSerialized decTypeSystem exOpenSys = .ok s ∧
      ∃ id t, OMap.get s id = some t ∧ ∃ r ∈ t.refs, OMap.get s r = none) ∧
    (∀ (id : SemId) (t : Ty SemId), t.WF →
      fromSerialized decTypeSystem (TypeSystem.encode [(id, t)]) = .ok [(id, t)]) := by
  refine ⟨⟨[(Id32.rep 1, .tuple [Id32.rep 2])], by decide +kernel, Id32.rep 1, .tuple [Id32.rep 2],
    rfl, Id32.rep 2, by simp [Ty.refs], by decide⟩, fun id t ht => ?_⟩
  have := decTypeSystem_append (s := [(id, t)]) ⟨by simp [OMap.Sorted], by simp, by simpa using ht⟩ []
  rw [List.append_nil] at this
  simp [fromSerialized, this]

/-- **C60, partial**: decoded type systems and libraries respect the order and the size limits of
their containers, down to the number of components of every type. Missing: completeness, agreement of
ids with types, and distinct names (see C10). -/
theorem C60_decoded_partial :
    (∀ bs s rest, decTypeSystem bs = .ok (s, rest) →
      OMap.Sorted s ∧ s.length ≤ 2 ^ 24 - 1 ∧ ∀ p ∈ s, p.2.Sized) ∧
    (∀ bs l rest, decTypeLib bs = .ok (l, rest) →
      l.types.Sorted ∧ l.types ≠ [] ∧ l.types.length ≤ 65535 ∧ DepsSorted l.dependencies ∧
      l.dependencies.length ≤ 255 ∧ l.externTypes.Sorted ∧ l.externTypes.length ≤ 255 ∧
      ∀ p ∈ l.types, p.2.Sized) := by
  refine ⟨fun bs s rest h => ?_, fun bs l rest h => ?_⟩
  · exact ⟨(C12_system_sorted.1 _ _ _ h).1, (C12_system_sorted.1 _ _ _ h).2,
      decSet_yields (decPair_yields fun _ _ _ h => decTy_sized h) h⟩
  · obtain ⟨h1, h2, h3, h4, h5, h6, h7⟩ := decTypeLib_sorted h
    refine ⟨h1, h2, h3, h4, h5, h6, h7, ?_⟩
    obtain ⟨⟨a, b1⟩, h1, h⟩ := Out.bind_eq_ok.mp h
    obtain ⟨⟨b, b2⟩, h2, h⟩ := Out.bind_eq_ok.mp h
    obtain ⟨⟨c, b3⟩, h3, h⟩ := Out.bind_eq_ok.mp h
    obtain ⟨⟨d, b4⟩, h4, h⟩ := Out.bind_eq_ok.mp h
    cases h
    exact decSet_yields (decPair_yields fun _ _ _ h => decTy_sized h) h4

example : ∃ s, decTypeSystem exOpenSys = .ok (s, []) := ⟨[(Id32.rep 1, .tuple [Id32.rep 2])], by
  decide +kernel⟩

/-! ## C61 -/

/-- A name of 100 bytes. -/
def exLongName : Name := ⟨List.replicate 100 97, by decide +kernel⟩

/-- An id made from a number below 65536. -/
def exIdOf (n : Nat) : SemId :=
  ⟨BitVec.ofNat 8 (n / 256) :: BitVec.ofNat 8 n :: List.replicate 30 0, by simp⟩

/-- Names of 100 bytes, beginning with two letters for a number below 256. -/
def exLongNameOf (n : Nat) : Name :=
  (Name.ofBytes? (BitVec.ofNat 8 (97 + n / 16) :: BitVec.ofNat 8 (97 + n % 16) :: List.replicate 98 97)).getD exLongName

/-- A union with 255 variants of long names. -/
def exBigTy : Ty SemId := .union ((List.range 255).map fun n => (⟨exLongNameOf n, BitVec.ofNat 8 n⟩, Id32.rep 0))

theorem exBigTy_wf : exBigTy.WF := by
  show VariantsWF _
  decide +kernel

/-- The same union under 491 ids. -/
def exBigSys : TypeSystem := (List.range 491).map fun n => (exIdOf n, exBigTy)

theorem flatMap_length_const {α : Type} {f : α → Bytes} {l : List α} {k : Nat}
    (h : ∀ a ∈ l, (f a).length = k) : (l.flatMap f).length = l.length * k := by
  induction l with
  | nil => simp
  | cons a l ih =>
    have h1 := h a (by simp)
    have h2 := ih fun b hb => h b (by simp [hb])
    simp only [List.flatMap_cons, List.length_append, List.length_cons, h1, h2, Nat.succ_mul]
    omega

/-- **C61 is violated**: nothing keeps the serialised size of a type system below 2^24 bytes. A system
of 491 types, every one of them well formed, takes more, and is decoded all the same. -/
theorem C61_size_violated :
    exBigSys.Held ∧ exBigSys.length = 491 ∧ 2 ^ 24 ≤ exBigSys.encode.length ∧
      fromSerialized decTypeSystem exBigSys.encode = .ok exBigSys := by
  have hheld : exBigSys.Held := by
    refine ⟨?_, by simp [exBigSys, -List.reduceReplicate], ?_⟩
    · unfold OMap.Sorted exBigSys
      rw [List.pairwise_map]
      refine List.Pairwise.imp_of_mem (R := (· < ·)) ?_ List.pairwise_lt_range
      intro a b ha hb hab
      simp only [List.mem_range] at ha hb
      simp only [KeyOrd.lt, exIdOf, bytesLt, Bool.or_eq_true, Bool.and_eq_true,
        decide_eq_true_eq, beq_iff_eq, BitVec.toNat_ofNat]
      by_cases h : a / 256 = b / 256
      · right
        exact ⟨by rw [h], .inl (by omega)⟩
      · left
        omega
    · intro p hp
      simp only [exBigSys, List.mem_map] at hp
      obtain ⟨_, _, rfl⟩ := hp
      exact exBigTy_wf
  refine ⟨hheld, by simp [exBigSys], ?_, ?_⟩
  · have h1 : (exBigTy.encode encId).length = 34172 := by decide +kernel
    unfold TypeSystem.encode encSeq
    rw [List.length_append, flatMap_length_const (k := 34204), le_length]
    · simp [exBigSys, -List.reduceReplicate]
    · intro a ha
      simp only [exBigSys, List.mem_map] at ha
      obtain ⟨_, _, rfl⟩ := ha
      simp only [encPair, List.length_append, h1, encId, Id32.len]
  · have := decTypeSystem_append hheld []
    rw [List.append_nil] at this
    simp [fromSerialized, this]

theorem flatMap_length_le {α : Type} {f : α → Bytes} {l : List α} {k : Nat}
    (h : ∀ a ∈ l, (f a).length ≤ k) : (l.flatMap f).length ≤ l.length * k := by
  induction l with
  | nil => simp
  | cons a l ih =>
    have h1 := h a (by simp)
    have h2 := ih fun b hb => h b (by simp [hb])
    simp only [List.flatMap_cons, List.length_append, List.length_cons, Nat.succ_mul]
    omega

theorem encName_length_le (n : Name) : (encName n).length ≤ 101 := by
  have := n.length_le
  simp only [encName, List.length_append, le_length]
  omega

theorem encode_length_le {t : Ty SemId} (h : t.WF) : (t.encode encId).length ≤ 34172 := by
  have hid : ∀ i : SemId, (encId i).length = 32 := fun i => i.len
  cases t with
  | primitive c => simp [Ty.encode]
  | unicodeChar => simp [Ty.encode]
  | enum vs =>
    have h1 : vs.length ≤ 255 := h.2.1
    have := flatMap_length_le (f := encVariant) (l := vs) (k := 102) fun v _ => by
      have := encName_length_le v.name
      simp only [encVariant, List.length_append, List.length_cons, List.length_nil]
      omega
    simp only [Ty.encode, encSeq, List.length_cons, List.length_append, le_length]
    omega
  | union vs =>
    have h1 : (vs.map Prod.fst).length ≤ 255 := h.2.1
    have he : unionFields vs = vs.map fieldOf := unionFields_eq h
    have := flatMap_length_le (f := fun e : Byte × Name × SemId => e.1 :: encPair encName encId e.2)
      (l := unionFields vs) (k := 134) fun e _ => by
        have := encName_length_le e.2.1
        simp only [encPair, List.length_append, List.length_cons, hid]
        omega
    simp only [Ty.encode, encSeq, List.length_cons, List.length_append, le_length]
    refine Nat.le_trans (Nat.succ_le_succ (Nat.add_le_add_left this 1)) ?_
    rw [he]
    simp only [List.length_map] at h1 ⊢
    omega
  | tuple fs =>
    have h1 : fs.length ≤ 255 := h.2
    have := flatMap_length_le (f := encId) (l := fs) (k := 32) fun i _ => Nat.le_of_eq (hid i)
    simp only [Ty.encode, encSeq, List.length_cons, List.length_append, le_length]
    omega
  | struct fs =>
    have h1 : fs.length ≤ 255 := h.2
    have := flatMap_length_le (f := encPair encName encId) (l := fs) (k := 133) fun p _ => by
      have := encName_length_le p.1
      simp only [encPair, List.length_append, hid]
      omega
    simp only [Ty.encode, encSeq, List.length_cons, List.length_append, le_length]
    omega
  | array ty len => simp [Ty.encode, hid, le_length]
  | list ty sz => simp [Ty.encode, hid, le_length, encSizing]
  | set ty sz => simp [Ty.encode, hid, le_length, encSizing]
  | map k ty sz => simp [Ty.encode, hid, le_length, encSizing]

/-- **C61, partial**: the documented limit holds for systems of up to 490 types. Missing: larger
systems, for which nothing enforces it: with one type more it may be broken (`C61_size_violated`). -/
theorem C61_size_partial {s : TypeSystem} (h : s.Held) (hn : s.length ≤ 490) :
    s.encode.length < 2 ^ 24 := by
  have := flatMap_length_le (f := encPair encId (Ty.encode encId)) (l := s) (k := 34204)
    fun p hp => by
      have h1 := encode_length_le (h.types p hp)
      have h2 : (encId p.1).length = 32 := p.1.len
      simp only [encPair, List.length_append]
      omega
  unfold TypeSystem.encode encSeq
  rw [List.length_append, le_length]
  have h3 : s.length * 34204 ≤ 490 * 34204 := Nat.mul_le_mul_right _ hn
  omega

example : exSymSys.types.encode.length < 2 ^ 24 :=
  C61_size_partial exSymSys_held.types (by simp [exSymSys])

end Verif
