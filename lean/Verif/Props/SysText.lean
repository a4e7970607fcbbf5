import Verif.Lemmas.SysText
import Verif.Lemmas.TextShown
import Verif.Spec.Example

/-!
# The texts of type systems
-/

namespace Verif

/-! ## C86 -/

/-- **C86 is violated** for unions shaped as an option whose `none` has a payload: it is not shown, neither is
it part of the id of the system. -/
theorem C86_none_violated (G : Glyphs) (K : IdGlyphs) (H : Hash) (i a u v : SemId) (h : u ≠ v) :
    TypeSystem.text G K H [(i, .union [(⟨n!"none", 0⟩, u), (⟨n!"some", 1⟩, a)])] =
      TypeSystem.text G K H [(i, .union [(⟨n!"none", 0⟩, v), (⟨n!"some", 1⟩, a)])] ∧
    ([(i, Ty.union [(⟨n!"none", 0⟩, u), (⟨n!"some", 1⟩, a)])] : TypeSystem) ≠
      [(i, .union [(⟨n!"none", 0⟩, v), (⟨n!"some", 1⟩, a)])] := by
  refine ⟨?_, by simp [h]⟩
  have e : ∀ t u : Ty SemId, TypeSystem.id H [(i, t)] = TypeSystem.id H [(i, u)] := fun _ _ => rfl
  simp only [TypeSystem.text, List.flatMap_cons, List.flatMap_nil, e _ (Ty.unicodeChar)]
  simp [Ty.textShort, Ty.text, Ty.asSome, Ty.noneName, Ty.someName]

/-- **C86 is violated** for symbolic systems in which two types have the same full name: a reference to one of
them is shown as one to the other. -/
theorem C86_names_violated (G : Glyphs) (K : IdGlyphs) (H : Hash) (f : TypeFqn) (a b c : SemId) (h : a ≠ b) :
    let y : Symbols := ⟨[], [⟨a, some f⟩, ⟨b, some f⟩]⟩
    let s : SymbolicSys := ⟨y, [(a, .primitive 1), (b, .primitive 2), (c, .tuple [a])]⟩
    let t : SymbolicSys := ⟨y, [(a, .primitive 1), (b, .primitive 2), (c, .tuple [b])]⟩
    s.text G K H = t.text G K H ∧ s.types ≠ t.types := by
  refine ⟨?_, by simp [h]⟩
  have e : ∀ t u : Ty SemId, TypeSystem.id H [(a, .primitive 1), (b, .primitive 2), (c, t)] =
    TypeSystem.id H [(a, .primitive 1), (b, .primitive 2), (c, u)] := fun _ _ => rfl
  have hl : ∀ t, ∀ r, (SymbolicSys.mk ⟨[], [⟨a, some f⟩, ⟨b, some f⟩]⟩ t).lookup r = if r = a ∨ r = b then some f else none := by
    intro t r
    simp only [SymbolicSys.lookup, Symbols.lookup, List.find?_cons, List.find?_nil]
    by_cases h1 : a = r
    · simp [h1]
    · by_cases h2 : b = r
      · simp [h1, h2]
      · simp [h1, h2, Ne.symm h1, Ne.symm h2]
  simp only [SymbolicSys.text, List.flatMap_cons, List.flatMap_nil, e _ (Ty.unicodeChar), SymbolicSys.dataText, SymbolicSys.toSymbol, hl]
  simp [Ty.textShort, Ty.text, sepBy, TypeSymbol.text]

/-- **C86 is violated** for symbolic systems with references to types outside of the system: only the names
of those are shown. -/
theorem C86_outside_violated (G : Glyphs) (K : IdGlyphs) (H : Hash) (f : TypeFqn) (a b c : SemId) (h : a ≠ b) (hc : c ≠ a ∧ c ≠ b) :
    let s : SymbolicSys := ⟨⟨[], [⟨a, some f⟩]⟩, [(c, .tuple [a])]⟩
    let t : SymbolicSys := ⟨⟨[], [⟨b, some f⟩]⟩, [(c, .tuple [b])]⟩
    s.text G K H = t.text G K H ∧ s.types ≠ t.types ∧ s.Distinct ∧ t.Distinct := by
  have hl : ∀ i t, ∀ r, (SymbolicSys.mk ⟨[], [⟨i, some f⟩]⟩ t).lookup r = if r = i then some f else none := by
    intro i t r
    simp only [SymbolicSys.lookup, Symbols.lookup, List.find?_cons, List.find?_nil]
    by_cases h1 : i = r
    · simp [h1]
    · simp [h1, Ne.symm h1]
  refine ⟨?_, by simp [h], ?_, ?_⟩
  · have e : ∀ t u : Ty SemId, TypeSystem.id H [(c, t)] = TypeSystem.id H [(c, u)] := fun _ _ => rfl
    simp only [SymbolicSys.text, List.flatMap_cons, List.flatMap_nil, e _ (Ty.unicodeChar), SymbolicSys.dataText,
      SymbolicSys.toSymbol, hl]
    simp [Ty.textShort, Ty.text, sepBy, TypeSymbol.text, hc.1, hc.2]
  all_goals
    intro i j g hi hj
    rw [hl] at hi hj
    split at hi
    · split at hj
      · rename_i h1 h2; rw [h1, h2]
      · cases hj
    · cases hi

/-- **C86, what holds for type systems**: systems with the same text are equal, if all their unions shaped as
an option have the same payload for `none`. Missing: other systems (see above). -/
theorem C86_system_partial (G : Glyphs) (K : IdGlyphs) (P : Byte → Prop) (hG : G.Clear P) (hK : K.Clear G) (H : Hash)
    (unit : SemId) (s t : TypeSystem) (hs : s.Legible P unit) (ht : t.Legible P unit)
    (h : s.text G K H = t.text G K H) : s = t := by
  rw [TypeSystem.text_eq, TypeSystem.text_eq] at h
  have h := entries_inj hG hK (hK.sys _) (hK.sys _) (fun e he => entrySty_plain hK (hs e he).1 (hs e he).2.1)
    (fun e he => entrySty_plain hK (ht e he).1 (ht e he).2.1) h
  refine map_eq_inj (fun e he f hf h => ?_) h
  simp only [Prod.mk.injEq] at h
  refine Prod.ext h.1 (Ty.shape_inj (unit := unit) (refSty_isRef hK.short) (refSty_isRef hK.short) ?_ ?_
    (hs e he).2.2 (ht f hf).2.2 h.2.2)
  · exact fun r _ q _ h => hK.short_inj _ _ (Sty.mark.inj h)
  · exact fun r _ q _ h => hK.id_inj _ _ (Sty.mark.inj h)

/-- **C86, what holds for symbolic systems**: complete systems with the same text have the same types, with
the same names, if names are those of one type each and the unions shaped as an option have the same payload
for `none`. Missing: other systems (see above); libraries, and names of types outside of the system, are not
shown. -/
theorem C86_symbolic_partial (G : Glyphs) (K : IdGlyphs) (P : Byte → Prop) (hG : G.Clear P) (hK : K.Clear G) (H : Hash)
    (unit : SemId) (s t : SymbolicSys) (hs : s.types.Legible P unit) (ht : t.types.Legible P unit)
    (hc : ∀ e ∈ s.types, ∀ r ∈ e.2.refs, ∃ u, (r, u) ∈ s.types) (hd : t.Distinct)
    (h : s.text G K H = t.text G K H) :
    s.types = t.types ∧ ∀ e ∈ s.types, s.lookup e.1 = t.lookup e.1 := by
  have data : ∀ s : SymbolicSys, s.types.flatMap (s.dataText G K) = s.types.flatMap (entryText G K s.lookup) := by
    intro s
    congr 1
    funext e
    exact s.dataText_eq G K e
  unfold SymbolicSys.text at h
  rw [data, data] at h
  have h := entries_inj hG hK (hK.sysLong _) (hK.sysLong _) (fun e he => entrySty_plain hK (hs e he).1 (hs e he).2.1)
    (fun e he => entrySty_plain hK (ht e he).1 (ht e he).2.1) h
  have hn : ∀ e ∈ s.types, s.lookup e.1 = t.lookup e.1 := by
    have : ∀ {l m : List (SemId × Ty SemId)}, (l.map fun e => (e.1, s.lookup e.1, entrySty G K s.lookup e.2)) =
        (m.map fun e => (e.1, t.lookup e.1, entrySty G K t.lookup e.2)) → ∀ e ∈ l, s.lookup e.1 = t.lookup e.1 := by
      intro l m h e he
      have := List.mem_map_of_mem (f := fun e => (e.1, s.lookup e.1, entrySty G K s.lookup e.2)) he
      rw [h] at this
      obtain ⟨f, -, hf⟩ := List.mem_map.1 this
      simp only [Prod.mk.injEq] at hf
      rw [← hf.2.1, hf.1]
    exact this h
  refine ⟨map_eq_inj (fun e he f hf h => ?_) h, hn⟩
  simp only [Prod.mk.injEq] at h
  have ref : ∀ {id : Id32 → Bytes}, (∀ i j, id i = id j → i = j) → ∀ r ∈ e.2.refs, ∀ q ∈ f.2.refs,
      refSty s.lookup id r = refSty t.lookup id q → r = q := by
    intro id hid r hr q _ h
    obtain ⟨u, hu⟩ := hc e he r hr
    have hru := hn _ hu
    simp only at hru
    unfold refSty at h
    cases h1 : s.lookup r with
    | none =>
      cases h2 : t.lookup q with
      | none => rw [h1, h2] at h; exact hid _ _ (Sty.mark.inj h)
      | some g => rw [h1, h2] at h; cases h
    | some g =>
      cases h2 : t.lookup q with
      | none => rw [h1, h2] at h; cases h
      | some g' =>
        rw [h1, h2] at h
        simp only [Sty.ext.injEq] at h
        refine hd r q g (hru ▸ h1) ?_
        rw [h2]
        cases g; cases g'
        simp only at h
        rw [h.1, h.2]
  exact Prod.ext h.1 (Ty.shape_inj (unit := unit) (refSty_isRef hK.short) (refSty_isRef hK.short) (ref hK.short_inj)
    (ref hK.id_inj) (hs e he).2.2 (ht f hf).2.2 h.2.2)

/-- **C86, symbols**: the text of the symbols of a system determines the libraries, up to the mnemonics of
their ids, and the full names of types with their ids. Missing: ids of libraries are shown by mnemonics only,
and types without a name are not shown. -/
theorem C86_symbols_partial (G : Glyphs) (P : Byte → Prop) (hG : G.Clear P) (K : IdGlyphs) (hK : K.Clear G) (s t : Symbols)
    (h : s.text G = t.text G) :
    (s.libs.map fun d => (d.name, G.mnemo d.id)) = (t.libs.map fun d => (d.name, G.mnemo d.id)) ∧
    ∀ (f : TypeFqn) (i : SemId), ⟨i, some f⟩ ∈ s.symbols ↔ ⟨i, some f⟩ ∈ t.symbols := by
  obtain ⟨h1, h2⟩ := Symbols.text_inj hG hK.id hK.id_inj h
  refine ⟨h1, ?_⟩
  have : ∀ (s : Symbols) f i, (⟨i, some f⟩ : TypeSymbol) ∈ s.symbols ↔ (f, i) ∈ s.named := by
    intro s f i
    simp only [Symbols.named, List.mem_filterMap, Option.map_eq_some_iff]
    constructor
    · exact fun h => ⟨_, h, f, rfl, rfl⟩
    · rintro ⟨⟨j, g⟩, hm, g', hg, he⟩
      cases he
      cases hg
      exact hm
  intro f i
  rw [this, this, h2]

/-! ### Texts which meet the hypotheses -/

/-- Mnemonics for the example. -/
def exMnemo2 (_ : Id32) : Bytes := b!"word-word"

/-- Ids for the example: a prefix and the digits. -/
def exIdText (p : Bytes) (i : Id32) : Bytes := p ++ toHex i.bytes

def exIdGlyphs : IdGlyphs := ⟨exIdText b!"id-", exIdText b!"sts:id-", exIdText b!"sts:id-"⟩

theorem exIdText_inj (p : Bytes) (i j : Id32) (h : exIdText p i = exIdText p j) : i = j := by
  have := toHex_inj (List.append_cancel_left h)
  cases i; cases j
  simp only at this
  subst this
  rfl

theorem exIdText_id {c : Byte} {p : Bytes} (hc : idStart c = true) (hp : (c :: p).all idChar = true) (hd : (45 : Byte) ∈ c :: p)
    (i : Id32) : idText (exIdText (c :: p) i) = true := by
  have hx : ∀ x ∈ toHex i.bytes, isAlphaNumLodash x = true := by
    intro x hx
    simp only [toHex, List.mem_flatMap, List.mem_cons, List.not_mem_nil, or_false] at hx
    obtain ⟨b, -, rfl | rfl⟩ := hx
    · exact (by decide : ∀ n, n < 16 → isAlphaNumLodash (hexDigit n) = true) _ (by omega)
    · exact (by decide : ∀ n, n < 16 → isAlphaNumLodash (hexDigit n) = true) _ (by omega)
  have hn : toHex i.bytes ≠ [] := by
    intro h
    have := i.len
    rw [toHex_inj (b := []) h] at this
    cases this
  simp only [idText, exIdText, Bool.and_eq_true, List.all_eq_true, List.contains_iff_mem]
  refine ⟨⟨⟨?_, by simp only [List.mem_append]; exact .inl hd⟩, by simpa using hc⟩, ?_⟩
  · intro x h
    rcases List.mem_append.1 h with h | h
    · exact List.all_eq_true.1 hp x h
    · simp [idChar, idStart, hx x h]
  · simp only [bne_iff_ne, ne_eq]
    rw [List.getLast?_append, List.getLast?_eq_some_getLast hn, Option.some_or, ← List.getLast?_eq_some_getLast hn]
    exact fun e => absurd (hx _ (List.mem_of_getLast? e)) (by decide)

/-- The example of texts meets the hypotheses. -/
example : (shownGlyphs (exIdText b!"semid:id-") exMnemo2).Clear Shown ∧
    exIdGlyphs.Clear (shownGlyphs (exIdText b!"semid:id-") exMnemo2) := by
  refine ⟨shownGlyphs_clear fun i => by unfold exMnemo2; decide, ⟨?_, exIdText_inj _, ?_, exIdText_inj _, ?_, ?_⟩⟩
  all_goals exact exIdText_id (by decide) (by decide) (by decide)

/-- A system with a named enum, an option and a map from names to lists. -/
def exShown : SymbolicSys :=
  ⟨⟨[⟨Id32.rep 9, n!"Lib"⟩], [⟨Id32.rep 1, some ⟨n!"Lib", n!"Kind"⟩⟩, ⟨Id32.rep 2, none⟩]⟩,
    [(Id32.rep 0, .primitive 0), (Id32.rep 1, .enum [⟨n!"p", 0⟩, ⟨n!"q", 1⟩]),
     (Id32.rep 2, .union [(⟨n!"none", 0⟩, Id32.rep 0), (⟨n!"some", 1⟩, Id32.rep 1)]),
     (Id32.rep 3, .map (Id32.rep 1) (Id32.rep 2) ⟨0, 65535⟩),
     (Id32.rep 4, .map (Id32.rep 3) (Id32.rep 3) ⟨1, 65535⟩)]⟩

/-- It meets the hypotheses. -/
example : exShown.types.Legible Shown (Id32.rep 0) ∧
    (∀ e ∈ exShown.types, ∀ r ∈ e.2.refs, ∃ u, (r, u) ∈ exShown.types) ∧ exShown.Distinct := by
  refine ⟨?_, ?_, ?_⟩
  · intro e he
    refine ⟨(by decide : ∀ e ∈ exShown.types, e.2.WF) e he, ?_, ?_⟩
    · simp only [exShown, List.mem_cons, List.not_mem_nil, or_false] at he
      rcases he with rfl | rfl | rfl | rfl | rfl <;> intro p hp <;> cases hp
      exact (by decide : (0 : Byte) ∈ shownPrims.map Prod.fst)
    · simp only [exShown, List.mem_cons, List.not_mem_nil, or_false] at he
      rcases he with rfl | rfl | rfl | rfl | rfl <;> intro u r h <;> cases h
      rfl
  · have : ∀ e ∈ exShown.types, ∀ r ∈ e.2.refs, r ∈ exShown.types.map Prod.fst := by decide
    intro e he r hr
    obtain ⟨⟨k, u⟩, hu, rfl⟩ := List.mem_map.1 (this e he r hr)
    exact ⟨u, hu⟩
  · intro i j f hi hj
    have look : ∀ {i : SemId} {f : TypeFqn}, exShown.lookup i = some f → i = Id32.rep 1 := by
      intro i f h
      simp only [SymbolicSys.lookup, Symbols.lookup, exShown, Option.bind_eq_some_iff] at h
      obtain ⟨x, hx, hf⟩ := h
      have hm := List.mem_of_find?_eq_some hx
      have hp := List.find?_some hx
      simp only [decide_eq_true_eq] at hp
      simp only [List.mem_cons, List.not_mem_nil, or_false] at hm
      rcases hm with rfl | rfl
      · exact hp.symm
      · cases hf
    rw [look hi, look hj]

/-- The text of its third type. -/
example : exShown.dataText (shownGlyphs (exIdText b!"semid:id-") exMnemo2) exIdGlyphs (Id32.rep 2, .union [(⟨n!"none", 0⟩, Id32.rep 0), (⟨n!"some", 1⟩, Id32.rep 1)]) =
    b!"data " ++ exIdText b!"id-" (Id32.rep 2) ++ b!": Lib.Kind?" ++ [10] := by decide +kernel

/-- The text of its last type: the id of the key is shown in another form. -/
example : exShown.dataText (shownGlyphs (exIdText b!"semid:id-") exMnemo2) exIdGlyphs (Id32.rep 4, .map (Id32.rep 3) (Id32.rep 3) ⟨1, 65535⟩) =
    b!"data " ++ exIdText b!"id-" (Id32.rep 4) ++ b!": {" ++ exIdText b!"semid:id-" (Id32.rep 3) ++ b!" -> ^ 1.. " ++
      exIdText b!"id-" (Id32.rep 3) ++ b!"}" ++ [10] := by decide +kernel

end Verif
