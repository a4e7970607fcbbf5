import Verif.Lemmas.SysText
import Verif.Model.TypedText
import Verif.Props.ByName
import Verif.Props.Ston
import Verif.Props.SysText

/-!
# Property C99: text of typed values
-/

namespace Verif

/-- What comes after the last `@` is told. -/
theorem last_at_inj {a b s t : Bytes} (hs : (64 : Byte) ∉ s) (ht : (64 : Byte) ∉ t)
    (h : a ++ b!"@" ++ s = b ++ b!"@" ++ t) : a = b ∧ s = t := by
  have h := congrArg List.reverse h
  simp only [List.reverse_append, List.append_assoc] at h
  obtain ⟨h1, h2⟩ := append_span (p := fun x => x ≠ (64 : Byte))
    (by intro x hx; simp only [List.mem_reverse] at hx; simp; rintro rfl; exact hs hx)
    (by intro x hx; simp only [List.mem_reverse] at hx; simp; rintro rfl; exact ht hx)
    (by simp) (by simp) h
  exact ⟨by simpa using h2, by simpa using h1⟩

theorem TypeSymbol.text_no_at {id : Id32 → Bytes} (hid : ∀ i, idText (id i) = true) (s : TypeSymbol) :
    (64 : Byte) ∉ s.text id := by
  have hn : ∀ n : Name, (64 : Byte) ∉ n.bytes := fun n => n.isWord.not_mem (by decide)
  rw [TypeSymbol.text]
  split
  · rename_i f _
    simp only [TypeFqn.text, List.mem_append, not_or]
    exact ⟨⟨hn _, by decide⟩, hn _⟩
  · exact fun hm => idText_ne (c := 64) (hid _) (by decide) hm

/-- **C99, the type is told**: typed values with the same text have values with the same text and symbols which are
both named, by the same name, or both unnamed, with the same id. -/
theorem C99_type_told (id : Id32 → Bytes) (hid : ∀ i, idText (id i) = true) (hinj : ∀ i j, id i = id j → i = j)
    (s t : TypedVal) (h : s.text id = t.text id) :
    s.val.ston = t.val.ston ∧ s.orig.fqn = t.orig.fqn ∧ (s.orig.fqn = none → s.orig.id = t.orig.id) := by
  obtain ⟨hv, ho⟩ := last_at_inj (TypeSymbol.text_no_at hid _) (TypeSymbol.text_no_at hid _) h
  refine ⟨hv, ?_⟩
  have dash : ∀ (f : TypeFqn) (i : Id32), f.text ≠ id i := by
    intro f i e
    have hd : (45 : Byte) ∈ id i := by
      have := hid i
      simp only [idText, Bool.and_eq_true] at this
      simpa using this.1.1.2
    rw [← e] at hd
    have hn : ∀ n : Name, (45 : Byte) ∉ n.bytes := fun n => n.isWord.not_mem (by decide)
    simp only [TypeFqn.text, List.mem_append] at hd
    rcases hd with (hd | hd) | hd
    · exact hn _ hd
    · exact absurd hd (by decide)
    · exact hn _ hd
  rw [TypeSymbol.text, TypeSymbol.text] at ho
  cases hs : s.orig.fqn with
  | some f =>
    cases ht : t.orig.fqn with
    | some g =>
      rw [hs, ht] at ho
      refine ⟨?_, by simp⟩
      have hfg : f = g := (TypeFqn.text_inj (r := []) (s := []) (by simp) (by simp) (by simpa using ho)).1
      rw [hfg]
    | none => rw [hs, ht] at ho; exact absurd ho (dash _ _)
  | none =>
    cases ht : t.orig.fqn with
    | some g => rw [hs, ht] at ho; exact absurd ho.symm (dash _ _)
    | none =>
      rw [hs, ht] at ho
      exact ⟨rfl, fun _ => hinj _ _ ho⟩

/-- **C99, the type is shown by its id**: whatever the type was asked by, the text of a value returned by `typify` or
read from bytes ends with the id of the type, never with its name. -/
theorem C99_shown_by_id (id : Id32 → Bytes) (S : SymbolicSys) (E : Env) (fuel : Nat) (spec : TypeSpec) :
    (∀ v t, S.typify E fuel v spec = .ok t →
      ∃ i w, S.toSemId spec = some i ∧ t.text id = Val.ston w ++ b!"@" ++ id i) ∧
    (∀ bs t rest, S.read E fuel spec bs = .ok (t, rest) →
      ∃ i w, S.toSemId spec = some i ∧ t.text id = Val.ston w ++ b!"@" ++ id i) ∧
    (∀ bs t, S.deserialize E fuel spec bs = .ok t →
      ∃ i w, S.toSemId spec = some i ∧ t.text id = Val.ston w ++ b!"@" ++ id i) := by
  refine ⟨fun v t h => ?_, fun bs t rest h => ?_, fun bs t h => ?_⟩
  · rw [SymbolicSys.typify] at h
    cases hs : S.toSemId spec with
    | none => rw [hs] at h; simp at h
    | some i =>
      rw [hs] at h
      cases hw : typify (S.env E) fuel v i <;> simp [hw, Out.mapErr] at h
      subst h
      exact ⟨i, _, rfl, rfl⟩
  · rw [SymbolicSys.read] at h
    cases hs : S.toSemId spec with
    | none => rw [hs] at h; simp at h
    | some i =>
      rw [hs] at h
      cases hw : read (S.env E) fuel i bs <;> simp [hw, Out.mapErr] at h
      obtain ⟨rfl, -⟩ := h
      exact ⟨i, _, rfl, rfl⟩
  · rw [SymbolicSys.deserialize] at h
    cases hs : S.toSemId spec with
    | none => rw [hs] at h; simp at h
    | some i =>
      rw [hs] at h
      cases hw : deserialize (S.env E) fuel i bs <;> simp [hw, Out.mapErr] at h
      subst h
      exact ⟨i, _, rfl, rfl⟩

/-- **C99, what holds**: two typed values read by a system, from any bytes and as any types, are the same, value and
type, if they have the same text; provided their strings contain no quotation mark. Missing: strings with quotation
marks, and values which were not read (`C99_told_violated`). -/
theorem C99_told_partial (id : Id32 → Bytes) (hid : ∀ i, idText (id i) = true) (hinj : ∀ i j, id i = id j → i = j)
    (S : SymbolicSys) (E : Env) (hE : (S.env E).Sane) (hsm : (S.env E).SmallStrings) (f g : Nat) (p q : TypeSpec)
    (bs bs' rest rest' : Bytes) (s t : TypedVal) (hs : S.read E f p bs = .ok (s, rest))
    (ht : S.read E g q bs' = .ok (t, rest')) (qs : s.val.QuoteFree) (qt : t.val.QuoteFree)
    (h : s.text id = t.text id) : s = t := by
  have inv : ∀ {f p bs s rest}, S.read E f p bs = .ok (s, rest) →
      ∃ i v, read (S.env E) f i bs = .ok (v, rest) ∧ s = .unnamed i v := by
    intro f p bs s rest h
    rw [SymbolicSys.read] at h
    cases hs : S.toSemId p with
    | none => rw [hs] at h; simp at h
    | some i =>
      rw [hs] at h
      cases hw : read (S.env E) f i bs <;> simp [hw, Out.mapErr] at h
      obtain ⟨rfl, rfl⟩ := h
      exact ⟨i, _, hw, rfl⟩
  obtain ⟨i, v, hv, rfl⟩ := inv hs
  obtain ⟨j, w, hw, rfl⟩ := inv ht
  obtain ⟨h1, -, h3⟩ := C99_type_told id hid hinj _ _ h
  have hij : i = j := h3 rfl
  subst hij
  rw [C52_decoded_partial (S.env E) hE hsm i f g bs bs' rest rest' v w hv hw qs qt h1]

/-- A system with the types of the example system, one of them named. -/
def exNamedSys : SymbolicSys := ⟨⟨[], [⟨Id32.rep 14, some ⟨n!"Lib", n!"Pair"⟩⟩]⟩, exSys⟩

/-- The hypotheses are met: a structure asked by its name. -/
example : (∀ i, idText (exIdText b!"semid:id-" i) = true) ∧
    (∀ i j, exIdText b!"semid:id-" i = exIdText b!"semid:id-" j → i = j) ∧ (exNamedSys.env (exE true)).Sane ∧
    (exNamedSys.env (exE true)).SmallStrings ∧
    exNamedSys.read (exE true) 5 (.fqn ⟨n!"Lib", n!"Pair"⟩) exBytes = .ok (⟨⟨Id32.rep 14, none⟩, exVal⟩, []) :=
  ⟨exIdText_id (by decide) (by decide) (by decide), exIdText_inj _, exE_sane true,
    (Supported.small (exE_sane true) (exE_supported true)).1, rfl⟩

/-- **C99 is violated**: what `typify` returns for one type may have the same text though it is not the same: an absent
option given by its tag and one given by its name; and lists of a fixed length, whose items are not looked at. -/
theorem C99_told_violated (id : Id32 → Bytes) (debug : Bool) (fuel : Nat) :
    (∃ v w s t, exNamedSys.typify (exE debug) (fuel + 2) v (.semId (Id32.rep 9)) = .ok s ∧
      exNamedSys.typify (exE debug) (fuel + 2) w (.semId (Id32.rep 9)) = .ok t ∧ s.val ≠ t.val ∧ s.text id = t.text id) ∧
    (∃ v w s t, exNamedSys.typify (exE debug) (fuel + 1) v (.semId (Id32.rep 8)) = .ok s ∧
      exNamedSys.typify (exE debug) (fuel + 1) w (.semId (Id32.rep 8)) = .ok t ∧ s.val ≠ t.val ∧ s.text id = t.text id) := by
  refine ⟨⟨.union (.ord 0) .unit, .unit, ⟨⟨Id32.rep 9, none⟩, .union (.ord 0) .unit⟩, ⟨⟨Id32.rep 9, none⟩, .none⟩,
    ?_, ?_, ?_, ?_⟩,
    ⟨.list [.num (.uint 1)], .list [.num (.int 1)], ⟨⟨Id32.rep 8, none⟩, .list [.num (.uint 1)]⟩,
      ⟨⟨Id32.rep 8, none⟩, .list [.num (.int 1)]⟩, ?_, ?_, ?_, ?_⟩⟩
  · cases debug <;> rfl
  · cases debug <;> rfl
  · simp [Val.none]
  · rfl
  · cases debug <;> rfl
  · cases debug <;> rfl
  · simp
  · rfl

end Verif
