import Verif.Lemmas.Confined
import Verif.Props.Wire

/-! # C111: data of a type is as long as the type admits -/

namespace Verif

/-- Lists in lists, so many. -/
def nested : Nat → Val
  | 0 => .list []
  | n + 1 => .list [nested n]

/-- The type of lists of itself. -/
def exSelf : TypeSystem := [(Id32.rep 1, .list (Id32.rep 1) ⟨0, 255⟩)]

/-- **C111 is violated** by types which contain themselves: the system is sane, no collection may have more than 255 items,
and there is well-typed data of every length; so there is no maximum. -/
theorem C111_violated (debug : Bool) : ∃ sys id, (exWith debug sys).Sane ∧ (exWith debug sys).BoundedTails ∧
    (∀ m, ∃ v fuel bs, WellTyped (exWith debug sys) v id ∧ write (exWith debug sys) fuel v id = .ok bs ∧ m < bs.length) ∧
    ∀ lo hi, ¬ Span (exWith debug sys) true id lo hi := by
  have hs : (exWith debug exSelf).Sane := Env.sane_of_saneB (by cases debug <;> decide +kernel)
  have hb : (exWith debug exSelf).BoundedTails := by
    rintro id ids A C sz hf -
    exact absurd (OMap.get_mem hf) (by simp [exWith, exSelf])
  have hce : ∀ (debug : Bool) C, ¬ (exWith debug exSelf).CharEnum (Id32.rep 1) C := by
    rintro debug C ⟨h, -⟩
    cases h
  have hmem : ∀ v : Val, InMemory (exWith debug exSelf).valSize [v].length := fun v => by
    show 1 * 24 < 2 ^ 63; decide
  have ht : ∀ m, HasTyN (exWith debug exSelf) true (m + 1) (nested m) (Id32.rep 1) := fun m => by
    induction m with
    | zero =>
      exact ⟨_, rfl, .list (by cases debug <;> rfl) (by cases debug <;> rfl) (hce debug) (by unfold InMemory; cases debug <;> decide) (show _ ∧ _ by decide) (by simp)⟩
    | succ m ih =>
      exact ⟨_, rfl, .list (by cases debug <;> rfl) (by cases debug <;> rfl) (hce debug) (hmem _) (show 0 ≤ 1 ∧ 1 ≤ 255 by decide)
        (by simpa using ih)⟩
  have hw : ∀ m, ∃ bs, write (exWith debug exSelf) (m + 1) (nested m) (Id32.rep 1) = .ok bs ∧ bs.length = m + 1 := fun m => by
    induction m with
    | zero => exact ⟨[0], by cases debug <;> rfl, rfl⟩
    | succ m ih =>
      obtain ⟨bs, h, hl⟩ := ih
      refine ⟨1 :: bs, ?_, by simp [hl]⟩
      rw [write, hs.typeOf (show (exWith debug exSelf).find (Id32.rep 1) = _ from rfl)]
      simp only [writeTy, nested, writeList, writeItems, h, Out.bind_ok, Out.pure_eq, List.append_nil]
      rfl
  have h : ∀ m, ∃ v fuel bs, WellTyped (exWith debug exSelf) v (Id32.rep 1) ∧
      write (exWith debug exSelf) fuel v (Id32.rep 1) = .ok bs ∧ m < bs.length := fun m => by
    obtain ⟨bs, h, hl⟩ := hw m
    exact ⟨_, _, bs, ⟨_, ht m⟩, h, by omega⟩
  refine ⟨exSelf, Id32.rep 1, hs, hb, h, fun lo hi ⟨n, hr⟩ => ?_⟩
  obtain ⟨v, fuel, bs, ⟨j, hv⟩, hwr, hlt⟩ := h hi
  have := span_wire hs hv (written_wire hs hb hwr hv) hr
  omega

/-- **C111 is violated** by the decoder: bytes which are longer than any value of the type are read, up to the length the
prefix can express. -/
theorem C111_read_violated (debug : Bool) : ∃ sys id lo hi, (exWith debug sys).Sane ∧ Span (exWith debug sys) true id lo hi ∧
    ∃ v bs, read (exWith debug sys) 5 id bs = .ok (v, []) ∧ hi < bs.length := by
  refine ⟨[(Id32.rep 1, .set (Id32.rep 2) ⟨0, 2⟩), (Id32.rep 2, Ty.U8)], Id32.rep 1, 1, 3,
    Env.sane_of_saneB (by cases debug <;> decide +kernel), ⟨2, _, rfl, ?_⟩, _, [3, 1, 2, 3], by cases debug <;> rfl, by decide⟩
  exact .set (lo := 1) (hi := 1) ⟨_, rfl, .primitive (by decide)⟩

/-- **C111 for what is written, partial** (sane systems; restricted strings of less than `2 ^ 64 - 1` characters after the
first): the bytes of a well-typed value are as many as its type declares: not fewer than the least number, not more than the
largest. Missing: types which contain themselves have no such numbers (`C111_violated`). -/
theorem C111_written_partial (E : Env) (hs : E.Sane) (hb : E.BoundedTails) (id : SemId) (lo hi : Nat) (h : Span E true id lo hi)
    (v : Val) (hv : WellTyped E v id) (fuel : Nat) (bs : Bytes) (hw : write E fuel v id = .ok bs) :
    lo ≤ bs.length ∧ bs.length ≤ hi := by
  obtain ⟨n, h⟩ := h
  obtain ⟨m, hv⟩ := hv
  exact span_wire hs hv (written_wire hs hb hw hv) h

/-- **C111 for what is read, partial** (also strings declared for less than 4 GiB): whatever the bytes are, no more are taken
than the lengths of the type can express, and no fewer than all its collections being empty. Missing: the declared sizes
(`C111_read_violated`). -/
theorem C111_read_partial (E : Env) (hs : E.Sane) (hb : E.BoundedTails) (hsm : E.SmallStrings) (id : SemId) (lo hi : Nat)
    (h : Span E false id lo hi) (fuel : Nat) (bs rest : Bytes) (v : Val) (hr : read E fuel id bs = .ok (v, rest)) :
    lo + rest.length ≤ bs.length ∧ bs.length ≤ hi + rest.length := by
  obtain ⟨n, h⟩ := h
  obtain ⟨c, rfl, hc⟩ := read_wire hs hb hr
  have := span_wire hs (C32_shape_partial E hs hsm fuel id _ rest v hr) hc h
  simp only [List.length_append]
  omega

/-- In systems without types containing themselves all types have a least and a largest number of bytes. -/
theorem C111_exists (E : Env) (hs : E.Sane) (rank : SemId → Nat)
    (hk : ∀ id t, E.find id = some t → ∀ r ∈ t.refs, rank r < rank id) (strict : Bool) (id : SemId) (t : Ty SemId)
    (hf : E.find id = some t) : ∃ lo hi, Span E strict id lo hi := by
  obtain ⟨lo, hi, h⟩ := span_exists (strict := strict) hs hk (Nat.lt_succ_self _) hf
  exact ⟨lo, hi, _, h⟩

/-- The numbers are determined by the type. -/
theorem C111_unique (E : Env) (strict : Bool) (id : SemId) (lo hi lo' hi' : Nat) (h : Span E strict id lo hi)
    (h' : Span E strict id lo' hi') : lo = lo' ∧ hi = hi' := by
  obtain ⟨_, h⟩ := h
  obtain ⟨_, h'⟩ := h'
  exact span_unique h h'

/-- **C111 for types of a fixed size, partial** (as `C111_written_partial`): all their values have equally long data; and what
is read of them is as long, since they have no collections whose length may vary. -/
theorem C111_fixed_partial (E : Env) (hs : E.Sane) (hb : E.BoundedTails) (hsm : E.SmallStrings) (id : SemId) (n : Nat) :
    (Span E true id n n → ∀ v, WellTyped E v id → ∀ fuel bs, write E fuel v id = .ok bs → bs.length = n) ∧
    (Span E false id n n → ∀ fuel bs rest v, read E fuel id bs = .ok (v, rest) → bs.length = n + rest.length) := by
  refine ⟨fun h v hv fuel bs hw => ?_, fun h fuel bs rest v hr => ?_⟩
  · have := C111_written_partial E hs hb id n n h v hv fuel bs hw
    omega
  · have := C111_read_partial E hs hb hsm id n n h fuel bs rest v hr
    omega

/-- The example: a map from restricted strings to sets of up to five numbers, with up to 300 entries. -/
theorem exE_span (debug : Bool) : Span (exE debug) true (Id32.rep 12) 2 5402 := by
  have hA : CharVariants exAlphabet := by unfold CharVariants; decide
  have hr : (exE debug).RString [Id32.rep 3, Id32.rep 4] exAlphabet exAlphabet ⟨0, 10⟩ := ⟨_, _, _, rfl, rfl, hA, rfl, rfl, hA⟩
  exact ⟨3, _, rfl, .map (lo := 2) (hi := 12) (lo' := 2) (hi' := 6) ⟨_, rfl, .rstring hr⟩
    ⟨_, rfl, .set (lo := 1) (hi := 1) ⟨_, rfl, .primitive (by decide)⟩⟩⟩

example (debug : Bool) : (exE debug).Sane ∧ (exE debug).BoundedTails ∧ Span (exE debug) true (Id32.rep 12) 2 5402 :=
  ⟨exE_sane debug, exE_boundedTails debug, exE_span debug⟩

/-- Four bytes are of a fixed size, written or read. -/
example (debug strict : Bool) : Span (exE debug) strict (Id32.rep 8) 4 4 :=
  ⟨2, _, rfl, .array (lo := 1) (hi := 1) ⟨_, rfl, .primitive (by decide)⟩⟩

/-- In the example system all types reference types before them. -/
example (debug : Bool) : ∀ id t, (exE debug).find id = some t → ∀ r ∈ t.refs,
    exSys.findIdx (fun e => e.1 = r) < exSys.findIdx (fun e => e.1 = id) := by
  intro id t hf
  have h : ∀ e ∈ exSys, ∀ r ∈ e.2.refs, exSys.findIdx (fun x => x.1 = r) < exSys.findIdx (fun x => x.1 = e.1) := by
    decide +kernel
  exact h _ (OMap.get_mem hf)

end Verif
