import Verif.Spec.Wire
import Verif.Lemmas.Wire
import Verif.Lemmas.WireApart
import Verif.Props.Codec

/-! # C103: the bytes of values are the strict encoding -/

namespace Verif

/-- **C103 is violated** for restricted strings declared with the largest 64-bit number of further characters: the encoding
is a number of eight bytes followed by the string. In builds without overflow checks it is written and expected with a number
of one byte, as the limit overflows. In other builds writing and reading panic. -/
theorem C103_violated : ∃ sys id, (exWith false sys).Sane ∧ ∃ v c, WellTyped (exWith false sys) v id ∧
    Wire (exWith false sys) v id c ∧ c.length = 9 ∧
    ∀ fuel, write (exWith false sys) (fuel + 1) v id = .ok [1, 65] ∧
      read (exWith false sys) (fuel + 1) id [1, 65] = .ok (v, []) ∧
      write (exWith true sys) (fuel + 1) v id = .panic ∧ read (exWith true sys) (fuel + 1) id c = .panic := by
  let V : List Variant := [⟨n!"a", 65⟩]
  have hV : CharVariants V := by
    intro v hv
    have : v = ⟨n!"a", 65⟩ := by simpa [V] using hv
    subst this
    decide
  have hr : ∀ debug, (exWith debug [(Id32.rep 1, .enum V), (Id32.rep 2, .list (Id32.rep 3) ⟨0, -1⟩), (Id32.rep 3, .enum V),
      (Id32.rep 4, .tuple [Id32.rep 1, Id32.rep 2])]).RString [Id32.rep 1, Id32.rep 2] V V ⟨0, -1⟩ := fun debug =>
    ⟨_, _, Id32.rep 3, rfl, rfl, hV, rfl, rfl, hV⟩
  refine ⟨[(Id32.rep 1, .enum V), (Id32.rep 2, .list (Id32.rep 3) ⟨0, -1⟩), (Id32.rep 3, .enum V),
    (Id32.rep 4, .tuple [Id32.rep 1, Id32.rep 2])], Id32.rep 4, Env.sane_of_saneB (by decide +kernel), .str [65],
    [1, 0, 0, 0, 0, 0, 0, 0, 65], ⟨1, _, rfl, ?_⟩, ⟨1, _, rfl, ?_⟩, rfl, fun fuel => ⟨rfl, rfl, rfl, rfl⟩⟩
  · exact .rstring (hr false) (by simp [CharOk, InAlphabet, V]) (by simp) (by simp [SizeOk])
  · exact .rstring (pre := [1, 0, 0, 0, 0, 0, 0, 0]) (hr false)
      ⟨by decide, number_iff.mpr (by decide)⟩

/-- **C103, what holds** (restricted strings declared for fewer than 2^64 characters): every well-typed value has exactly one
strict encoding; what is written for the value is this encoding, and the value is read from no other bytes. Missing: larger
restricted strings (`C103_violated`). That it is written, and that it is read from its encoding, is subject of C29. -/
theorem C103_encoding_partial (E : Env) (hs : E.Sane) (hb : E.BoundedTails) (v : Val) (id : SemId) (hv : WellTyped E v id) :
    ∃ c, Wire E v id c ∧ (∀ c', Wire E v id c' → c' = c) ∧ (∀ fuel bs, write E fuel v id = .ok bs → bs = c) ∧
      (∀ fuel bs rest, read E fuel id bs = .ok (v, rest) → bs = c ++ rest) := by
  obtain ⟨m, hv⟩ := hv
  obtain ⟨c, hc⟩ := wire_exists hs hb hv
  refine ⟨c, ⟨m, hc⟩, fun c' h => ?_, fun fuel bs h => ?_, fun fuel bs rest h => ?_⟩
  · obtain ⟨n, h⟩ := h
    exact wire_unique hs h hc
  · exact wire_unique hs (written_wire hs hb h hv) hc
  · obtain ⟨d, rfl, hd⟩ := read_wire hs hb h
    rw [wire_unique hs hd hc]

/-- Whatever is read, well-typed or not, was given in its strict encoding (restricted strings as before). -/
theorem C103_read_partial (E : Env) (hs : E.Sane) (hb : E.BoundedTails) (fuel : Nat) (id : SemId) (bs rest : Bytes) (v : Val)
    (h : read E fuel id bs = .ok (v, rest)) : ∃ c, bs = c ++ rest ∧ Wire E v id c := by
  obtain ⟨c, h1, h2⟩ := read_wire hs hb h
  exact ⟨c, h1, _, h2⟩

/-- No encoding is the beginning of another, for types of all kinds, also those which are not read: what follows in the data
does not matter, and different well-typed values never have the same bytes. -/
theorem C103_prefix_free (E : Env) (hs : E.Sane) (hz : E.SignedSizes) (v w : Val) (id : SemId) (hv : WellTyped E v id)
    (hw : WellTyped E w id) (a b r r' : Bytes) (ha : Wire E v id a) (hb : Wire E w id b) (h : a ++ r = b ++ r') :
    v = w ∧ a = b := by
  obtain ⟨n, hv⟩ := hv
  obtain ⟨m, hw⟩ := hw
  obtain ⟨k, ha⟩ := ha
  obtain ⟨l, hb⟩ := hb
  obtain ⟨h1, h2, -⟩ := wire_prefix hs hz hv hw ha hb h
  exact ⟨h1, h2⟩

/-- Variants given by their tag are written as those given by their name. -/
theorem C103_tags (E : Env) (hs : E.Sane) (id : SemId) (fuel : Nat) (n : Name) (t : Byte) :
    (∀ vs, E.find id = some (.enum vs) → ⟨n, t⟩ ∈ vs →
      write E (fuel + 1) (.enum (.ord t)) id = .ok [t] ∧ write E (fuel + 1) (.enum (.name n)) id = .ok [t]) ∧
    ∀ vs i v, E.find id = some (.union vs) → (⟨n, t⟩, i) ∈ vs →
      write E (fuel + 1) (.union (.ord t) v) id = write E (fuel + 1) (.union (.name n) v) id ∧
      ∀ bs, write E fuel v i = .ok bs → write E (fuel + 1) (.union (.ord t) v) id = .ok (t :: bs) := by
  refine ⟨fun vs hf hm => ?_, fun vs i v hf hm => ?_⟩
  · have hw : VariantsWF vs := hs.wf _ _ hf
    have h1 := (enumTagByName_iff hw n t).mpr hm
    have h2 : Ty.enumHasTag vs t = true := by simp only [Ty.enumHasTag, List.any_eq_true]; exact ⟨_, hm, by simp⟩
    constructor
    · cases hd : E.debug <;> simp [write, hs.typeOf hf, writeTy, writeEnum, Out.debugAssert, h2, hd]
    · simp [write, hs.typeOf hf, writeTy, writeEnum, h1, Out.expect]
  · have hw := hs.wf _ _ hf
    have h1 := (unionTyByTag_iff hw t i).mpr ⟨n, hm⟩
    have h2 := (unionByName_iff hw (⟨n, t⟩, i) n).mpr ⟨hm, rfl⟩
    refine ⟨by simp [write, hs.typeOf hf, writeTy, writeUnion, h1, h2, Out.expect], fun bs hb => ?_⟩
    simp [write, hs.typeOf hf, writeTy, writeUnion, h1, hb, Out.expect]

example (debug : Bool) : (exE debug).find (Id32.rep 9) = some (.union [(⟨n!"none", 0⟩, SemId.unit toyHash), (⟨n!"some", 1⟩, Id32.rep 5)]) ∧
    write (exE debug) 2 (.union (.ord 0) .unit) (Id32.rep 9) = .ok [0] := by
  cases debug <;> exact ⟨by decide +kernel, by decide +kernel⟩

theorem exE_signedSizes (debug : Bool) : (exE debug).SignedSizes := by
  refine ⟨fun n h1 h8 => ?_, fun p h1 h2 => ?_⟩
  · have : n = 1 ∨ n = 2 ∨ n = 3 ∨ n = 4 ∨ n = 5 ∨ n = 6 ∨ n = 7 ∨ n = 8 := by omega
    rcases this with rfl | rfl | rfl | rfl | rfl | rfl | rfl | rfl <;> rfl
  · have : 0 < p.toNat % 64 := by omega
    show 0 < p.toNat % 64 + _
    omega

theorem exE_boundedTails (debug : Bool) : (exE debug).BoundedTails := by
  intro id ids A C sz _ hr
  obtain ⟨a, b, c, -, -, -, hb, -⟩ := hr
  have hall : ∀ e ∈ exSys, ∀ i z, e.2 = .list i z → z.max.toNat < 2 ^ 64 - 1 := by
    intro e he i z h
    simp only [exSys, List.mem_cons, List.not_mem_nil, or_false] at he
    rcases he with rfl | rfl | rfl | rfl | rfl | rfl | rfl | rfl | rfl | rfl | rfl | rfl | rfl | rfl | rfl | rfl | rfl <;>
      first | (cases h; done) | (cases h; decide)
  exact hall _ (OMap.get_mem hb) _ _ rfl

example (debug : Bool) : (exE debug).Sane ∧ (exE debug).BoundedTails ∧ (exE debug).SignedSizes ∧ WellTyped (exE debug) exVal (Id32.rep 14) ∧
    write (exE debug) 5 exVal (Id32.rep 14) = .ok exBytes ∧ Wire (exE debug) exVal (Id32.rep 14) exBytes := by
  have h : write (exE debug) 5 exVal (Id32.rep 14) = .ok exBytes := by cases debug <;> rfl
  refine ⟨exE_sane debug, exE_boundedTails debug, exE_signedSizes debug, ⟨_, exVal_wellTyped debug⟩, h, ?_⟩
  obtain ⟨c, hc, -, hw, -⟩ := C103_encoding_partial _ (exE_sane debug) (exE_boundedTails debug) _ _ ⟨_, exVal_wellTyped debug⟩
  rw [hw _ _ h]
  exact hc

end Verif
