import Verif.Lemmas.ReadFits
import Verif.Lemmas.Check
import Verif.Lemmas.Inj
import Verif.Lemmas.Total
import Verif.Lemmas.Fuel
import Verif.Lemmas.Refused
import Verif.Lemmas.Reading

/-!
# Properties C29, C30, C32, C33: serialisation and deserialisation of values
-/

namespace Verif

/-- The example environment with another type system. -/
def exWith (debug : Bool) (sys : TypeSystem) : Env := { exE debug with sys := sys }

/-! ## C29 -/

/-- **C29 is violated** for well-typed values of sane systems in four ways, in all builds: reading a
unicode character panics; writing an array of anything but bytes panics; a byte string declared for
4 GiB or more is read back as a list; reading an integer wider than 64 bits is not implemented. -/
theorem C29_round_trip_violated (debug : Bool) :
    (∃ sys id v bs, let E := exWith debug sys; E.Sane ∧ WellTyped E v id ∧
      ∀ fuel, write E (fuel + 1) v id = .ok bs ∧ read E (fuel + 1) id bs = .panic) ∧
    (∃ sys id v, let E := exWith debug sys; E.Sane ∧ WellTyped E v id ∧
      ∀ fuel, write E (fuel + 1) v id = .panic) ∧
    (∃ sys id v bs w, let E := exWith debug sys; E.Sane ∧ WellTyped E v id ∧ v ≠ w ∧
      ∀ fuel, write E (fuel + 1) v id = .ok bs ∧ read E (fuel + 1) id bs = .ok (w, [])) ∧
    (∃ sys id v bs, let E := exWith debug sys; E.Sane ∧ WellTyped E v id ∧
      ∀ fuel, write E (fuel + 1) v id = .ok bs ∧ read E (fuel + 1) id bs = .err .notImplemented) := by
  refine ⟨⟨[(SemId.unicodeChar toyHash, .unicodeChar)], SemId.unicodeChar toyHash, .str [65], [65],
      ?_, ⟨1, _, rfl, .unicodeChar (c := 65) ⟨by simp [Scalar], rfl⟩⟩, fun fuel => ?_⟩,
    ⟨[(Id32.rep 1, .primitive 2), (Id32.rep 2, .array (Id32.rep 1) 1)], Id32.rep 2,
      .list [.num (.uint 5)], ?_, ⟨2, _, rfl, .array (by cases debug <;> rfl) rfl ?_⟩, fun fuel => ?_⟩,
    ⟨[(SemId.byte toyHash, Ty.BYTE), (Id32.rep 2, .list (SemId.byte toyHash) ⟨0, 0x100000000⟩)],
      Id32.rep 2, .bytes [], [0, 0, 0, 0, 0, 0, 0, 0], .list [], ?_,
      ⟨1, _, rfl, .byteList (by cases debug <;> rfl) ⟨Nat.le_refl 0, Nat.zero_le _⟩⟩, by simp,
      fun fuel => ?_⟩,
    ⟨[(Id32.rep 1, .primitive 16)], Id32.rep 1, .num (.bigUint 0#1024),
      [0, 0, 0, 0, 0, 0, 0, 0, 0, 0, 0, 0, 0, 0, 0, 0], ?_,
      ⟨1, _, rfl, .bigUint (by decide) (by decide) ?_⟩, fun fuel => ?_⟩⟩
  · cases debug <;> exact Env.sane_of_saneB (by decide +kernel)
  · cases debug <;> exact ⟨rfl, rfl⟩
  · cases debug <;> exact Env.sane_of_saneB (by decide +kernel)
  · intro v hv
    have : v = .num (.uint 5) := by simpa using hv
    subst this
    exact ⟨_, rfl, .uint (n := 2) (by decide) (by decide) (by decide)⟩
  · cases debug <;> rfl
  · cases debug <;> exact Env.sane_of_saneB (by decide +kernel)
  · cases debug <;> exact ⟨rfl, rfl⟩
  · cases debug <;> exact Env.sane_of_saneB (by decide +kernel)
  · rw [BitVec.toNat_ofNat, Nat.zero_mod]
    cases debug <;> decide
  · have h : write (exWith debug [(Id32.rep 1, .primitive 16)]) (fuel + 1) (.num (.bigUint 0#1024))
        (Id32.rep 1) = leSlice 128 16 (0#1024).toNat := by
      cases debug <;> rfl
    rw [h, BitVec.toNat_ofNat, Nat.zero_mod]
    cases debug <;> exact ⟨rfl, rfl⟩

/-- **C29, what holds** (sane systems): a well-typed value is written, and reading the bytes followed by anything gives
the value back and leaves the rest, exactly if no part of it is of the forms listed in `Unread`: unicode characters
outside of strings, arrays of other types than bytes, integers wider than 64 bits, byte and unicode strings declared for
4 GiB or more, and lists of unbounded length in pairs. If one is, then no bytes are both written for the value and read
as it. Missing: these parts. -/
theorem C29_round_trip_partial (E : Env) (hs : E.Sane) (v : Val) (id : SemId) (h : WellTyped E v id) :
    ((∀ w i, Sub E v id w i → ¬ Unread E w i) → ∃ n bs, ∀ fuel, n ≤ fuel → write E fuel v id = .ok bs ∧
      ∀ rest, read E fuel id (bs ++ rest) = .ok (v, rest)) ∧
    ∀ w i, Sub E v id w i → Unread E w i → (∀ fuel bs, write E fuel v id ≠ .ok bs) ∨
      ∀ fuel bs rest, read E fuel id bs ≠ .ok (v, rest) := by
  obtain ⟨n, h⟩ := h
  refine ⟨fun hu => ?_, fun w i hw hu => sub_lost hs hw (unread_lost hs hu) n h⟩
  obtain ⟨bs, hw, hr⟩ := round_trip hs (Or.inl rfl) h hu
  exact ⟨n, bs, fun fuel hf => ⟨write_mono hf hw, fun rest => read_mono hf (hr rest)⟩⟩

/-- **C29, values in memory, what holds** (sane systems): a well-typed value without the parts listed in `Unread` is
serialised, if the bytes are as many as the limit admits or less; deserialising the bytes gives the value back, and with
anything appended to them is an error. Otherwise, serialising is an error. Missing: these parts. -/
theorem C29_serialised_partial (E : Env) (hs : E.Sane) (v : Val) (id : SemId) (h : WellTyped E v id)
    (hu : ∀ w i, Sub E v id w i → ¬ Unread E w i) :
    ∃ n bs, ∀ fuel, n ≤ fuel →
      (∀ max, bs.length ≤ max → serialize E fuel max v id = .ok bs) ∧
      (∀ max, max < bs.length → serialize E fuel max v id = .err .tooLarge) ∧
      deserialize E fuel id bs = .ok v ∧
      ∀ b rest, deserialize E fuel id (bs ++ b :: rest) = .err .notEntirelyConsumed := by
  obtain ⟨n, bs, h⟩ := (C29_round_trip_partial E hs v id h).1 hu
  refine ⟨n, bs, fun fuel hf => ?_⟩
  obtain ⟨hw, hr⟩ := h fuel hf
  have hr0 := hr []
  rw [List.append_nil] at hr0
  refine ⟨fun max hm => ?_, fun max hm => ?_, ?_, fun b rest => ?_⟩
  · simp only [serialize, hw, Out.mapErr, Out.bind_ok, if_pos hm]; rfl
  · simp only [serialize, hw, Out.mapErr, Out.bind_ok, if_neg (Nat.not_le.2 hm)]
  · simp [deserialize, hr0]
  · simp [deserialize, hr]

/-- **C29, unicode characters outside of strings**: a text is written as it is if it is one character; other texts are
stopped by debug builds only. Reading a character panics, whatever the bytes. -/
theorem C29_char_partial (E : Env) (hs : E.Sane) (id : SemId) (hf : E.find id = some .unicodeChar) (s : Bytes) (hu : Utf8 s)
    (fuel : Nat) :
    ((∃ c, IsText [c] s) ∨ E.debug = false → write E (fuel + 1) (.str s) id = .ok s) ∧
    ((¬ ∃ c, IsText [c] s) → E.debug = true → write E (fuel + 1) (.str s) id = .panic) ∧
    (∀ bs, read E (fuel + 1) id bs = .panic) := by
  have ht := hs.typeOf hf
  have hw : write E (fuel + 1) (.str s) id = (Out.debugAssert E.debug (charCount s == 1)).bind fun _ => pure s := by
    simp only [write, ht, writeTy]; rfl
  have hc : (∃ c, IsText [c] s) ↔ charCount s = 1 := by
    rw [char_iff, (utf8Valid_iff s).2 hu]; simp
  rw [hw, hc]
  refine ⟨?_, fun h hd => ?_, fun bs => ?_⟩
  · rintro (h | h) <;> simp [Out.debugAssert, h, Out.bind] <;> rfl
  · simp [Out.debugAssert, h, hd, Out.bind]
  · simp [read, hf, readTy]

/-- A character of two bytes. -/
example : Utf8 [0xC3, 0xA9] ∧ IsText [0xE9] [0xC3, 0xA9] :=
  ⟨⟨[0xE9], by simp [IsText, Scalar]; decide⟩, by simp [IsText, Scalar]; decide⟩

/-- The value of the example is well typed. -/
theorem exVal_wellTyped (debug : Bool) : HasTyN (exE debug) true 4 exVal (Id32.rep 14) := by
  have hA : CharVariants exAlphabet := by unfold CharVariants; decide
  have hr : (exE debug).RString [Id32.rep 3, Id32.rep 4] exAlphabet exAlphabet ⟨0, 10⟩ :=
    ⟨_, _, _, rfl, rfl, hA, rfl, rfl, hA⟩
  refine ⟨_, rfl, .struct ⟨⟨rfl, _, rfl, .map (show _ * (2 * 24) < _ by decide) (show _ ∧ _ by decide) ?_ ?_⟩,
    ⟨rfl, _, rfl, .tuple ?_ ⟨⟨_, rfl, ?_⟩, ⟨_, rfl, ?_⟩, trivial⟩⟩,
    ⟨rfl, _, rfl, .byteList ?_ (show _ ∧ _ by decide)⟩, trivial⟩⟩
  · intro p hp
    have : p = (.str [65, 66], .set [.num (.uint 7), .num (.uint 9)]) := by simpa using hp
    subst this
    refine ⟨⟨_, rfl, .rstring hr ⟨⟨n!"a", 65⟩, by decide, rfl⟩ ?_ (show _ ∧ _ by decide)⟩,
      ⟨_, rfl, .set (show _ * 24 < _ by decide) (show _ ∧ _ by decide) ?_ ?_⟩⟩
    · intro b hb
      have : b = 66 := by simpa using hb
      subst this
      exact ⟨⟨n!"b", 66⟩, by decide, rfl⟩
    · intro v hv
      have : v = .num (.uint 7) ∨ v = .num (.uint 9) := by simpa using hv
      rcases this with rfl | rfl <;>
        exact ⟨_, rfl, .uint (n := 1) (by decide) (by decide) (by decide)⟩
    · intro _
      simp [Val.eqv]
  · intro _
    simp
  · rintro A C sz ⟨a, b, c, he, ha, -⟩
    cases he
    cases ha
  · exact .int (n := 2) (by decide) (by decide) (by decide) (by decide)
  · refine .union (t := 1) (id := Id32.rep 5) (by decide) ⟨_, rfl, .rstring hr ⟨⟨n!"c", 67⟩, by decide, rfl⟩ ?_
      (show _ ∧ _ by decide)⟩
    simp
  · cases debug <;> rfl

example (debug : Bool) : (exE debug).Sane ∧ WellTyped (exE debug) exVal (Id32.rep 14) ∧
    ∀ w i, Sub (exE debug) exVal (Id32.rep 14) w i → ¬ Unread (exE debug) w i := by
  refine ⟨exE_sane debug, ⟨4, exVal_wellTyped debug⟩, fun w i h hu => ?_⟩
  rcases (C29_round_trip_partial _ (exE_sane debug) _ _ ⟨4, exVal_wellTyped debug⟩).2 w i h hu with h | h
  · exact h 5 exBytes (by cases debug <;> rfl)
  · exact h 5 exBytes [] (by cases debug <;> rfl)

/-! ## C30 -/

/-- **C30 is violated**: (1) the decoder reads arrays of anything but bytes, which the encoder
refuses with a panic; (2) in builds with debug assertions the decoder reads restricted strings
longer than their type allows, on which the encoder panics. -/
theorem C30_canonical_violated :
    (∀ debug, ∃ sys id v bs, let E := exWith debug sys; E.Sane ∧
      ∀ fuel, read E (fuel + 2) id bs = .ok (v, []) ∧ write E (fuel + 2) v id = .panic) ∧
    ∃ id v bs, ∀ fuel, read (exE true) (fuel + 1) id bs = .ok (v, []) ∧
      write (exE true) (fuel + 1) v id = .panic := by
  refine ⟨fun debug => ⟨[(Id32.rep 1, .primitive 2), (Id32.rep 2, .array (Id32.rep 1) 1)],
    Id32.rep 2, .list [.num (.uint 5)], [5, 0], ?_, fun fuel => ?_⟩,
    Id32.rep 5, .str (List.replicate 12 65), 12 :: List.replicate 12 65, fun fuel => ⟨rfl, rfl⟩⟩
  · cases debug <;> exact Env.sane_of_saneB (by decide +kernel)
  · cases debug <;> exact ⟨rfl, rfl⟩

/-- **C30, the second half**: equal values were read from equal bytes, in every sane system. -/
theorem C30_injective (E : Env) (hs : E.Sane) (fuel : Nat) (id : SemId) (bs₁ bs₂ r₁ r₂ : Bytes)
    (v : Val) (h₁ : read E fuel id bs₁ = .ok (v, r₁)) (h₂ : read E fuel id bs₂ = .ok (v, r₂)) :
    ∃ c, bs₁ = c ++ r₁ ∧ bs₂ = c ++ r₂ :=
  read_inj hs fuel id bs₁ bs₂ v r₁ r₂ h₁ h₂

/-- **C30, the first half, what holds**: writing a decoded value gives the bytes consumed, exactly if the value has no
part listed in `Overread`; otherwise it is never written. Missing: see `C30_canonical_violated`. -/
theorem C30_canonical_partial (E : Env) (hs : E.Sane) (fuel : Nat) (id : SemId) (bs rest : Bytes) (v : Val)
    (h : read E fuel id bs = .ok (v, rest)) :
    ((∀ w i, Sub E v id w i → ¬ Overread E w i) → ∃ c, bs = c ++ rest ∧ write E fuel v id = .ok c) ∧
    (∀ w i, Sub E v id w i → Overread E w i → ∀ n c, write E n v id ≠ .ok c) := by
  obtain ⟨c, hc, hw⟩ := read_back hs h
  exact ⟨fun hn => ⟨c, hc, hw hn⟩, fun w i hsub ho =>
    sub_refused (P := fun v id => ∃ n bs rest, read E n id bs = .ok (v, rest)) hs
      (fun _ _ fs h he => read_distinct hs fs h he) (fun _ _ _ _ h hp => read_part hs h hp) ⟨fuel, bs, rest, h⟩ hsub ho.refused⟩

/-- **C30, the first half, by type systems**: all values decoded with a system are written to the bytes consumed if its
arrays are arrays of bytes, and there are no debug assertions or restricted strings fill their length prefix. -/
theorem C30_systems_partial (E : Env) (hs : E.Sane) (ha : E.ByteArrays) (hd : E.debug = false ∨ E.TightRStrings)
    (fuel : Nat) (id : SemId) (bs rest : Bytes) (v : Val) (h : read E fuel id bs = .ok (v, rest)) :
    ∃ c, bs = c ++ rest ∧ write E fuel v id = .ok c := by
  refine (C30_canonical_partial E hs fuel id bs rest v h).1 fun w i hsub => ?_
  obtain ⟨n, b, r, hr⟩ := sub_keeps (P := fun v id => ∃ n bs rest, read E n id bs = .ok (v, rest))
    (fun _ _ _ _ h hp => read_part hs h hp) ⟨fuel, bs, rest, h⟩ hsub
  exact read_not_over ha hd hr

example : (exE false).Sane ∧ (exE false).ByteArrays ∧ (exE false).debug = false ∧
    read (exE false) 5 (Id32.rep 14) (exBytes ++ [9]) = .ok (exVal, [9]) :=
  ⟨exE_sane false, (Supported.small (exE_sane false) (exE_supported false)).2, rfl, rfl⟩

/-! ## C32 -/

/-- **C32 is violated**: the decoder accepts collections below the minimal and above the maximal size,
repeated items of sets, repeated keys of maps, and characters outside of the declared alphabet. -/
theorem C32_constraints_violated (debug : Bool) :
    ∃ bs₁ bs₂ bs₃ bs₄ bs₅ : Bytes, ∃ v₁ v₂ v₃ v₄ v₅ : Val, ∀ fuel, let E := exE debug
      (read E (fuel + 3) (Id32.rep 11) bs₁ = .ok (v₁, []) ∧ v₁ = .set []) ∧
      (read E (fuel + 3) (Id32.rep 4) bs₂ = .ok (v₂, []) ∧
        v₂ = .str (List.replicate 11 65)) ∧
      (read E (fuel + 3) (Id32.rep 11) bs₃ = .ok (v₃, []) ∧
        v₃ = .set [.num (.uint 7), .num (.uint 7)]) ∧
      (read E (fuel + 3) (Id32.rep 12) bs₄ = .ok (v₄, []) ∧
        v₄ = .map [(.str [65], .set []), (.str [65], .set [])]) ∧
      (read E (fuel + 3) (Id32.rep 5) bs₅ = .ok (v₅, []) ∧ v₅ = .str [90]) ∧
      ¬ WellTyped E v₁ (Id32.rep 11) ∧ ¬ WellTyped E v₂ (Id32.rep 4) ∧
      ¬ WellTyped E v₃ (Id32.rep 11) ∧ ¬ WellTyped E v₄ (Id32.rep 12) ∧
      ¬ WellTyped E v₅ (Id32.rep 5) := by
  refine ⟨[0], 11 :: List.replicate 11 65, [2, 7, 7], [2, 0, 1, 65, 0, 1, 65, 0], [1, 90],
    _, _, _, _, _, fun fuel => ⟨⟨?_, rfl⟩, ⟨?_, rfl⟩, ⟨?_, rfl⟩, ⟨?_, rfl⟩, ⟨?_, rfl⟩,
      ?_, ?_, ?_, ?_, ?_⟩⟩
  iterate 5 (cases debug <;> rfl)
  all_goals
    rintro ⟨n, h⟩
    cases n with
    | zero => exact h
    | succ n => ?_
    obtain ⟨t, ht, hi⟩ := h
    cases ht
  · cases hi with
    | set h1 h2 => exact absurd h2.1 (by decide)
  · cases hi with
    | asciiList h1 h2 h3 => exact absurd h3.2 (by decide)
    | unicodeList h1 h2 h3 => exact absurd h2 (by cases debug <;> decide +kernel)
  · cases hi with
    | set h1 h2 h3 h4 => exact absurd (h4 rfl) (by simp [Val.eqv])
  · cases hi with
    | map h1 h2 h3 h4 => exact absurd (h4 rfl) (by simp [Val.eqv])
  · cases hi with
    | rstring hr hc =>
      obtain ⟨a, b, c, he, ha, -⟩ := hr
      cases he
      cases ha
      obtain ⟨w, hw, ht⟩ := hc
      revert ht
      revert hw
      revert w
      decide

/-- **C32, what holds** (sane systems): a decoded value is well typed exactly if nothing in it, at any depth, is of the
forms listed in `Loose`: sizes outside of the declared bounds, repeated items of sets and keys of maps, characters outside
of the alphabet, and byte and unicode strings read item by item. Missing: these forms (`C32_constraints_violated`). -/
theorem C32_constraints_partial (E : Env) (hs : E.Sane) (fuel : Nat) (id : SemId) (bs rest : Bytes) (v : Val)
    (h : read E fuel id bs = .ok (v, rest)) :
    WellTyped E v id ↔ ∀ w i, Within E v id w i → ¬ Loose E w i :=
  ⟨fun ⟨_, ht⟩ _ _ hw => typed_within hs ht hw, fun hl => ⟨fuel, read_fits hs h hl⟩⟩

/-- A value without such forms, by its typing, and a set of too few items. -/
example : ((exE true).Sane ∧ read (exE true) 5 (Id32.rep 14) (exBytes ++ [9]) = .ok (exVal, [9]) ∧
      ∀ w i, Within (exE true) exVal (Id32.rep 14) w i → ¬ Loose (exE true) w i) ∧
    read (exE true) 5 (Id32.rep 11) [0] = .ok (.set [], []) ∧ Loose (exE true) (.set []) (Id32.rep 11) :=
  ⟨⟨exE_sane true, rfl, fun _ _ hw => typed_within (exE_sane true) (exVal_wellTyped true) hw⟩, rfl,
    .unfit (.setSize rfl (.set _) (.inl (by decide)))⟩

/-- **C32, what holds of all decoded values** (sane systems, strings below 4 GiB): they have the shape their types
declare: numbers in range, enum and union tags known, struct fields exactly those declared and in order, arrays and
tuples of the declared length; strings are ASCII or UTF-8; sizes are limited by the length prefix. Missing: sizes,
distinctness and alphabets (`C32_constraints_violated`). -/
theorem C32_shape_partial (E : Env) (hs : E.Sane) (hsm : E.SmallStrings) (fuel : Nat)
    (id : SemId) (bs rest : Bytes) (v : Val) (h : read E fuel id bs = .ok (v, rest)) :
    HasTyN E false fuel v id :=
  read_typed hs hsm h

example : read (exE true) 5 (Id32.rep 14) (exBytes ++ [9]) = .ok (exVal, [9]) := rfl

/-! ## C33 -/

/-- **C33 is violated**: reading a unicode character panics; reading a type of a cyclic system does
not terminate; an attacker-chosen length panics with a capacity overflow. -/
theorem C33_total_violated (debug : Bool) :
    (∃ sys id, let E := exWith debug sys; E.Sane ∧ ∀ fuel bs, read E (fuel + 1) id bs = .panic) ∧
    (∃ sys id, let E := exWith debug sys; E.Sane ∧ ∀ fuel, read E fuel id [] = .diverge) ∧
    (∃ sys id bs, let E := exWith debug sys; E.Sane ∧ ∀ fuel, read E (fuel + 1) id bs = .panic) := by
  refine ⟨⟨[(SemId.unicodeChar toyHash, .unicodeChar)], SemId.unicodeChar toyHash, ?_,
      fun fuel bs => ?_⟩,
    ⟨[(Id32.rep 1, .tuple [Id32.rep 1])], Id32.rep 1, ?_, fun fuel => ?_⟩,
    ⟨[(Id32.rep 1, .primitive 2), (Id32.rep 2, .list (Id32.rep 1) ⟨0, -1⟩)], Id32.rep 2,
      List.replicate 8 255, ?_, fun fuel => ?_⟩⟩
  · cases debug <;> exact Env.sane_of_saneB (by decide +kernel)
  · cases debug <;> rfl
  · cases debug <;> exact Env.sane_of_saneB (by decide +kernel)
  · induction fuel with
    | zero => rfl
    | succ n ih =>
      have : read (exWith debug [(Id32.rep 1, .tuple [Id32.rep 1])]) (n + 1) (Id32.rep 1) [] =
          (do
            let r ← readTuple (read (exWith debug [(Id32.rep 1, .tuple [Id32.rep 1])]) n)
              [Id32.rep 1] []
            pure (.tuple r.1, r.2)) := by
        cases debug <;> rfl
      rw [this]
      simp only [readTuple, ih]
      rfl
  · cases debug <;> exact Env.sane_of_saneB (by decide +kernel)
  · cases debug <;> rfl

/-- **C33, what holds** (systems without cycles, unicode characters in strings only, collections
with a length prefix of at most four bytes): reading returns a value or an error on all bytes; the
nesting of calls is bounded by the rank of the type. Missing: see `C33_total_violated`. -/
theorem C33_total_partial (E : Env) (rank : SemId → Nat) (hD : E.Decodable rank) (id : SemId)
    (hid : E.find id ≠ some .unicodeChar) (bs : Bytes) (fuel : Nat) (hf : rank id < fuel) :
    (read E fuel id bs).returned = true ∧ (deserialize E fuel id bs).returned = true := by
  have h := read_rets hD hf hid bs
  refine ⟨h, h.bind fun a _ => ?_⟩
  dsimp only
  split
  · exact .err
  · exact .ok

/-- **C33, exactly** (sane systems): reading panics on exactly the bytes on which it gets to a place listed in `Trap`,
and goes on for ever on exactly those on which it gets from place to place without end; on all other bytes it returns,
with a value or an error. The outcome does not depend on the fuel once there is enough of it. -/
theorem C33_outcomes_partial (E : Env) (hs : E.Sane) (id : SemId) (bs : Bytes) :
    ((∃ n, read E n id bs = .panic) ↔ ∃ id' bs', GetsTo E id bs id' bs' ∧ Trap E id' bs') ∧
    ((∀ n, read E n id bs = .diverge) ↔ ∃ f : Nat → SemId × Bytes, f 0 = (id, bs) ∧
      ∀ k, Next E (f k).1 (f k).2 (f (k + 1)).1 (f (k + 1)).2) ∧
    ((∃ n, (read E n id bs).returned = true) ↔
      (∀ id' bs', GetsTo E id bs id' bs' → ¬ Trap E id' bs') ∧
      ¬ ∃ f : Nat → SemId × Bytes, f 0 = (id, bs) ∧ ∀ k, Next E (f k).1 (f k).2 (f (k + 1)).1 (f (k + 1)).2) ∧
    ∀ n m, n ≤ m → read E n id bs ≠ .diverge →
      read E m id bs = read E n id bs ∧ deserialize E m id bs = deserialize E n id bs := by
  have hp : (∃ n, read E n id bs = .panic) ↔ ∃ id' bs', GetsTo E id bs id' bs' ∧ Trap E id' bs' :=
    ⟨fun ⟨_, h⟩ => read_panic hs h, fun ⟨_, _, h1, h2⟩ => meets_panic hs h1 h2⟩
  have hd : (∀ n, read E n id bs = .diverge) ↔ ∃ f : Nat → SemId × Bytes, f 0 = (id, bs) ∧
      ∀ k, Next E (f k).1 (f k).2 (f (k + 1)).1 (f (k + 1)).2 :=
    ⟨descent hs, fun ⟨f, h0, h⟩ n => by have := descent_diverge hs h n 0; rwa [h0] at this⟩
  refine ⟨hp, hd, ?_, fun n m h hne => ⟨read_mono_ne h hne, by
    unfold deserialize; rw [read_mono_ne h hne]⟩⟩
  rw [← hd]
  constructor
  · rintro ⟨n, hn⟩
    refine ⟨fun id' bs' h1 h2 => ?_, fun h => by rw [h n] at hn; cases hn⟩
    obtain ⟨m, hm⟩ := hp.mpr ⟨id', bs', h1, h2⟩
    have h3 := read_mono_ne (Nat.le_max_left n m) (fun h => by rw [h] at hn; cases hn)
    have h4 := read_mono_ne (Nat.le_max_right n m) (fun h => by rw [h] at hm; cases hm)
    rw [h4, hm] at h3
    rw [← h3] at hn
    cases hn
  · rintro ⟨h1, h2⟩
    obtain ⟨n, hn⟩ := Classical.not_forall.mp h2
    refine ⟨n, ?_⟩
    cases h : read E n id bs with
    | ok a => rfl
    | err e => rfl
    | panic =>
      obtain ⟨id', bs', h3, h4⟩ := hp.mp ⟨n, h⟩
      exact absurd h4 (h1 id' bs' h3)
    | diverge => exact absurd h hn

/-- A length without memory for it, in the second field. -/
def exTrap : TypeSystem := [(Id32.rep 1, .primitive 2), (Id32.rep 2, .list (Id32.rep 1) ⟨0, -1⟩),
  (Id32.rep 3, .tuple [Id32.rep 1, Id32.rep 2, Id32.rep 1])]

example : (exWith true exTrap).Sane ∧
    GetsTo (exWith true exTrap) (Id32.rep 3) ([7, 0] ++ List.replicate 8 255) (Id32.rep 2) (List.replicate 8 255) ∧
    Trap (exWith true exTrap) (Id32.rep 2) (List.replicate 8 255) ∧
    read (exWith true exTrap) 5 (Id32.rep 3) ([7, 0] ++ List.replicate 8 255) = .panic :=
  ⟨Env.sane_of_saneB (by decide +kernel),
    .step ⟨[Id32.rep 1], [Id32.rep 1], _, .tuple rfl (fun A C sz ⟨a, b, c, h, _⟩ => by cases h)
      (fun ⟨_, a, b, c, sz, h, _⟩ => by cases h), .cons (n := 1) rfl .nil⟩ .here,
    .list (r := Id32.rep 1) (sz := ⟨0, -1⟩) (n := 2 ^ 64 - 1) (rest := []) rfl
      ⟨fun C hC => (by cases hC.1), fun _ => by decide⟩ ⟨by decide, by decide +kernel⟩
      (by unfold InMemory; decide), rfl⟩

/-- Going round in circles, and bytes on which reading returns: none of the list. -/
example : (exWith true [(Id32.rep 1, .tuple [Id32.rep 1])]).Sane ∧
    Next (exWith true [(Id32.rep 1, .tuple [Id32.rep 1])]) (Id32.rep 1) [] (Id32.rep 1) [] ∧
    (read (exWith true exTrap) 5 (Id32.rep 3) ([7, 0] ++ List.replicate 8 0 ++ [1, 1])).returned = true :=
  ⟨Env.sane_of_saneB (by decide +kernel), ⟨[], [], [], .tuple rfl (fun A C sz ⟨a, b, c, h, _⟩ => by cases h)
    (fun ⟨_, a, b, c, sz, h, _⟩ => by cases h), .nil⟩, rfl⟩

/-- Rank of the types of the example system. -/
def exRank (id : SemId) : Nat := match exSys.findIdx? (fun p => p.1 == id) with
  | some n => n
  | none => 0

/-- Checks `Env.Decodable` by running over the types. -/
def Env.decodableB (E : Env) (rank : SemId → Nat) : Bool :=
  (E.sys.all fun p => (p.2.refs.all fun r => rank r < rank p.1) &&
    ((p.2.refs.all fun r => E.find r != some .unicodeChar) ||
      match p.2 with
      | .list i _ => i.isUnicodeChar E.H
      | _ => false) &&
    match p.2 with
    | .list _ sz => sz.min.toNat ≤ sz.max.toNat && decide (sz.max.toNat < 2 ^ 32)
    | .set _ sz | .map _ _ sz => decide (sz.max.toNat < 2 ^ 32)
    | _ => true) && decide (2 ^ 32 * (2 * E.valSize) < 2 ^ 63)

theorem Env.decodable_of_decodableB {E : Env} {rank : SemId → Nat} (h : E.decodableB rank = true) :
    E.Decodable rank := by
  unfold Env.decodableB at h
  simp only [Bool.and_eq_true, List.all_eq_true, decide_eq_true_eq, Bool.or_eq_true,
    bne_iff_ne] at h
  obtain ⟨h1, h2⟩ := h
  have hm : ∀ {id t}, E.find id = some t → (id, t) ∈ E.sys := fun h => OMap.get_mem h
  refine ⟨fun id t h => (h1 _ (hm h)).1.1, fun id t h => ?_, fun id i sz h => ?_,
    fun id i sz h => ?_, fun id k i sz h => ?_, h2⟩
  · rcases (h1 _ (hm h)).1.2 with h' | h'
    · exact Or.inl h'
    · cases t with
      | list i sz => exact Or.inr ⟨i, sz, rfl, h'⟩
      | _ => cases h'
  · simpa using (h1 _ (hm h)).2
  · simpa using (h1 _ (hm h)).2
  · simpa using (h1 _ (hm h)).2

example (debug : Bool) : (exE debug).Decodable exRank ∧
    (exE debug).find (Id32.rep 14) ≠ some .unicodeChar ∧ exRank (Id32.rep 14) < 20 := by
  cases debug <;>
    exact ⟨Env.decodable_of_decodableB (by decide +kernel), by decide +kernel, by decide +kernel⟩

end Verif
