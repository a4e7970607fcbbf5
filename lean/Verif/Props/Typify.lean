import Verif.Props.Codec
import Verif.Lemmas.DecodedKept

/-!
# Properties C34 to C40 and C47: checking values against types
-/

namespace Verif

/-! ## C34 -/

/-- **C34 is violated**: a byte string shorter than the array is accepted, and so is a list of
anything. -/
theorem C34_bounds_violated (debug : Bool) (fuel : Nat) :
    typify (exE debug) (fuel + 1) (.bytes [1]) (Id32.rep 8) = .ok (.bytes [1]) ∧
    typify (exE debug) (fuel + 1) (.list []) (Id32.rep 8) = .ok (.list []) ∧
    (exE debug).find (Id32.rep 8) = some (.array (SemId.byte toyHash) 4) := by
  cases debug <;> exact ⟨rfl, rfl, rfl⟩

/-- **C34, what holds**: in the value returned by `typify`, at every depth, the number of items of
lists, sets and maps is within the declared bounds, and the number of items of an array does not
exceed its length. Missing: arrays can be shorter (`C34_bounds_violated`), and the payload of an
empty option given as the null value is not looked at, whatever its type. -/
theorem C34_bounds_partial (E : Env) (hs : E.Sane) (n : Nat) (v w : Val) (id : SemId)
    (h : typify E n v id = .ok w) (w' : Val) (id' : SemId) (hsub : Sub E w id w' id') :
    (∀ i sz, E.find id' = some (.list i sz) ∨ E.find id' = some (.set i sz) ∨
      (∃ k, E.find id' = some (.map k i sz)) →
      w' = .unit ∨ ∃ c, Counts w' c ∧ sz.min.toNat ≤ c ∧ c ≤ sz.max.toNat) ∧
    (∀ i len, E.find id' = some (.array i len) →
      w' = .unit ∨ ∃ c, Counts w' c ∧ c ≤ len.toNat) := by
  rcases sub_result hs h hsub with ⟨m, v', -, hm⟩ | hu
  · cases m with
    | zero => cases hm
    | succ m =>
      obtain ⟨t, ht, ho⟩ := typify_out hs hm
      refine ⟨fun i sz hf => Or.inr ?_, fun i len hf => Or.inr ?_⟩
      · rcases hf with hf | hf | ⟨k, hf⟩ <;> rw [hs.typeOf hf] at ht <;> cases ht <;> cases ho <;>
          rename_i hc <;> simp [Sizing.check] at hc
        all_goals first
          | exact ⟨_, .str _, hc⟩
          | exact ⟨_, .bytes _, hc⟩
          | exact ⟨_, .list _, hc⟩
          | exact ⟨_, .set _, hc⟩
          | exact ⟨_, .map _, hc⟩
          | skip
      · rw [hs.typeOf hf] at ht
        cases ht
        cases ho
        · exact ⟨_, .bytes _, by assumption⟩
        · exact ⟨_, .str _, by assumption⟩
        · exact ⟨_, .list _, by assumption⟩
  · exact ⟨fun _ _ _ => Or.inl hu, fun _ _ _ => Or.inl hu⟩

example : Sub (exE true) exVal (Id32.rep 14) (.set [.num (.uint 7), .num (.uint 9)]) (Id32.rep 11) ∧
    (exE true).find (Id32.rep 11) = some (.set exU8 ⟨1, 5⟩) ∧
    typify (exE true) 5 exVal (Id32.rep 14) = .ok exVal :=
  ⟨.step (.structField (n := n!"x") (i := Id32.rep 12)
    (v := .map [(.str [65, 66], .set [.num (.uint 7), .num (.uint 9)])]) rfl (by simp) (by simp))
    (.step (.mapValue (p := (.str [65, 66], .set [.num (.uint 7), .num (.uint 9)])) rfl (by simp))
      (.refl _ _)), rfl, rfl⟩

/-- **C34, arrays, partial**: how far they are out: for an array type every number of items up to the length is
accepted, as a list of anything, and no greater number is, in whatever form; what is accepted is not changed. So the
declared length is enforced exactly for arrays of no items. -/
theorem C34_arrays_partial (E : Env) (hs : E.Sane) (id i : SemId) (len : BitVec 16) (hf : E.find id = some (.array i len)) :
    (∀ c, (∃ n l w, l.length = c ∧ typify E n (.list l) id = .ok w) ↔ c ≤ len.toNat) ∧
    (∀ n v w, typify E n v id = .ok w → w = v ∧ ∃ c, Counts v c ∧ c ≤ len.toNat) ∧
    ((∀ n v w, typify E n v id = .ok w → Counts v len.toNat) ↔ len = 0) := by
  have hok : ∀ n v w, typify E n v id = .ok w → w = v ∧ ∃ c, Counts v c ∧ c ≤ len.toNat := by
    intro n v w h
    cases n with
    | zero => cases h
    | succ n =>
      simp only [typify, hs.typeOf hf, typifyTy, typifyArray] at h
      split at h
      · split at h
        · split at h
          · cases h
          · cases h
            exact ⟨rfl, _, .bytes _, by omega⟩
        · cases h
      · split at h
        · cases h
        · split at h
          · cases h
            exact ⟨rfl, _, .str _, by omega⟩
          · cases h
      · split at h
        · cases h
        · cases h
          exact ⟨rfl, _, .list _, by omega⟩
      · cases h
  have hlist : ∀ l : List Val, l.length ≤ len.toNat → typify E 1 (.list l) id = .ok (.list l) := by
    intro l hl
    simp only [typify, hs.typeOf hf, typifyTy, typifyArray]
    rw [if_neg (by omega)]
  refine ⟨fun c => ⟨?_, fun hc => ⟨1, List.replicate c .unit, _, List.length_replicate, hlist _ (by
    rw [List.length_replicate]; exact hc)⟩⟩, hok, fun h => ?_, ?_⟩
  · rintro ⟨n, l, w, rfl, h⟩
    obtain ⟨-, c, hc, hle⟩ := hok _ _ _ h
    cases hc
    exact hle
  · have := h 1 (.list []) _ (hlist [] (Nat.zero_le _))
    generalize hz : len.toNat = z at this
    cases this
    exact BitVec.eq_of_toNat_eq hz
  · rintro rfl n v w h
    obtain ⟨-, c, hc, hle⟩ := hok _ _ _ h
    have : c = 0 := Nat.le_zero.mp hle
    subst this
    exact hc

example : (exE true).Sane ∧ (exE true).find (Id32.rep 8) = some (.array (SemId.byte toyHash) 4) :=
  ⟨Env.sane_of_saneB (by decide +kernel), rfl⟩

/-! ## C35 -/

/-- **C35**: in the value returned by `typify`, at every depth, the items of sets and the keys of maps
are pairwise different. -/
theorem C35_distinct (E : Env) (hs : E.Sane) (n : Nat) (v w : Val) (id : SemId)
    (h : typify E n v id = .ok w) (w' : Val) (id' : SemId) (hsub : Sub E w id w' id') :
    (∀ l i sz, w' = .set l → E.find id' = some (.set i sz) →
      l.Pairwise fun a b => a.eqv b = false) ∧
    (∀ l k i sz, w' = .map l → E.find id' = some (.map k i sz) →
      (l.map Prod.fst).Pairwise fun a b => a.eqv b = false) := by
  rcases sub_result hs h hsub with ⟨m, v', -, hm⟩ | hu
  · cases m with
    | zero => cases hm
    | succ m =>
      obtain ⟨t, ht, ho⟩ := typify_out hs hm
      refine ⟨fun l i sz hw hf => ?_, fun l k i sz hw hf => ?_⟩
      · rw [hs.typeOf hf] at ht
        cases ht
        subst hw
        cases ho
        assumption
      · rw [hs.typeOf hf] at ht
        cases ht
        subst hw
        cases ho
        assumption
  · subst hu
    exact ⟨fun _ _ _ hw => by simp at hw, fun _ _ _ _ hw => by simp at hw⟩

/-- **C35, at the top**: a set or map value with two equal normalised items is rejected. -/
theorem C35_repeated_rejected (E : Env) (n : Nat) (id i : SemId) (sz : Sizing) (a b c : List Val)
    (x y x' y' : Val) (hu : id ≠ SemId.unit E.H)
    (hx : typify E n x i = .ok x') (hy : typify E n y i = .ok y') (he : x'.eqv y' = true)
    (hf : E.find id = some (.set i sz)) (w : Val) :
    typify E (n + 1) (.set (a ++ x :: b ++ y :: c)) id ≠ .ok w := by
  intro h
  simp only [typify, Env.typeOf, if_neg hu, hf, typifyTy, typifySet] at h
  split at h
  · cases h
  · obtain ⟨ws, hw, -⟩ := Out.bind_eq_ok.mp h
    have step : ∀ (l r acc : List Val) (ws : List Val),
        typifySetItems (typify E n) i (l ++ r) acc = .ok ws →
        ∃ acc', typifySetItems (typify E n) i r (acc ++ acc') = .ok ws := by
      intro l
      induction l with
      | nil => intro r acc ws h; exact ⟨[], by simpa using h⟩
      | cons v l ih =>
        intro r acc ws h
        obtain ⟨u, h1, h2⟩ := Out.bind_eq_ok.mp h
        split at h2
        · cases h2
        · obtain ⟨acc', h3⟩ := ih _ _ _ h2
          exact ⟨u :: acc', by simpa using h3⟩
    rw [List.append_assoc] at hw
    obtain ⟨acc₁, h1⟩ := step a _ _ _ hw
    simp only [List.cons_append, typifySetItems, hx, Out.bind_ok] at h1
    split at h1
    · cases h1
    · obtain ⟨acc₂, h2⟩ := step b _ _ _ h1
      simp only [typifySetItems, hy, Out.bind_ok] at h2
      rw [if_pos] at h2
      · cases h2
      · simp [he]

example (debug : Bool) : typify (exE debug) 3 (.set [.num (.uint 7), .num (.uint 9), .num (.uint 7)])
    (Id32.rep 11) = .err .repeatedSetValue := by cases debug <;> rfl

/-! ## C36 -/

/-- **C36 is violated**: 256 is accepted for an 8-bit type, and is written as zero. -/
theorem C36_ranges_violated (debug : Bool) (fuel : Nat) :
    typify (exE debug) (fuel + 1) (.num (.uint 256)) exU8 = .ok (.num (.uint 256)) ∧
    write (exE debug) (fuel + 1) (.num (.uint 256)) exU8 = .ok [0] ∧
    read (exE debug) (fuel + 1) exU8 [0] = .ok (.num (.uint 0), []) := by
  cases debug <;> exact ⟨rfl, rfl, rfl⟩

/-- **C36, kinds of numbers**: a number is accepted for a primitive type exactly if the type is of
its kind, and is kept. Codes up to 16 are unsigned numbers of that many bytes, codes from 64 to 79
signed ones, for which also unsigned numbers below 2^63 are taken; the other codes below 64 and below
128 are the large unsigned and signed numbers. -/
theorem C36_kinds (E : Env) (hs : E.Sane) (fuel : Nat) (id : SemId) (p : Byte)
    (hf : E.find id = some (.primitive p)) (w : Val) :
    (∀ x, typify E (fuel + 1) (.num (.uint x)) id = .ok w ↔
      (p.toNat ≤ 16 ∧ w = .num (.uint x)) ∨
      (64 ≤ p.toNat ∧ p.toNat < 80 ∧ x.toNat < 2 ^ 63 ∧ w = .num (.int x))) ∧
    (∀ x, typify E (fuel + 1) (.num (.int x)) id = .ok w ↔
      64 ≤ p.toNat ∧ p.toNat < 80 ∧ w = .num (.int x)) ∧
    (∀ x, typify E (fuel + 1) (.num (.bigUint x)) id = .ok w ↔
      16 < p.toNat ∧ p.toNat < 64 ∧ w = .num (.bigUint x)) ∧
    (∀ x, typify E (fuel + 1) (.num (.bigInt x)) id = .ok w ↔
      80 ≤ p.toNat ∧ p.toNat < 128 ∧ w = .num (.bigInt x)) := by
  have ht := hs.typeOf hf
  refine ⟨fun x => ?_, fun x => ?_, fun x => ?_, fun x => ?_⟩
  · simp only [typify, ht, typifyTy, typifyPrim, isSmallUnsigned, isSmallSigned, decide_eq_true_eq,
      Bool.and_eq_true]
    by_cases h1 : p.toNat ≤ 16
    · rw [if_pos h1]
      constructor
      · intro h; cases h; exact Or.inl ⟨h1, rfl⟩
      · rintro (⟨-, rfl⟩ | ⟨h2, -⟩)
        · rfl
        · omega
    · rw [if_neg h1]
      by_cases h2 : (64 ≤ p.toNat ∧ p.toNat ≤ 79) ∧ x.toNat < 2 ^ 63
      · rw [if_pos h2]
        constructor
        · intro h; cases h; exact Or.inr ⟨h2.1.1, by omega, h2.2, rfl⟩
        · rintro (⟨h3, -⟩ | ⟨-, -, -, rfl⟩)
          · exact absurd h3 h1
          · rfl
      · rw [if_neg h2]
        constructor
        · intro h; cases h
        · rintro (⟨h3, -⟩ | ⟨h3, h4, h5, -⟩)
          · exact absurd h3 h1
          · exact absurd ⟨⟨h3, by omega⟩, h5⟩ h2
  all_goals
    simp only [typify, ht, typifyTy, typifyPrim, isSmallSigned, isLargeUnsigned, isLargeSigned,
      decide_eq_true_eq, Bool.and_eq_true]
    split
    · constructor
      · intro h; cases h; exact ⟨by omega, by omega, rfl⟩
      · rintro ⟨-, -, rfl⟩; rfl
    · constructor
      · intro h; cases h
      · rintro ⟨h1, h2, -⟩; omega

example (debug : Bool) (fuel : Nat) :
    typify (exE debug) (fuel + 1) (.num (.uint 7)) (Id32.rep 10) = .ok (.num (.int 7)) ∧
    typify (exE debug) (fuel + 1) (.num (.bigInt 7)) (Id32.rep 10) = .err .typeMismatch := by
  cases debug <;> exact ⟨rfl, rfl⟩

/-- **C36, what holds** (integer types up to 64 bits): `typify` does not change the number, the number
it accepts is written in as many bytes as the type has, and reading gives the same number back
exactly if it is in the range of the type, which is always the case for 64-bit types. Missing: the
range check itself for shorter types (`C36_ranges_violated`). -/
theorem C36_ranges_partial (E : Env) (hs : E.Sane) (fuel : Nat) (id : SemId) (p : Byte) (v : Val)
    (k : Num) (hf : E.find id = some (.primitive p)) (hp : ReadablePrim p) (h0 : p ≠ Ty.UNIT_CODE)
    (hb : p ≠ Ty.BYTE_CODE) (h : typify E (fuel + 1) v id = .ok (.num k)) :
    (∃ k', v = .num k' ∧ k'.value = k.value) ∧
    (p = 8 ∨ p = 0x48 → k.Fits p) ∧
    ∃ bs, write E (fuel + 1) (.num k) id = .ok bs ∧ bs.length = E.primSize p ∧
      ∀ rest, read E (fuel + 1) id (bs ++ rest) = .ok (.num k, rest) ↔ k.Fits p := by
  have ht := hs.typeOf hf
  have h1 : (∃ k', v = .num k' ∧ k'.value = k.value) := by
    simp only [typify, ht, typifyTy] at h
    unfold typifyPrim at h
    split at h <;> (repeat' split at h) <;> cases h <;> try exact ⟨_, rfl, rfl⟩
    rename_i n _ hx
    refine ⟨_, rfl, ?_⟩
    simp only [Num.value]
    rw [BitVec.toInt_eq_toNat_of_lt (by omega)]
  obtain ⟨t, ht', ho⟩ := typify_out hs h
  rw [ht] at ht'
  cases ht'
  have rd : ∀ bs, read E (fuel + 1) id bs = readPrim p bs := fun bs => by
    simp only [read, hf, readTy]
  have wr : write E (fuel + 1) (.num k) id = writePrim E p (.num k) := by
    simp only [write, ht, writeTy]
  have hsz : E.primSize p ≤ 8 ∧ ((∃ x, k = .uint x ∧ p = BitVec.ofNat 8 p.toNat ∧ 1 ≤ p.toNat ∧
      p.toNat ≤ 8) ∨ ∃ x n, k = .int x ∧ p = BitVec.ofNat 8 (0x40 + n) ∧ 1 ≤ n ∧ n ≤ 8) := by
    have hne0 : p.toNat ≠ 0 := fun h => h0 (BitVec.eq_of_toNat_eq h)
    have hne1 : p.toNat ≠ 0x40 := fun h => hb (BitVec.eq_of_toNat_eq h)
    have he : p = BitVec.ofNat 8 p.toNat := by simp
    rcases Nat.lt_or_ge p.toNat 9 with hlt | hge
    · have h3 := hs.sizes p.toNat (by omega) (by omega)
      rw [← he] at h3
      refine ⟨by omega, Or.inl ?_⟩
      cases ho with
      | uint => exact ⟨_, rfl, he, by omega, by omega⟩
      | int hk => simp [isSmallSigned] at hk; omega
      | bigUint hk => simp [isLargeUnsigned] at hk; omega
      | bigInt hk => simp [isLargeSigned] at hk; omega
    · have hn : p.toNat - 0x40 = 1 ∨ p.toNat - 0x40 = 2 ∨ p.toNat - 0x40 = 4 ∨ p.toNat - 0x40 = 8 := by
        unfold ReadablePrim at hp; omega
      have he' : 0x40 + (p.toNat - 0x40) = p.toNat := by unfold ReadablePrim at hp; omega
      have h3 := hs.sizesI (p.toNat - 0x40) hn
      rw [he', ← he] at h3
      refine ⟨by omega, Or.inr ?_⟩
      cases ho with
      | uint hk => simp [isSmallUnsigned] at hk; omega
      | int hk => exact ⟨_, p.toNat - 0x40, rfl, by rw [he']; exact he, by omega, by omega⟩
      | bigUint hk => simp [isLargeUnsigned] at hk; omega
      | bigInt hk => simp [isLargeSigned] at hk; omega
  have iff : k.Fits p ↔ Inhabits E false (fun _ _ => False) (.num k) (.primitive p) := by
    unfold Num.Fits
    rcases hsz.2 with ⟨x, rfl, he, hl, hu⟩ | ⟨x, n, rfl, rfl, hl, hu⟩
    · rw [if_pos (by omega)]
      simp only [Num.value]
      constructor
      · rintro ⟨-, h⟩
        rw [he]
        exact .uint hl hu (Int.ofNat_lt.mp (by rw [Int.natCast_pow]; exact h))
      · intro h
        refine ⟨by omega, ?_⟩
        generalize hg : (Ty.primitive p : Ty SemId) = t at h
        cases h with
        | @uint m _ h1 h8 hx =>
          cases hg
          have : (BitVec.ofNat 8 m).toNat = m := by simp; omega
          rw [this]
          have := Int.ofNat_lt.mpr hx
          rw [Int.natCast_pow] at this
          exact this
        | byte hx => cases hg; exact absurd rfl hb
    · have hn : (BitVec.ofNat 8 (0x40 + n)).toNat = 0x40 + n := by simp; omega
      rw [if_neg (by omega), hn, Nat.add_sub_cancel_left]
      simp only [Num.value]
      constructor
      · rintro ⟨h1, h2⟩
        exact .int hl hu h1 h2
      · intro h
        generalize hg : (Ty.primitive (BitVec.ofNat 8 (0x40 + n)) : Ty SemId) = t at h
        cases h with
        | @int m _ h1 h8 ha hb =>
          have : (BitVec.ofNat 8 (0x40 + n)).toNat = (BitVec.ofNat 8 (0x40 + m)).toNat := by
            rw [Ty.primitive.inj hg]
          rw [hn, show (BitVec.ofNat 8 (0x40 + m)).toNat = 0x40 + m by simp; omega] at this
          have : n = m := by omega
          subst this
          exact ⟨ha, hb⟩
  have hw : ∃ x : Nat, writePrim E p (.num k) = .ok (le (E.primSize p) x) := by
    rcases hsz.2 with ⟨x, rfl, -⟩ | ⟨x, n, rfl, -⟩ <;>
      exact ⟨x.toNat, by simp [writePrim, leSlice, hsz.1]⟩
  obtain ⟨x, hw⟩ := hw
  refine ⟨h1, ?_, _, wr.trans hw, le_length _ _, fun rest => ?_⟩
  · rintro (rfl | rfl)
    · rcases hsz.2 with ⟨x, rfl, -⟩ | ⟨x, n, rfl, he, -, hn⟩
      · have := x.isLt
        simp only [Num.Fits, Num.value]
        rw [if_pos (by decide)]
        exact ⟨by omega, by show ((x.toNat : Int)) < 256 ^ 8; omega⟩
      · have := congrArg BitVec.toNat he
        simp at this
        omega
    · rcases hsz.2 with ⟨x, rfl, -, -, h⟩ | ⟨x, n, rfl, he, -, hn⟩
      · exact absurd h (by decide)
      · simp only [Num.Fits, Num.value]
        rw [if_neg (by decide)]
        have h1 := x.toInt_lt
        have h2 := x.le_toInt
        exact ⟨h2, h1⟩
  · rw [rd, iff]
    constructor
    · intro h
      exact (back_prim (D := True) hs h).1
    · intro h
      obtain ⟨bs, h2, h3⟩ := rt_prim hs hp h
      rw [hw] at h2
      cases h2
      exact h3 rest

example (debug : Bool) : (exE debug).Sane ∧ (exE debug).find (Id32.rep 10) = some (.primitive 0x42) ∧
    ReadablePrim 0x42 ∧
    typify (exE debug) 1 (.num (.uint 300)) (Id32.rep 10) = .ok (.num (.int 300)) ∧
    (Num.int 300).Fits 0x42 ∧ ¬ (Num.int 40000).Fits 0x42 := by
  refine ⟨exE_sane debug, rfl, by unfold ReadablePrim; decide, by cases debug <;> rfl, ?_, ?_⟩ <;>
    unfold Num.Fits <;> decide

/-! ## C37 -/

/-- **C37 is violated**: `typify` accepts values that serialisation panics on: strings for single
characters, strings for tuples, lists for arrays, structs with missing fields given as maps, numbers
for 128-bit types; and, with debug assertions, too short tuples given as lists and too short byte
arrays. -/
theorem C37_serialisable_violated (debug : Bool) (fuel : Nat) :
    (∃ v w, typify (exE debug) (fuel + 1) v (Id32.rep 3) = .ok w ∧
      write (exE debug) (fuel + 1) w (Id32.rep 3) = .panic) ∧
    (∃ v w, typify (exE debug) (fuel + 1) v (Id32.rep 13) = .ok w ∧
      write (exE debug) (fuel + 1) w (Id32.rep 13) = .panic) ∧
    (∃ v w, typify (exE debug) (fuel + 1) v (Id32.rep 8) = .ok w ∧
      write (exE debug) (fuel + 1) w (Id32.rep 8) = .panic) ∧
    (∃ v w o, typify (exE debug) (fuel + 1) v (Id32.rep 14) = .ok w ∧
      write (exE debug) (fuel + 1) w (Id32.rep 14) = o ∧ (o = .panic ∨ o = .err (.missingField n!"x"))) ∧
    (∃ sys id v w, let E := exWith debug sys; typify E (fuel + 1) v id = .ok w ∧
      write E (fuel + 1) w id = .panic ∧ E.find id = some (.primitive 16)) ∧
    (∃ v w, typify (exE true) (fuel + 2) v (Id32.rep 13) = .ok w ∧
      write (exE true) (fuel + 2) w (Id32.rep 13) = .panic) ∧
    (∃ v w, typify (exE true) (fuel + 1) v (Id32.rep 8) = .ok w ∧
      write (exE true) (fuel + 1) w (Id32.rep 8) = .panic) := by
  refine ⟨⟨.str [65], .str [65], ?_⟩, ⟨.str [65, 66], .str [65, 66], ?_⟩, ⟨.list [.unit], .list [.unit], ?_⟩,
    ⟨.map [], .struct [], ?_⟩,
    ⟨[(Id32.rep 1, .primitive 16)], Id32.rep 1, .num (.uint 1), .num (.uint 1), ?_⟩,
    ⟨.list [.num (.int 1)], .tuple [.num (.int 1)], rfl, rfl⟩, ⟨.bytes [1], .bytes [1], rfl, rfl⟩⟩
  · cases debug <;> exact ⟨rfl, rfl⟩
  · cases debug <;> exact ⟨rfl, rfl⟩
  · cases debug <;> exact ⟨rfl, rfl⟩
  · cases debug
    · exact ⟨.err (.missingField n!"x"), rfl, rfl, Or.inr rfl⟩
    · exact ⟨.panic, rfl, rfl, Or.inl rfl⟩
  · cases debug <;> exact ⟨rfl, rfl, rfl⟩

/-- **C37, what holds**: the value returned by `typify` is serialised, exactly if it has no part of the forms listed in
`Refused`; otherwise it is never serialised. Missing: these forms, see `C37_serialisable_violated`. -/
theorem C37_serialisable_partial (E : Env) (hs : E.Sane) (hu : E.primSize Ty.UNIT_CODE = 0) (n : Nat)
    (v w : Val) (id : SemId) (h : typify E n v id = .ok w) :
    ((∀ w' id', Sub E w id w' id' → ¬ Refused E w' id') → ∃ bs, write E (n + 1) w id = .ok bs) ∧
    (∀ w' id', Sub E w id w' id' → Refused E w' id' → ∀ m bs, write E m w id ≠ .ok bs) :=
  ⟨write_result hs (by omega) h, fun _ _ hsub hr => sub_refused (P := Returned E) hs
    (fun _ _ fs h he => returned_distinct hs fs h he) (fun _ _ _ _ h hp => returned_part hs h hp) (.inl ⟨n, v, h⟩) hsub hr⟩

/-- The value used below. -/
example (debug : Bool) : (exE debug).Sane ∧ (exE debug).primSize Ty.UNIT_CODE = 0 ∧
    typify (exE debug) 2 (.set [.num (.uint 7), .num (.uint 9)]) (Id32.rep 11) =
      .ok (.set [.num (.uint 7), .num (.uint 9)]) ∧
    ∀ w' id', Sub (exE debug) (.set [.num (.uint 7), .num (.uint 9)]) (Id32.rep 11) w' id' →
      ¬ Refused (exE debug) w' id' := by
  refine ⟨exE_sane debug, by cases debug <;> rfl, by cases debug <;> rfl, fun w' id' h => ?_⟩
  cases h with
  | refl => intro h; cases h
  | step h1 h2 =>
    cases h1 with
    | setItem hf hm =>
      cases hf
      have : ∀ x : BitVec 64, Sub (exE debug) (.num (.uint x)) exU8 w' id' →
          ¬ Refused (exE debug) w' id' := by
        intro x hx
        cases hx with
        | refl =>
          intro h
          cases h with
          | wideUint hf hl => cases hf; revert hl; cases debug <;> decide
        | step h1 => cases h1
      simp only [List.mem_cons, List.not_mem_nil, or_false] at hm
      rcases hm with rfl | rfl
      · exact this _ h2
      · exact this _ h2

/-! ## C38 -/

/-- **C38 is violated**: a tuple given as a short list and a struct given as a map without all fields
are accepted, but their results are not accepted again. -/
theorem C38_idempotent_violated (debug : Bool) (fuel : Nat) :
    (∃ v w, typify (exE debug) (fuel + 2) v (Id32.rep 13) = .ok w ∧
      typify (exE debug) (fuel + 2) w (Id32.rep 13) = .err .fieldNumberMismatch) ∧
    (∃ v w, typify (exE debug) (fuel + 2) v (Id32.rep 14) = .ok w ∧
      typify (exE debug) (fuel + 2) w (Id32.rep 14) = .err .fieldNumberMismatch) := by
  refine ⟨⟨.list [.num (.int 1)], .tuple [.num (.int 1)], ?_⟩,
    ⟨.map [(.str [122], .bytes [])], .struct [(n!"z", .bytes [])], ?_⟩⟩ <;>
    cases debug <;> exact ⟨rfl, rfl⟩

/-- **C38, what holds**: typifying the value returned by `typify` returns it unchanged, exactly if it has no incomplete
tuple or struct in it, and no empty option whose type carries data. Missing: these, see `C38_idempotent_violated`. -/
theorem C38_idempotent_partial (E : Env) (hs : E.Sane) (n : Nat) (v w : Val) (id : SemId)
    (h : typify E n v id = .ok w) :
    ((∀ w' id', Sub E w id w' id' → ¬ Incomplete E w' id') → ∀ m, n < m → typify E m w id = .ok w) ∧
    (∀ w' id', Sub E w id w' id' → Incomplete E w' id' → ∀ m, typify E m w id ≠ .ok w) :=
  ⟨fun hc _ hm => typify_mono hm (typify_again hs h hc),
    fun _ _ hsub hi m => incomplete_changed hs hsub (.inl ⟨n, v, h⟩) hi m⟩

example (debug : Bool) : (exE debug).Sane ∧
    typify (exE debug) 3 (.list [.num (.uint 1), .unit]) (Id32.rep 13) =
      .ok (.tuple [.num (.int 1), .none]) ∧
    ∀ w' id', Sub (exE debug) (.tuple [.num (.int 1), .none]) (Id32.rep 13) w' id' →
      ¬ Incomplete (exE debug) w' id' := by
  refine ⟨exE_sane debug, by cases debug <;> rfl, fun w' id' h => ?_⟩
  cases h with
  | refl =>
    intro h
    cases h with
    | shortTuple hf hl => cases hf; exact absurd hl (by decide)
  | step h1 h2 =>
    cases h1 with
    | @tupleField _ i ids l v k hf hv hi =>
      cases hf
      match k with
      | 0 =>
        simp at hv hi
        subst hv hi
        cases h2 with
        | refl => intro h; cases h
        | step h1 => cases h1
      | 1 =>
        simp at hv hi
        subst hv hi
        cases h2 with
        | refl =>
          intro h
          cases h with
          | fullNone hf hn => cases hf; exact hn (by cases debug <;> rfl)
        | step h1 h2 =>
          cases h1 with
          | byName hf hm =>
            cases hf
            cases h2 with
            | refl => intro h; cases h
            | step h1 => cases h1
      | k + 2 => simp at hv

/-! ## C39 -/

/-- **C39 is violated**: decoded values are rejected when they break the declared bounds or repeat
items (which decoding accepts, see `C32_constraints_violated`), and a decoded raw byte is changed into
a signed number. -/
theorem C39_decoded_violated (debug : Bool) (fuel : Nat) :
    (∃ bs v, read (exE debug) (fuel + 2) (Id32.rep 11) bs = .ok (v, []) ∧
      typify (exE debug) (fuel + 2) v (Id32.rep 11) = .err .outOfBounds) ∧
    (∃ bs v, read (exE debug) (fuel + 2) (Id32.rep 11) bs = .ok (v, []) ∧
      typify (exE debug) (fuel + 2) v (Id32.rep 11) = .err .repeatedSetValue) ∧
    (∃ bs v w, read (exE debug) (fuel + 2) (SemId.byte toyHash) bs = .ok (v, []) ∧
      typify (exE debug) (fuel + 2) v (SemId.byte toyHash) = .ok w ∧ v ≠ w) := by
  refine ⟨⟨[0], .set [], ?_⟩, ⟨[2, 7, 7], .set [.num (.uint 7), .num (.uint 7)], ?_⟩,
    ⟨[7], .num (.uint 7), .num (.int 7), ?_⟩⟩
  · cases debug <;> exact ⟨rfl, rfl⟩
  · cases debug <;> exact ⟨rfl, rfl⟩
  · cases debug <;> exact ⟨rfl, rfl, by simp⟩

/-- **C39, what holds** (sane systems): a decoded value is left unchanged by `typify` exactly if no part of it breaks the
size bounds or repeats items or keys (`Unfit`), and no part is a raw byte (the only one of `Altered` which can be decoded).
Missing: values with such parts. -/
theorem C39_decoded_partial (E : Env) (hs : E.Sane) (n : Nat) (id : SemId) (bs rest : Bytes) (v : Val)
    (h : read E n id bs = .ok (v, rest)) :
    ((∀ w i, Sub E v id w i → ¬ Altered E w i ∧ ¬ Unfit E w i) → ∀ fuel, n ≤ fuel → typify E fuel v id = .ok v) ∧
    ∀ fuel, typify E fuel v id = .ok v → ∀ w i, Sub E v id w i → ¬ Altered E w i ∧ ¬ Unfit E w i :=
  ⟨fun ha _ hf => typify_mono hf (read_kept hs h ha), fun _ hk _ _ hsub => read_kept_only hs hsub ⟨n, bs, rest, h⟩ hk⟩

/-- **C39 for all values that keep the constraints of their types**, decoded or not: they are left unchanged by `typify`
exactly if no part is a raw byte, a number of more than 64 bits in one of the types which `typify` takes for smaller ones,
or a character of several bytes (`Altered`). -/
theorem C39_typed_partial (E : Env) (hs : E.Sane) (v : Val) (id : SemId) (h : WellTyped E v id) :
    ((∀ w i, Sub E v id w i → ¬ Altered E w i) → ∃ n, ∀ fuel, n ≤ fuel → typify E fuel v id = .ok v) ∧
    ∀ fuel, typify E fuel v id = .ok v → ∀ w i, Sub E v id w i → ¬ Altered E w i := by
  obtain ⟨n, h⟩ := h
  exact ⟨fun ha => ⟨n, fun fuel hf => typify_mono hf (typify_keeps hs h ha)⟩,
    fun fuel hf w i hw => typify_kept hs hw n h hf⟩

example (debug : Bool) : (exE debug).Sane ∧ WellTyped (exE debug) exVal (Id32.rep 14) ∧
    read (exE debug) 5 (Id32.rep 14) exBytes = .ok (exVal, []) ∧
    ∀ w i, Sub (exE debug) exVal (Id32.rep 14) w i → ¬ Altered (exE debug) w i ∧ ¬ Unfit (exE debug) w i :=
  have hr : read (exE debug) 5 (Id32.rep 14) exBytes = .ok (exVal, []) := by cases debug <;> rfl
  ⟨exE_sane debug, ⟨4, exVal_wellTyped debug⟩, hr,
    (C39_decoded_partial _ (exE_sane debug) _ _ _ _ _ hr).2 5 (by cases debug <;> rfl)⟩

/-! ## C40 -/

/-- **C40, typify**: a struct value (whose keys are distinct, being an `IndexMap`) is accepted for a
struct type only if its fields are exactly the declared ones. -/
theorem C40_exact_fields (E : Env) (n : Nat) (id : SemId) (req : List (Name × SemId))
    (fs : List (Name × Val)) (w : Val) (hu : id ≠ SemId.unit E.H)
    (hf : E.find id = some (.struct req)) (hn : (fs.map Prod.fst).Nodup)
    (h : typify E n (.struct fs) id = .ok w) (x : Name) :
    x ∈ fs.map Prod.fst ↔ x ∈ req.map Prod.fst := by
  cases n with
  | zero => cases h
  | succ n =>
    simp only [typify, Env.typeOf, if_neg hu, hf, typifyTy, typifyStruct] at h
    split at h
    · cases h
    · rename_i hl
      obtain ⟨new, h1, -⟩ := Out.bind_eq_ok.mp h
      have hsub := typifyFields_mem h1
      have hmem : ∀ y ∈ fs.map Prod.fst, y ∈ req.map Prod.fst := by
        intro y hy
        obtain ⟨f, hf, rfl⟩ := List.mem_map.mp hy
        exact hsub f hf
      refine ⟨hmem x, fun hx => ?_⟩
      apply Classical.byContradiction
      intro hne
      have := nodup_length_le (l := x :: fs.map Prod.fst) (m := req.map Prod.fst)
        (List.nodup_cons.mpr ⟨hne, hn⟩) (by
          intro y hy
          rcases List.mem_cons.mp hy with rfl | hy
          · exact hx
          · exact hmem y hy)
      simp at this
      omega

theorem imGet_iff {V : Type} {fs : List (Name × V)} (hn : (fs.map Prod.fst).Nodup) {n : Name} {v : V} :
    imGet fs n = some v ↔ (n, v) ∈ fs := by
  induction fs with
  | nil => simp [imGet]
  | cons f fs ih =>
    obtain ⟨m, u⟩ := f
    simp only [List.map_cons, List.nodup_cons] at hn
    by_cases hm : m = n
    · subst hm
      have : (m, v) ∉ fs := fun h => hn.1 (List.mem_map.mpr ⟨_, h, rfl⟩)
      simp [imGet, this, eq_comm]
    · have hb : (m == n) = false := beq_eq_false_iff_ne.mpr hm
      have := ih hn.2
      simp only [imGet, List.find?_cons, hb] at this ⊢
      rw [this]
      simp [Ne.symm hm]

/-- **C40, serialisation**: the bytes of a struct are the bytes of its fields in the order of the
declaration; in particular the order of the fields in the value does not matter. -/
theorem C40_declaration_order (E : Env) (n : Nat) (id : SemId) (req : List (Name × SemId))
    (fs : List (Name × Val)) (bs : Bytes) (hu : id ≠ SemId.unit E.H)
    (hf : E.find id = some (.struct req)) (hn : (fs.map Prod.fst).Nodup)
    (h : write E (n + 1) (.struct fs) id = .ok bs) :
    (∃ parts, bs = List.flatten parts ∧
      All2 (fun r b => ∃ v, (r.1, v) ∈ fs ∧ write E n v r.2 = .ok b) req parts) ∧
    ∀ fs', fs'.Perm fs → write E (n + 1) (.struct fs') id = .ok bs := by
  simp only [write, Env.typeOf, if_neg hu, hf, writeTy, writeStruct] at h ⊢
  obtain ⟨-, h0, h1⟩ := Out.bind_eq_ok.mp h
  constructor
  · clear hf h
    induction req generalizing bs with
    | nil => cases h1; exact ⟨[], rfl, trivial⟩
    | cons r req ih =>
      obtain ⟨m, i⟩ := r
      simp only [writeFields] at h1
      split at h1
      · cases h1
      · rename_i v hv
        obtain ⟨a, ha, h2⟩ := Out.bind_eq_ok.mp h1
        obtain ⟨b, hb, h3⟩ := Out.bind_eq_ok.mp h2
        cases h3
        obtain ⟨parts, rfl, hp⟩ := ih b hb
        exact ⟨a :: parts, rfl, ⟨v, (imGet_iff hn).mp hv, ha⟩, hp⟩
  · intro fs' hp
    have hn' : (fs'.map Prod.fst).Nodup := (hp.map Prod.fst).nodup_iff.mpr hn
    have hg : imGet fs' = imGet fs := by
      funext x
      apply Option.ext
      intro v
      rw [imGet_iff hn', imGet_iff hn, hp.mem_iff]
    have hw : ∀ req, writeFields (write E n) fs' req = writeFields (write E n) fs req := by
      intro req
      induction req with
      | nil => rfl
      | cons r req ih => simp only [writeFields, hg, ih]
    rw [hp.length_eq, hw]
    exact h

example (debug : Bool) : write (exE debug) 4 (.struct [(n!"z", .bytes [9]), (n!"y", .tuple [.num (.int 1), .none]),
    (n!"x", .map [])]) (Id32.rep 14) = .ok [0, 0, 1, 0, 0, 1, 9] ∧
    Id32.rep 14 ≠ SemId.unit toyHash ∧
    typify (exE debug) 4 (.struct [(n!"z", .bytes [9]), (n!"y", .tuple [.num (.int 1), .none]),
      (n!"w", .map [])]) (Id32.rep 14) = .err (.extraField n!"w") := by
  cases debug <;> exact ⟨rfl, by decide +kernel, rfl⟩

/-! ## C47, values -/

/-- **C47, values, is violated**: for optional types whose payload type is itself optional, a pair or
a union, a payload is not taken for the payload: the null value becomes the outer `none`, and pairs
and unions are rejected. -/
theorem C47_values_violated (debug : Bool) :
    ∃ sys opt₁ pay₁ opt₂ pay₂ opt₃ pay₃, let E := exWith debug sys; E.Sane ∧
      (E.find opt₁ = some (.union [(⟨n!"none", 0⟩, SemId.unit toyHash), (⟨n!"some", 1⟩, pay₁)]) ∧
        ∃ v w, ∀ fuel, typify E (fuel + 2) v pay₁ = .ok w ∧
          typify E (fuel + 3) v opt₁ = .ok (.union (.name n!"none") .unit)) ∧
      (E.find opt₂ = some (.union [(⟨n!"none", 0⟩, SemId.unit toyHash), (⟨n!"some", 1⟩, pay₂)]) ∧
        ∃ v w, ∀ fuel, typify E (fuel + 2) v pay₂ = .ok w ∧
          typify E (fuel + 3) v opt₂ = .err .invalidOptional) ∧
      (E.find opt₃ = some (.union [(⟨n!"none", 0⟩, SemId.unit toyHash), (⟨n!"some", 1⟩, pay₃)]) ∧
        ∃ v w, ∀ fuel, typify E (fuel + 2) v pay₃ = .ok w ∧
          typify E (fuel + 3) v opt₃ = .err .unionTagInvalid) := by
  refine ⟨[(SemId.unit toyHash, Ty.UNIT),
      (Id32.rep 2, .primitive 2),
      (Id32.rep 3, .union [(⟨n!"none", 0⟩, SemId.unit toyHash), (⟨n!"some", 1⟩, Id32.rep 2)]),
      (Id32.rep 4, .union [(⟨n!"none", 0⟩, SemId.unit toyHash), (⟨n!"some", 1⟩, Id32.rep 3)]),
      (Id32.rep 5, .tuple [Id32.rep 2, Id32.rep 2]),
      (Id32.rep 6, .union [(⟨n!"none", 0⟩, SemId.unit toyHash), (⟨n!"some", 1⟩, Id32.rep 5)]),
      (Id32.rep 7, .union [(⟨n!"a", 0⟩, Id32.rep 2), (⟨n!"b", 1⟩, Id32.rep 2)]),
      (Id32.rep 8, .union [(⟨n!"none", 0⟩, SemId.unit toyHash), (⟨n!"some", 1⟩, Id32.rep 7)])],
    Id32.rep 4, Id32.rep 3, Id32.rep 6, Id32.rep 5, Id32.rep 8, Id32.rep 7, ?_,
    ⟨rfl, .unit, .none, fun fuel => ?_⟩,
    ⟨rfl, .tuple [.num (.uint 1), .num (.uint 2)], .tuple [.num (.uint 1), .num (.uint 2)],
      fun fuel => ?_⟩,
    ⟨rfl, .union (.name n!"a") (.num (.uint 1)), .union (.name n!"a") (.num (.uint 1)),
      fun fuel => ?_⟩⟩
  · cases debug <;> exact Env.sane_of_saneB (by decide +kernel)
  all_goals cases debug <;> exact ⟨rfl, rfl⟩

theorem eqv_str {a : Val} {s : Bytes} : a.eqv (.str s) = true ↔ a = .str s := by
  cases a <;> simp [Val.eqv]

theorem eqv_unit {a : Val} : a.eqv .unit = true ↔ a = .unit := by
  cases a <;> simp [Val.eqv]

/-- **C47, values, what holds**, exactly: for an optional type the null value becomes `none`; any other value,
unless it is a union or a pair, becomes `some` of what it becomes for the payload type (with the same
error if it is rejected there); and so does a payload given explicitly as the pair of the string `some`
and the payload. Other pairs are `none` if they are the string `none` and null, and rejected otherwise. Unions must
have the name or the tag of `none` or `some`, which is kept, and a content of its type. Missing: hence null, pairs and
unions are not accepted as payloads (`C47_values_violated`). -/
theorem C47_values_partial (E : Env) (n : Nat) (id i s : SemId) (hu : id ≠ SemId.unit E.H)
    (hf : E.find id = some (.union [(⟨n!"none", 0⟩, i), (⟨n!"some", 1⟩, s)])) (v : Val) :
    typify E (n + 1) .unit id = .ok (.union (.name n!"none") .unit) ∧
    ((∀ t u, v ≠ .union t u) → (∀ a b, v ≠ .tuple [a, b]) → v ≠ .unit →
      typify E (n + 1) v id = typify E n v s >>= fun w => .ok (.union (.name n!"some") w)) ∧
    typify E (n + 1) (.tuple [.str [115, 111, 109, 101], v]) id =
      (typify E n v s >>= fun w => .ok (.union (.name n!"some") w)) ∧
    typify E (n + 1) (.tuple [.str [110, 111, 110, 101], .unit]) id = .ok (.union (.name n!"none") .unit) ∧
    (∀ a, a ≠ .str [115, 111, 109, 101] → ¬ (a = .str [110, 111, 110, 101] ∧ v = .unit) →
      typify E (n + 1) (.tuple [a, v]) id = .err .invalidOptional) ∧
    ∀ tag, typify E (n + 1) (.union tag v) id =
      if tag = .name n!"none" ∨ tag = .ord 0 then typify E n v i >>= fun w => .ok (.union tag w)
      else if tag = .name n!"some" ∨ tag = .ord 1 then typify E n v s >>= fun w => .ok (.union tag w)
      else .err .unionTagInvalid := by
  have ho : (Ty.union [((⟨n!"none", 0⟩ : Variant), i), (⟨n!"some", 1⟩, s)]).isOption = true := rfl
  have ht : Ty.unionTyByTag [((⟨n!"none", 0⟩ : Variant), i), (⟨n!"some", 1⟩, s)] 1 = some s := rfl
  simp only [typify, Env.typeOf, if_neg hu, hf, typifyTy]
  refine ⟨rfl, fun h1 h2 h3 => ?_, ?_, rfl, fun a ha hc => ?_, fun tag => ?_⟩
  · unfold typifyUnion
    split
    · exact absurd rfl (h1 _ _)
    · exact absurd rfl h3
    · exact absurd rfl (h2 _ _)
    · rw [if_pos ho]
      simp only [typifySome, ht]
      rfl
  · simp only [typifyUnion, ho, ht, if_true]
    have e1 : (Val.str [115, 111, 109, 101]).eqv (.str noneStr) = false := by decide
    have e2 : (Val.str [115, 111, 109, 101]).eqv (.str someStr) = true := by decide
    simp
    rfl
  · simp only [typifyUnion, ho, ht, if_true, Out.expect]
    have e2 : ¬ a.eqv (.str someStr) = true := fun h => ha (eqv_str.1 h)
    have e1 : ¬ (a.eqv (.str noneStr) && v.eqv .unit) = true := by
      rw [Bool.and_eq_true, eqv_str, eqv_unit]
      exact hc
    show (if (a.eqv (.str noneStr) && v.eqv .unit) = true then _ else if a.eqv (.str someStr) = true then _ else _) = _
    rw [if_neg e1, if_neg e2]
  · simp only [typifyUnion]
    cases tag with
    | name m =>
      by_cases h1 : m = n!"none"
      · subst h1; rfl
      · by_cases h2 : m = n!"some"
        · subst h2; rfl
        · simp [Ty.unionTyByName, h1, h2, Ne.symm h1, Ne.symm h2]
    | ord t =>
      by_cases h1 : t = 0
      · subst h1; rfl
      · by_cases h2 : t = 1
        · subst h2; rfl
        · have e1 : ((0 : Byte) == t) = false := by simpa using Ne.symm h1
          have e2 : ((1 : Byte) == t) = false := by simpa using Ne.symm h2
          simp only [Ty.unionTyByTag, List.find?, e1, e2, Option.map_none]
          rw [if_neg (by simpa using h1), if_neg (by simpa using h2)]

example (debug : Bool) : typify (exE debug) 3 (.str [65]) (Id32.rep 9) = .ok (.some (.str [65])) := by
  cases debug <;> rfl

end Verif
