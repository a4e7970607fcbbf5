import Verif.Lemmas.Cut

/-!
# C109: data which is cut off, and data which goes on

What a reader says about data depends on the bytes it has taken, and on nothing that follows.
-/

namespace Verif

/-! ## C109 -/

/-- **C109, what follows**: unless reading comes to the end of the data, its outcome (the value, the error, the panic) does
not depend on what follows the bytes it has taken; the rest is left to whoever reads next. -/
theorem C109_follows (E : Env) (n : Nat) (id : SemId) (p : Bytes) :
    (∀ v r, read E n id p = .ok (v, r) → ∀ x, read E n id (p ++ x) = .ok (v, r ++ x)) ∧
    (∀ e, e ≠ .io → read E n id p = .err e → ∀ x, read E n id (p ++ x) = .err e) ∧
    (read E n id p = .panic → ∀ x, read E n id (p ++ x) = .panic) := by
  refine ⟨fun v r h x => ?_, fun e he h x => ?_, fun h x => ?_⟩
  · rcases blind_read E n id p x with h' | h'
    · rw [h'] at h; cases h
    · rw [h', h]; rfl
  · rcases blind_read E n id p x with h' | h'
    · rw [h'] at h; cases h; exact absurd rfl he
    · rw [h', h]; rfl
  · rcases blind_read E n id p x with h' | h'
    · rw [h'] at h; cases h
    · rw [h', h]; rfl

/-- **C109, cut data**: data of a value which is cut off, wherever, is refused with the error of the end of the data; it is
never taken for another value, and there is no panic. -/
theorem C109_cut (E : Env) (n : Nat) (id : SemId) (v : Val) (p x : Bytes) (hx : x ≠ [])
    (h : deserialize E n id (p ++ x) = .ok v) : deserialize E n id p = .err .io ∧ read E n id p = .err .io := by
  have key : read E n id p = .err .io := by
    obtain ⟨⟨w, r⟩, h1, h2⟩ := Out.bind_eq_ok.mp h
    rcases blind_read E n id p x with h' | h'
    · exact h'
    · rw [h1] at h'
      cases hp : read E n id p with
      | ok q =>
        rw [hp] at h'
        cases h'
        have hl : ¬ (q.2 ++ x).length = 0 := by
          rw [List.length_append]
          have := List.length_pos_iff.mpr hx
          omega
        dsimp only at h2
        rw [if_pos hl] at h2
        cases h2
      | _ => rw [hp] at h'; cases h'
  exact ⟨by simp only [deserialize, key]; rfl, key⟩

/-- **C109, data which goes on**: data of a value followed by anything is refused with the error saying so. -/
theorem C109_surplus (E : Env) (n : Nat) (id : SemId) (v : Val) (p x : Bytes) (hx : x ≠ [])
    (h : deserialize E n id p = .ok v) : deserialize E n id (p ++ x) = .err .notEntirelyConsumed := by
  obtain ⟨⟨w, r⟩, h1, -⟩ := Out.bind_eq_ok.mp h
  have h2 := (C109_follows E n id p).1 _ _ h1 x
  have hl : (r ++ x).length ≠ 0 := by
    rw [List.length_append]
    have := List.length_pos_iff.mpr hx
    omega
  simp only [deserialize, h2, Out.bind_ok, if_pos hl]

/-- **C109, spoilt data**: what is refused for any other reason than its end, or makes the reader panic, is refused or makes
it panic in the same way whatever follows; only the end of the data may be cured by more data. -/
theorem C109_spoilt (E : Env) (n : Nat) (id : SemId) (p : Bytes) (e : DErr) (he : e ≠ .io) (hc : e ≠ .notEntirelyConsumed)
    (h : deserialize E n id p = .err e) (x : Bytes) : deserialize E n id (p ++ x) = .err e := by
  cases hp : read E n id p with
  | ok q =>
    simp only [deserialize, hp, Out.bind_ok] at h
    split at h
    · cases h; exact absurd rfl hc
    · cases h
  | err d =>
    simp only [deserialize, hp] at h
    cases h
    simp only [deserialize, (C109_follows E n id p).2.1 e he hp x]
    rfl
  | panic => simp only [deserialize, hp] at h; cases h
  | diverge => simp only [deserialize, hp] at h; cases h

/-- **C109, streams**: values written one after another, for whichever types, are read back one after another. -/
theorem C109_streams (E : Env) (n m : Nat) (id id' : SemId) (v w : Val) (a b : Bytes) (ha : read E n id a = .ok (v, []))
    (hb : read E m id' b = .ok (w, [])) (rest : Bytes) : read E n id (a ++ (b ++ rest)) = .ok (v, b ++ rest) ∧
      read E m id' (b ++ rest) = .ok (w, rest) :=
  ⟨(C109_follows E n id a).1 _ _ ha _, (C109_follows E m id' b).1 _ _ hb _⟩

/-! ## Examples -/

example (debug : Bool) : deserialize (exE debug) 5 (Id32.rep 14) exBytes = .ok exVal := by cases debug <;> rfl

/-- A set of three numbers, cut after the second; a tag which is none, with and without more data. -/
example (debug : Bool) : deserialize (exE debug) 5 (Id32.rep 11) [3, 7, 9] = .err .io ∧
    deserialize (exE debug) 5 (Id32.rep 11) ([3, 7, 9] ++ [8]) = .ok (.set [.num (.uint 7), .num (.uint 9), .num (.uint 8)]) ∧
    deserialize (exE debug) 5 (Id32.rep 9) [2] = .err .enumTag ∧ deserialize (exE debug) 5 (Id32.rep 9) ([2] ++ [1, 65]) = .err .enumTag ∧
    deserialize (exE debug) 5 (SemId.unicodeChar toyHash) [] = .panic := by
  cases debug <;> exact ⟨rfl, rfl, rfl, rfl, rfl⟩

end Verif
