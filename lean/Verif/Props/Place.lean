import Verif.Lemmas.SwapWrite
import Verif.Props.Codec

/-! # C114: the data of a part is a part of the data -/

namespace Verif

/-- **C114 for reading**: whatever occurs in a value which has been read, at any depth, has been read from a piece of the data
which does not extend into the rest, and this piece alone, whatever follows it, gives the same part if it is read by its own type. -/
theorem C114_read (E : Env) (hs : E.Sane) (n : Nat) (a i : SemId) (bs rest : Bytes) (v w : Val)
    (h : read E n a bs = .ok (v, rest)) (hw : Inside E v a w i) :
    ∃ pre d post, bs = pre ++ (d ++ (post ++ rest)) ∧ (∀ x, read E n i (d ++ x) = .ok (w, x)) ∧ deserialize E n i d = .ok w := by
  obtain ⟨c, r, ⟨pre, h1⟩, ⟨post, h2⟩, h3⟩ := inside_place hs hw h
  obtain ⟨d, h4, h5, -⟩ := read_local E n i c w r h3
  refine ⟨pre, d, post, by rw [h2, ← h4, h1], h5, ?_⟩
  have h6 := h5 []
  rw [List.append_nil] at h6
  simp only [deserialize, h6, Out.bind_ok]
  rfl

/-- **C114 for writing**: the data of a well-typed value contains the data of whatever occurs in it, at any depth, as it is
written by its own type. -/
theorem C114_write (E : Env) (hs : E.Sane) (n : Nat) (a i : SemId) (bs : Bytes) (v w : Val) (hv : WellTyped E v a)
    (h : write E n v a = .ok bs) (hw : Inside E v a w i) :
    ∃ pre d post, bs = pre ++ (d ++ post) ∧ write E n w i = .ok d ∧ WellTyped E w i := by
  obtain ⟨k, hv⟩ := hv
  obtain ⟨⟨p, d, q, h1, h2⟩, h3⟩ := inside_written hs hw hv h
  exact ⟨p, d, q, h1, h2, h3⟩

/-- **C114 for replacing**: a part of a value which has been read is replaced by replacing its piece of the data, and nothing else,
by the data of another value of its type, whatever its length. -/
theorem C114_replace (E : Env) (hs : E.Sane) (n : Nat) (a i : SemId) (bs rest : Bytes) (v v' w w' : Val)
    (h : read E n a bs = .ok (v, rest)) (hw : Swap E a v v' i w w') :
    ∃ pre d post, bs = pre ++ (d ++ (post ++ rest)) ∧ deserialize E n i d = .ok w ∧
      ∀ m d', deserialize E m i d' = .ok w' → ∀ x, read E (n + m) a (pre ++ (d' ++ (post ++ x))) = .ok (v', x) := by
  obtain ⟨pre, d, post, h1, h2, h3⟩ := swap_read hs hw n bs rest h
  refine ⟨pre, d, post, h1, ?_, fun m d' hd x => h3 m d' (fun y => ?_) x⟩
  · have h6 := h2 []
    rw [List.append_nil] at h6
    simp only [deserialize, h6, Out.bind_ok]
    rfl
  · obtain ⟨⟨u, r⟩, h4, h5⟩ := Out.bind_eq_ok.mp hd
    dsimp only at h5
    split at h5
    · cases h5
    · rename_i hr
      cases h5
      cases List.eq_nil_of_length_eq_zero (by omega : r.length = 0)
      obtain ⟨c, h6, h7, -⟩ := read_local E m i d' w' [] h4
      rw [List.append_nil] at h6
      rw [h6]
      exact h7 y

/-- **C114 for replacing in values**: if a part of a well-typed value is replaced by another value of any form which is written, only
the piece of the part changes in the data. -/
theorem C114_rewrite (E : Env) (hs : E.Sane) (n : Nat) (a i : SemId) (bs : Bytes) (v v' w w' : Val) (hv : WellTyped E v a)
    (h : write E n v a = .ok bs) (hw : Swap E a v v' i w w') :
    ∃ pre d post, bs = pre ++ (d ++ post) ∧ write E n w i = .ok d ∧
      ∀ m d', write E m w' i = .ok d' → write E (n + m) v' a = .ok (pre ++ (d' ++ post)) := by
  obtain ⟨k, hv⟩ := hv
  exact swap_written hs hw k hv n bs h

/-! ## Examples -/

/-- A list of pairs of a byte and a character. -/
def exPairs : TypeSystem :=
  [(Id32.rep 1, Ty.U8), (Id32.rep 2, .enum exAlphabet), (Id32.rep 3, .struct [(n!"num", Id32.rep 1), (n!"chr", Id32.rep 2)]),
   (Id32.rep 4, .list (Id32.rep 3) ⟨0, 10⟩), (Id32.rep 5, .array (Id32.rep 4) 2)]

def exPairsVal : Val := .list [.struct [(n!"num", .num (.uint 7)), (n!"chr", .enum (.name n!"a"))],
  .struct [(n!"num", .num (.uint 8)), (n!"chr", .enum (.name n!"b"))]]

example (debug : Bool) : (exWith debug exPairs).Sane := Env.sane_of_saneB (by cases debug <;> decide +kernel)

example (debug : Bool) : read (exWith debug exPairs) 4 (Id32.rep 5) [2, 7, 65, 8, 66, 0, 9] = .ok (.list [exPairsVal, .list []], [9]) := by
  cases debug <;> rfl

example (debug : Bool) : Inside (exWith debug exPairs) (.list [exPairsVal, .list []]) (Id32.rep 5) (.enum (.name n!"b")) (Id32.rep 2) :=
  .step (.arrayItem (len := 2) rfl List.mem_cons_self) (.step (.part (.listItem (sz := ⟨0, 10⟩) rfl (List.mem_cons_of_mem _ List.mem_cons_self)))
    (.step (.part (.structField (n := n!"chr") rfl (List.mem_cons_of_mem _ List.mem_cons_self) (List.mem_cons_of_mem _ List.mem_cons_self)))
      (.refl _ _)))

/-- The byte of the part is the fifth. -/
example (debug : Bool) : [2, 7, 65, 8, 66, 0, 9] = [2, 7, 65, 8] ++ ([66] ++ ([0] ++ [9] : Bytes)) ∧
    deserialize (exWith debug exPairs) 4 (Id32.rep 2) [66] = .ok (.enum (.name n!"b")) := by
  cases debug <;> exact ⟨rfl, rfl⟩

/-- The data of a field of the example value is a piece of `exBytes`. -/
example (debug : Bool) : WellTyped (exE debug) exVal (Id32.rep 14) ∧ write (exE debug) 5 exVal (Id32.rep 14) = .ok exBytes ∧
    Inside (exE debug) exVal (Id32.rep 14) (.tuple [.num (.int (BitVec.ofInt 64 (-2))), .some (.str [67])]) (Id32.rep 13) ∧
    write (exE debug) 5 (.tuple [.num (.int (BitVec.ofInt 64 (-2))), .some (.str [67])]) (Id32.rep 13) = .ok [0xfe, 0xff, 1, 1, 67] ∧
    exBytes = [1, 0, 2, 65, 66, 2, 7, 9] ++ ([0xfe, 0xff, 1, 1, 67] ++ [3, 1, 2, 3]) :=
  ⟨⟨_, exVal_wellTyped debug⟩, by cases debug <;> rfl,
    .step (.part (.structField (n := n!"y") rfl (List.mem_cons_of_mem _ List.mem_cons_self) (List.mem_cons_of_mem _ List.mem_cons_self)))
      (.refl _ _), by cases debug <;> rfl, rfl⟩

/-- The tail of the list is replaced by a longer one. -/
example (debug : Bool) : Swap (exWith debug exPairs) (Id32.rep 5) (.list [exPairsVal, .list []]) (.list [exPairsVal, exPairsVal])
      (Id32.rep 4) (.list []) exPairsVal ∧
    read (exWith debug exPairs) 4 (Id32.rep 5) [2, 7, 65, 8, 66, 2, 7, 65, 8, 66, 9] = .ok (.list [exPairsVal, exPairsVal], [9]) :=
  ⟨.arrayItem (len := 2) [exPairsVal] [] rfl (.here _ _ _), by cases debug <;> rfl⟩

example (debug : Bool) : Swap (exE debug) (Id32.rep 14) exVal
      (.struct [(n!"x", .map [(.str [65, 66], .set [.num (.uint 7), .num (.uint 9)])]),
        (n!"y", .tuple [.num (.int (BitVec.ofInt 64 (-2))), .none]), (n!"z", .bytes [1, 2, 3])])
      (Id32.rep 9) (.some (.str [67])) .none :=
  .structField (n := n!"y") [_] [_] rfl (List.mem_cons_of_mem _ List.mem_cons_self) (.tupleField [_] [] rfl rfl (.here _ _ _))

end Verif
