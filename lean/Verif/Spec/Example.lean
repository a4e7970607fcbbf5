import Verif.Spec.Value
import Verif.Model.Codec
import Verif.Lemmas.Basic

/-!
# A concrete type system for examples

The examples beside the theorems use one system that has a type of every class. The hash is a toy
function, chosen so that examples can be evaluated; no theorem depends on it.
-/

namespace Verif

/-- A toy hash: the number after the tag midstate, plus one. -/
def toyHash : Hash := fun bs => ⟨le 32 (fromLe (bs.drop 64) + 1), le_length _ _⟩

/-- Alphabet `{A, B, C}`. -/
def exAlphabet : List Variant := [⟨n!"a", 65⟩, ⟨n!"b", 66⟩, ⟨n!"c", 67⟩]

/-- Semantic id of `u8` under the toy hash. -/
def exU8 : SemId := Ty.semIdUnnamed toyHash SemId.commit Ty.U8

/-- The example system. -/
def exSys : TypeSystem :=
  [(SemId.unit toyHash, Ty.UNIT),
   (exU8, Ty.U8),
   (SemId.byte toyHash, Ty.BYTE),
   (SemId.unicodeChar toyHash, .unicodeChar),
   -- characters, a tail of up to ten of them, and the restricted string of the two
   (Id32.rep 3, .enum exAlphabet),
   (Id32.rep 4, .list (Id32.rep 3) ⟨0, 10⟩),
   (Id32.rep 5, .tuple [Id32.rep 3, Id32.rep 4]),
   -- byte string, unicode string, four bytes
   (Id32.rep 6, .list (SemId.byte toyHash) ⟨0, 255⟩),
   (Id32.rep 7, .list (SemId.unicodeChar toyHash) ⟨0, 65535⟩),
   (Id32.rep 8, .array (SemId.byte toyHash) 4),
   -- optional restricted string, signed number, set of bytes, map, tuple, struct, list of structs
   (Id32.rep 9, .union [(⟨n!"none", 0⟩, SemId.unit toyHash), (⟨n!"some", 1⟩, Id32.rep 5)]),
   (Id32.rep 10, .primitive 0x42),
   (Id32.rep 11, .set exU8 ⟨1, 5⟩),
   (Id32.rep 12, .map (Id32.rep 5) (Id32.rep 11) ⟨0, 300⟩),
   (Id32.rep 13, .tuple [Id32.rep 10, Id32.rep 9]),
   (Id32.rep 14, .struct [(n!"x", Id32.rep 12), (n!"y", Id32.rep 13), (n!"z", Id32.rep 6)]),
   (Id32.rep 15, .list (Id32.rep 14) ⟨0, 70000⟩)]

/-- The example environment, with and without debug assertions. -/
def exE (debug : Bool) : Env :=
  { H := toyHash, sys := exSys, debug := debug, primSize := fun p => p.toNat % 64 + p.toNat / 64 * (if p.toNat % 64 = 0 then 1 else 0), valSize := 24 }

/-- A value of the struct type of the example system. -/
def exVal : Val :=
  .struct [(n!"x", .map [(.str [65, 66], .set [.num (.uint 7), .num (.uint 9)])]),
    (n!"y", .tuple [.num (.int (BitVec.ofInt 64 (-2))), .some (.str [67])]),
    (n!"z", .bytes [1, 2, 3])]

/-- Its bytes. -/
def exBytes : Bytes :=
  [1, 0, 2, 65, 66, 2, 7, 9, 0xfe, 0xff, 1, 1, 67, 3, 1, 2, 3]

example (debug : Bool) : write (exE debug) 5 exVal (Id32.rep 14) = .ok exBytes := by
  cases debug <;> rfl
example (debug : Bool) : read (exE debug) 5 (Id32.rep 14) (exBytes ++ [9]) = .ok (exVal, [9]) := by
  cases debug <;> rfl
example : typify (exE true) 5 exVal (Id32.rep 14) = .ok exVal := rfl
example : exSys.Sorted := by unfold OMap.Sorted; decide

end Verif
