import Verif.Model.Basic

/-!
# Specification of UTF-8 text

Text as the encoding of a list of characters, spelled out by code points.
-/

namespace Verif

/-- A Unicode scalar value: a code point which is not a surrogate. -/
def Scalar (c : Nat) : Prop := c < 0xD800 ∨ (0xE000 ≤ c ∧ c < 0x110000)

/-- The UTF-8 encoding of a scalar value. -/
def utf8Char (c : Nat) : Bytes :=
  if c < 0x80 then [BitVec.ofNat 8 c]
  else if c < 0x800 then [BitVec.ofNat 8 (0xC0 + c / 64), BitVec.ofNat 8 (0x80 + c % 64)]
  else if c < 0x10000 then
    [BitVec.ofNat 8 (0xE0 + c / 4096), BitVec.ofNat 8 (0x80 + c / 64 % 64), BitVec.ofNat 8 (0x80 + c % 64)]
  else
    [BitVec.ofNat 8 (0xF0 + c / 262144), BitVec.ofNat 8 (0x80 + c / 4096 % 64), BitVec.ofNat 8 (0x80 + c / 64 % 64),
      BitVec.ofNat 8 (0x80 + c % 64)]

/-- The text is the UTF-8 encoding of these characters. -/
def IsText (cs : List Nat) (s : Bytes) : Prop := (∀ c ∈ cs, Scalar c) ∧ s = cs.flatMap utf8Char

/-- The text is valid UTF-8. -/
def Utf8 (s : Bytes) : Prop := ∃ cs, IsText cs s

end Verif
