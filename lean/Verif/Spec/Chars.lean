import Verif.Model.Basic

/-!
# Characters of the standard library

What the names of the types of `Std` say, in terms of character codes.
-/

namespace Verif

/-- `A` to `Z`. -/
def isCapital (b : Byte) : Bool := 65 ≤ b.toNat && b.toNat ≤ 90
/-- `a` to `z`. -/
def isSmall (b : Byte) : Bool := 97 ≤ b.toNat && b.toNat ≤ 122
/-- `0` to `9`. -/
def isDec (b : Byte) : Bool := 48 ≤ b.toNat && b.toNat ≤ 57
/-- `A` to `Z` and `a` to `z`. -/
def isLetter (b : Byte) : Bool := isCapital b || isSmall b
/-- `.`. -/
def isDot (b : Byte) : Bool := b.toNat == 46
/-- `-`. -/
def isDash (b : Byte) : Bool := b.toNat == 45
/-- `_`. -/
def isLodash (b : Byte) : Bool := b.toNat == 95

/-- The types of `Std` and the bytes they consist of. -/
def stdChars : List (Name × (Byte → Bool)) := [
  (n!"Bool", fun b => b.toNat < 2),
  (n!"U1", fun b => b.toNat < 2 ^ 1), (n!"U2", fun b => b.toNat < 2 ^ 2), (n!"U3", fun b => b.toNat < 2 ^ 3),
  (n!"U4", fun b => b.toNat < 2 ^ 4), (n!"U5", fun b => b.toNat < 2 ^ 5), (n!"U6", fun b => b.toNat < 2 ^ 6),
  (n!"U7", fun b => b.toNat < 2 ^ 7),
  (n!"Ascii", fun b => b.toNat < 128),
  (n!"AsciiPrintable", fun b => 32 ≤ b.toNat && b.toNat < 127),
  (n!"Alpha", isLetter),
  (n!"AlphaDot", fun b => isLetter b || isDot b),
  (n!"AlphaDash", fun b => isLetter b || isDash b),
  (n!"AlphaLodash", fun b => isLetter b || isLodash b),
  (n!"AlphaCaps", isCapital),
  (n!"AlphaCapsDot", fun b => isCapital b || isDot b),
  (n!"AlphaCapsDash", fun b => isCapital b || isDash b),
  (n!"AlphaCapsLodash", fun b => isCapital b || isLodash b),
  (n!"AlphaSmall", isSmall),
  (n!"AlphaSmallDot", fun b => isSmall b || isDot b),
  (n!"AlphaSmallDash", fun b => isSmall b || isDash b),
  (n!"AlphaSmallLodash", fun b => isSmall b || isLodash b),
  (n!"Dec", isDec),
  (n!"DecDot", fun b => isDec b || isDot b),
  (n!"HexDecCaps", fun b => isDec b || 65 ≤ b.toNat && b.toNat ≤ 70),
  (n!"HexDecSmall", fun b => isDec b || 97 ≤ b.toNat && b.toNat ≤ 102),
  (n!"AlphaNum", fun b => isLetter b || isDec b),
  (n!"AlphaCapsNum", fun b => isCapital b || isDec b),
  (n!"AlphaNumDot", fun b => isLetter b || isDec b || isDot b),
  (n!"AlphaNumDash", fun b => isLetter b || isDec b || isDash b),
  (n!"AlphaNumLodash", fun b => isLetter b || isDec b || isLodash b)]

/-- The types of names in `StrictTypes` and the characters with which the names may begin. -/
def nameHeads : List (Name × (Byte → Bool)) := [
  (n!"Ident", fun b => isLetter b || isLodash b),
  (n!"TypeName", fun b => isCapital b || isLodash b),
  (n!"LibName", fun b => isCapital b || isLodash b),
  (n!"FieldName", fun b => isSmall b || isLodash b),
  (n!"VariantName", fun b => isSmall b || isLodash b)]

/-- A text of up to a hundred letters, digits and underscores which begins with such a character. -/
def NameText (head : Byte → Bool) (s : Bytes) : Prop :=
  ∃ b t, s = b :: t ∧ head b = true ∧ (∀ c ∈ t, (isLetter c || isDec c || isLodash c) = true) ∧ t.length < 100

end Verif
