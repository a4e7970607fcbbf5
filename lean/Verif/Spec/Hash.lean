import Verif.Model.Refs

/-!
# Specification vocabulary for hash collisions

Every function with 32-byte results maps some two byte strings to the same result, so it would say nothing that a
property holds "or there is a collision somewhere". The definitions below name the texts which collide: a `Clash` is
about two given texts, a `Collision` about the texts of a set, which in every theorem is the set of texts hashed for the
types at hand.
-/

namespace Verif

/-- What is hashed for a text under a tag: the hash of the tag, twice, and the text. -/
def tagged (H : Hash) (tag x : Bytes) : Bytes := (H tag).bytes ++ (H tag).bytes ++ x

/-- The two texts are different, and the hash maps what is hashed for them under the tag to the same result. -/
def Clash (H : Hash) (tag x y : Bytes) : Prop := x ≠ y ∧ H (tagged H tag x) = H (tagged H tag y)

/-- The hash maps the two tags, or what is hashed for the two texts under them, to the same result, although the
tags, or these strings, are different. -/
def Meets (H : Hash) (tag x tag' y : Bytes) : Prop :=
  (tag ≠ tag' ∧ H tag = H tag') ∨ (tagged H tag x ≠ tagged H tag' y ∧ H (tagged H tag x) = H (tagged H tag' y))

/-- Two different texts of the set are hashed to the same semantic id. -/
def Collision (H : Hash) (D : Bytes → Prop) : Prop := ∃ x y, D x ∧ D y ∧ Clash H SEM_ID_TAG x y

/-- The texts hashed for the named types of a library. -/
def TypeLib.namedTexts (l : TypeLib) : List Bytes := l.types.map fun p => p.1.commit ++ p.2.commit LibRef.commit

end Verif
