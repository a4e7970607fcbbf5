import Verif.Model.Export
import Verif.Spec.Util

/-!
# Specification vocabulary for exported libraries
-/

namespace Verif

/-- The text does not contain the end of a comment. -/
def Unmarked (x : Bytes) : Prop := ∀ p s, x ≠ p ++ b!"-}" ++ s

/-- The texts of ids are in one line, and different ids have different texts. -/
structure Glyphs.IdLine (G : Glyphs) : Prop where
  line : ∀ i, (10 : Byte) ∉ G.id i
  inj : ∀ i j, G.id i = G.id j → i = j

/-- The arguments of a program ask for the format and for the directory: without arguments (but the name of the program),
the source form to the standard output; with a format, with or without dashes, to `stl`; with a directory, to it. -/
inductive Asks (armor : Bool) : List Bytes → StlFormat → Option Bytes → Prop
  | none (prog : Bytes) : Asks armor [prog] .source none
  | format (prog s : Bytes) (n : Nat) (f : StlFormat) : f.Named armor s →
      Asks armor [prog, (List.replicate n b!"--").flatten ++ s] f (some b!"stl")
  | dir (prog s d : Bytes) (n : Nat) (f : StlFormat) : f.Named armor s →
      Asks armor [prog, (List.replicate n b!"--").flatten ++ s, d] f (some d)

end Verif
