import Verif.Model.Util

/-!
# What formats and versions should look like
-/

namespace Verif

/-- The documented names of the formats. -/
def StlFormat.Named (armor : Bool) : StlFormat → Bytes → Prop
  | .source, s => s = b!"sty"
  | .binary, s => s = b!"stl"
  | .armored, s => armor = true ∧ s = b!"sta"

/-- A version in the form `major.minor.patch-pre+build` of semver.org; the parts after the numbers
appear only if there are fragments. -/
def SemVer.standardText (v : SemVer) : Bytes :=
  List.intercalate b!"." [decimal v.major.toNat, decimal v.minor.toNat, decimal v.patch.toNat] ++
  (if v.pre = [] then [] else b!"-" ++ List.intercalate b!"." (v.pre.map PreFragment.display)) ++
  (if v.build = [] then [] else b!"+" ++ List.intercalate b!"." (v.build.map BuildFragment.display))

/-- The number written with decimal digits. -/
def numberOf (ds : Bytes) : Nat := ds.foldl (fun n b => 10 * n + (b.toNat - 48)) 0

/-- A decimal digit. -/
def isDigit (b : Byte) : Bool := 48 ≤ b.toNat && b.toNat ≤ 57

end Verif
