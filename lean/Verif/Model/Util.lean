import Verif.Model.Basic

/-!
# Formats and versions
-/

namespace Verif

/-- `b!"abc"` is the text `abc`, expanded to a literal byte list. -/
macro:max "b!" s:str : term => do
  let bs := s.getString.toUTF8.toList
  let elems ← bs.toArray.mapM fun b => do
    let lit := Lean.Syntax.mkNumLit (toString b.toNat)
    `((BitVec.ofNat 8 $lit))
  `(([$elems,*] : Verif.Bytes))

/-! ## Numbers as text -/

/-- Decimal digits of a number, the last first; the fuel bounds their count. -/
def digitsRev : Nat → Nat → List Nat
  | 0, _ => []
  | fuel + 1, n => if n < 10 then [n] else n % 10 :: digitsRev fuel (n / 10)

/-- Decimal text of an unsigned number (`Display` of the Rust integers and of `u1024`). -/
def decimal (n : Nat) : Bytes := (digitsRev (n + 1) n).reverse.map fun d => BitVec.ofNat 8 (48 + d)

/-- Decimal text of a signed number. -/
def decimalInt (i : Int) : Bytes := if i < 0 then b!"-" ++ decimal i.natAbs else decimal i.natAbs

/-! ## Formats -/

/-- `src/util.rs:38-47`: `StlFormat`. -/
inductive StlFormat where
  | source | binary | armored
deriving DecidableEq, Repr

/-- The variants that exist: `Armored` needs the feature `armor` (`src/util.rs:44-46`). -/
def StlFormat.exists' (armor : Bool) : StlFormat → Bool
  | .armored => armor
  | _ => true

/-- `src/util.rs:38-47`: derived `Display` of `StlFormat`. -/
def StlFormat.display : StlFormat → Bytes
  | .source => b!"sty"
  | .binary => b!"stl"
  | .armored => b!"sta"

/-- `src/util.rs:49-61`: `StlFormat::from_str`; the error carries the rejected text. -/
def StlFormat.fromStr (armor : Bool) (s : Bytes) : Out Bytes StlFormat :=
  if s = b!"stl" then .ok .binary
  else if armor ∧ s = b!"sta" then .ok .armored
  else if s = b!"sty" then .ok .source
  else .err s

/-- `trim_start_matches("--")`: removes the prefix as often as it occurs. -/
def trimDashes : Bytes → Bytes
  | a :: b :: s => if a = 45 ∧ b = 45 then trimDashes s else a :: b :: s
  | s => s

/-- `src/util.rs:66`: the format argument; another text is a panic. -/
def formatArg (armor : Bool) (s : Bytes) : Out Unit StlFormat :=
  match StlFormat.fromStr armor s with
  | .ok f => .ok f
  | _ => .panic

/-- `src/util.rs:67-71`: the directory. -/
def dirArg (args : List Bytes) : Out Unit (Option Bytes) :=
  if args.length = 1 then .ok none
  else if args.length = 2 ∨ args.length = 3 then .ok (some ((args[2]?).getD b!"stl"))
  else .panic

/-- `src/util.rs:63-73`: `parse_args` on the list of arguments, the first of which is the program. -/
def parseArgs (armor : Bool) (args : List Bytes) : Out Unit (StlFormat × Option Bytes) := do
  let format ← formatArg armor (((args[1]?).map trimDashes).getD b!"sty")
  let dir ← dirArg args
  pure (format, dir)

/-! ## Versions -/

/-- `src/util.rs:129-138`: `PreFragment`. -/
inductive PreFragment where
  | ident (n : Name)
  | digits (n : BitVec 128)
deriving DecidableEq

/-- `src/util.rs:140-147`: `BuildFragment`. -/
inductive BuildFragment where
  | ident (n : Name)
  | digits (n : Name)
deriving DecidableEq

/-- `src/util.rs:150-159`: `SemVer`; the fragments are `TinyVec`s of at most 255 entries. -/
structure SemVer where
  major : BitVec 16
  minor : BitVec 16
  patch : BitVec 16
  pre : List PreFragment
  build : List BuildFragment
deriving DecidableEq

/-- `src/util.rs:132`: `#[display(inner)]`. -/
def PreFragment.display : PreFragment → Bytes
  | .ident n => n.bytes
  | .digits n => decimal n.toNat

/-- `src/util.rs:143`: `#[display(inner)]`. -/
def BuildFragment.display : BuildFragment → Bytes
  | .ident n => n.bytes
  | .digits n => n.bytes

/-- `src/util.rs:180-187,192-199`: the texts with dots between. -/
def dotted : List Bytes → Bytes
  | [] => []
  | [a] => a
  | a :: as => a ++ b!"." ++ dotted as

/-- `src/util.rs:173-202`: `Display for SemVer`. -/
def SemVer.display (v : SemVer) : Bytes :=
  decimal v.major.toNat ++ b!"." ++ decimal v.minor.toNat ++ b!"." ++ decimal v.patch.toNat ++
  (if v.build.isEmpty then [] else b!"-") ++ dotted (v.build.map BuildFragment.display) ++
  (if v.pre.isEmpty then [] else b!"+") ++ dotted (v.pre.map PreFragment.display)

end Verif
