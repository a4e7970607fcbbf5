import Verif.Model.Val
import Verif.Model.Util

/-!
# Text of values
-/

namespace Verif

/-- `src/value/val.rs:176-227`: `#[display(inner)]` of `StrictNum`. -/
def Num.display : Num → Bytes
  | .uint n => decimal n.toNat
  | .bigUint n => decimal n.toNat
  | .int n => decimalInt n.toInt
  | .bigInt n => decimalInt n.toInt

/-- `src/value/val.rs:242-254`: `#[display(inner)]` of `EnumTag`. -/
def Tag.display : Tag → Bytes
  | .name n => n.bytes
  | .ord t => decimal t.toNat

/-- The hexadecimal digit (lower case). -/
def hexDigit (n : Nat) : Byte := BitVec.ofNat 8 (if n < 10 then 48 + n else 87 + n)

/-- `ToHex::to_hex` (amplify). -/
def toHex (b : Bytes) : Bytes := b.flatMap fun x => [hexDigit (x.toNat / 16), hexDigit (x.toNat % 16)]

/-- `src/value/ston.rs:34-48`: `StrictVal::needs_parenthesis`. -/
def Val.needsParens : Val → Bool
  | .tuple [_] => false
  | .tuple _ => true
  | .struct _ => true
  | _ => false

/-- `src/value/ston.rs:93-98`: the union value shown as `~`. -/
def Val.isNoneText (t : Tag) : Val → Bool
  | .unit => decide (t = .ord 0 ∨ t = .name Ty.noneName)
  | _ => false

/-- `src/value/ston.rs:62-68`: a text, in parentheses if it needs them. -/
def parens (b : Bool) (s : Bytes) : Bytes := if b then b!"(" ++ s ++ b!")" else s

mutual
/-- `src/value/ston.rs:51-165`: `Display for StrictVal`. -/
def Val.ston : Val → Bytes
  | .unit => b!"(,)"
  | .num n => n.display
  | .str s => b!"\"" ++ s ++ b!"\""
  | .bytes b => b!"0x" ++ toHex b
  | .tuple l => Val.stonItems l
  | .struct fs => Val.stonFields fs
  | .enum t => t.display
  | .union t v => if v.isNoneText t then b!"~" else parens v.needsParens (Val.ston v) ++ b!"." ++ t.display
  | .list l => b!"[" ++ Val.stonItems l ++ b!"]"
  | .set l => b!"{" ++ Val.stonItems l ++ b!"}"
  | .map l => b!"{" ++ Val.stonPairs l ++ b!"}"
termination_by structural v => v
/-- `src/value/ston.rs:60-72,112-125,129-142`: items with commas between. -/
def Val.stonItems : List Val → Bytes
  | [] => []
  | v :: l => parens v.needsParens (Val.ston v) ++ (if l.isEmpty then [] else b!", ") ++ Val.stonItems l
termination_by structural v => v
/-- `src/value/ston.rs:76-89`: fields with commas between. -/
def Val.stonFields : List (Name × Val) → Bytes
  | [] => []
  | f :: l => Val.stonField f ++ (if l.isEmpty then [] else b!", ") ++ Val.stonFields l
termination_by structural v => v
/-- `src/value/ston.rs:78-85`: a field. -/
def Val.stonField : Name × Val → Bytes
  | (n, v) => n.bytes ++ b!" " ++ parens v.needsParens (Val.ston v)
termination_by structural v => v
/-- `src/value/ston.rs:148-160`: entries of a map with commas between. -/
def Val.stonPairs : List (Val × Val) → Bytes
  | [] => []
  | p :: l => Val.stonPair p ++ (if l.isEmpty then [] else b!", ") ++ Val.stonPairs l
termination_by structural v => v
/-- `src/value/ston.rs:149-156`: an entry of a map; the key has no parentheses. -/
def Val.stonPair : Val × Val → Bytes
  | (k, v) => Val.ston k ++ b!" -> " ++ parens v.needsParens (Val.ston v)
termination_by structural v => v
end

end Verif
