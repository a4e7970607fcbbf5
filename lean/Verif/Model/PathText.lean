import Verif.Model.Ast
import Verif.Model.Ston

/-!
# Text of paths
-/

namespace Verif

/-- The hexadecimal digit (upper case). -/
def hexDigitUpper (n : Nat) : Byte := BitVec.ofNat 8 (if n < 10 then 48 + n else 55 + n)

/-- `src/value/path.rs:84`: `s.replace('"', "\\\"")`: a backslash before every quote. -/
def escapeQuotes : Bytes → Bytes
  | [] => []
  | c :: s => if c = 34 then 92 :: 34 :: escapeQuotes s else c :: escapeQuotes s

/-- `src/value/path.rs:73-90`: `Display` of `KeyStep`. -/
def KeyStep.text : KeyStep → Bytes
  | .number n => decimal n.toNat
  | .blob b => b!"0h" ++ b.flatMap fun x => [hexDigitUpper (x.toNat / 16), hexDigitUpper (x.toNat % 16)]
  | .string s => escapeQuotes s

/-- `src/value/path.rs:96-111`: `Display` of the steps of a value path. -/
def VStep.text : VStep → Bytes
  | .namedField n => b!"." ++ n.bytes
  | .unnamedField i => b!"." ++ decimal i.toNat
  | .index i => b!"[" ++ decimal i.toNat ++ b!"]"
  | .key k => b!"{" ++ k.text ++ b!"}"

/-- `src/value/path.rs:138-145`: `Display` of a value path. -/
def vpathText (p : List VStep) : Bytes := p.flatMap VStep.text

/-- `src/ast/path.rs:33-64`: `Display` of the steps of a type path. The text of a step without arguments is
taken literally. -/
def Ty.Step.text : Ty.Step → Bytes
  | .namedField n => b!"." ++ n.bytes
  | .unnamedField i => b!"." ++ decimal i.toNat
  | .variant n => b!"." ++ n.bytes
  | .index => b!"#"
  | .list => b!"[]"
  | .set => b!"{}"
  | .mapKey => b!"[key]"
  | .mapValue => b!"[value]"

/-- `src/ast/path.rs:85-92`: `Display` of a type path. -/
def tpathText (p : List Ty.Step) : Bytes := p.flatMap Ty.Step.text

end Verif
