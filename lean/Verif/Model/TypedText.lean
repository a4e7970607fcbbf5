import Verif.Model.ByName
import Verif.Model.Ston
import Verif.Model.SysText

/-!
# Text of typed values
-/

namespace Verif

/-- `src/value/typify.rs:50-55`: `Display for TypedVal`, `{val}@{orig}`, given the text of ids. -/
def TypedVal.text (id : Id32 → Bytes) (t : TypedVal) : Bytes := t.val.ston ++ b!"@" ++ t.orig.text id

end Verif
