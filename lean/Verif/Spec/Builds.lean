import Verif.Model.Codec

/-! # What it means that builds with and without checks agree -/

namespace Verif

/-- With checks: the same outcome as without, or a panic. -/
def Below {ε α : Type} (checked unchecked : Out ε α) : Prop := checked = .panic ∨ checked = unchecked

/-- A build with debug assertions and overflow checks. -/
def Env.checked (E : Env) : Env := { E with debug := true }

/-- A build without. -/
def Env.unchecked (E : Env) : Env := { E with debug := false }

end Verif
