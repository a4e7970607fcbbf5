import Verif.Model.SysText
import Verif.Spec.Text

/-!
# Specification vocabulary for the texts of type systems
-/

namespace Verif

/-- Requirements on the texts of ids: chunks of characters with dashes between; different ids have different
texts. Of the ids of systems, only the characters matter. -/
structure IdGlyphs.Clear (G : Glyphs) (K : IdGlyphs) : Prop where
  id : ∀ i, idText (G.id i) = true
  id_inj : ∀ i j, G.id i = G.id j → i = j
  short : ∀ i, idText (K.short i) = true
  short_inj : ∀ i j, K.short i = K.short j → i = j
  sys : ∀ i, idText (K.sys i) = true
  sysLong : ∀ i, idText (K.sysLong i) = true

/-- Types of a system whose definition can be told from their text: the types obey the limits of the
containers, primitive types are in `P`, and unions shaped as an option have the payload `unit` for `none`. -/
def TypeSystem.Legible (P : Byte → Prop) (unit : SemId) (s : TypeSystem) : Prop :=
  ∀ e ∈ s, e.2.WF ∧ (∀ p, e.2 = .primitive p → P p) ∧
    ∀ u r, e.2 = .union [(⟨n!"none", 0⟩, u), (⟨n!"some", 1⟩, r)] → u = unit

/-- Names of types stand for one type each. -/
def SymbolicSys.Distinct (s : SymbolicSys) : Prop :=
  ∀ i j fqn, s.lookup i = some fqn → s.lookup j = some fqn → i = j

end Verif
