import Verif.Spec.Ieee

/-! # Floats up to the sign of zero -/

namespace RustDHT

namespace Flt

variable {F : Fmt}

/-- Identical, or zeros with different signs.  (A NaN is only like a NaN, an infinity only like itself.) -/
def Alike (a b : Flt F) : Prop := a = b ∨ a.fin ∧ b.fin ∧ a.value = 0 ∧ b.value = 0

/-- `b` is `-a`, where `-0` and `0` count as the same. -/
def Opposite (a b : Flt F) : Prop := Alike b (-a)

end Flt

end RustDHT
