import Verif.Model.Plan

/-! # Compositions without constants -/

namespace RustDHT

/-- The objects of lengths 1, 2 and 4 that are made of additions and subtractions alone. -/
def Plan.Plain : Plan → Prop
  | .b1 | .b2 | .b4 => True
  | .radix4 n => n ≤ 4
  | _ => False

end RustDHT
