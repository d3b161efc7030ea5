import Verif.Spec.RootFree

/-! # Compositions with the constant inside one `RadersAlgorithm` -/

namespace RustDHT

/-- The factor `sqrt(1/2)` may occur inside `RadersAlgorithm` (src/scalar/raders_algorithm.rs), but not inside one that is itself inside another. -/
def Plan.RadersOnce : Plan → Prop
  | .mixedRadix w h => w.RadersOnce ∧ h.RadersOnce
  | .mr2 h | .mr3 h | .mr4 h | .mr5 h | .mr6 h => h.RadersOnce
  | .splitRadix q h => q.RadersOnce ∧ h.RadersOnce
  | .raders i => i.RadersFree
  | _ => True

end RustDHT
