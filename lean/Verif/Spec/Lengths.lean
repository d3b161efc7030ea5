import Verif.Spec.Plan

/-! # Compositions that do without some constructor -/

namespace RustDHT

/-- `DhtNaive` does not occur. -/
def Plan.NoNaive : Plan → Prop
  | .naive _ => False
  | .mixedRadix w h => w.NoNaive ∧ h.NoNaive
  | .mr2 h | .mr3 h | .mr4 h | .mr5 h | .mr6 h => h.NoNaive
  | .splitRadix q h => q.NoNaive ∧ h.NoNaive
  | .raders i => i.NoNaive
  | _ => True

/-- `RadersAlgorithm` does not occur. -/
def Plan.NoRaders : Plan → Prop
  | .mixedRadix w h => w.NoRaders ∧ h.NoRaders
  | .mr2 h | .mr3 h | .mr4 h | .mr5 h | .mr6 h => h.NoRaders
  | .splitRadix q h => q.NoRaders ∧ h.NoRaders
  | .raders _ => False
  | _ => True

/-- `Radix4` does not occur. -/
def Plan.NoRadix4 : Plan → Prop
  | .mixedRadix w h => w.NoRadix4 ∧ h.NoRadix4
  | .mr2 h | .mr3 h | .mr4 h | .mr5 h | .mr6 h => h.NoRadix4
  | .splitRadix q h => q.NoRadix4 ∧ h.NoRadix4
  | .raders i => i.NoRadix4
  | .radix4 _ => False
  | _ => True

end RustDHT
