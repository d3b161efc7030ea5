import Verif.Model.Plan

/-! # Facts about a constructor expression that can be read off it -/

namespace RustDHT

/-- Every `Radix4` in the expression has length at most 64. -/
def Plan.SmallRadix4 : Plan → Prop
  | .mixedRadix w h => w.SmallRadix4 ∧ h.SmallRadix4
  | .mr2 h | .mr3 h | .mr4 h | .mr5 h | .mr6 h => h.SmallRadix4
  | .splitRadix q h => q.SmallRadix4 ∧ h.SmallRadix4
  | .raders i => i.SmallRadix4
  | .radix4 n => n ≤ 64
  | _ => True

/-- What `len()` must be, by the documentation of each constructor. -/
def Plan.expectedLen : Plan → ℕ
  | .naive n => n
  | .b1 => 1 | .b2 => 2 | .b3 => 3 | .b4 => 4 | .b5 => 5 | .b6 => 6 | .b8 => 8 | .b9 => 9 | .b16 => 16
  | .mixedRadix w h => w.expectedLen * h.expectedLen
  | .mr2 h => 2 * h.expectedLen
  | .mr3 h => 3 * h.expectedLen
  | .mr4 h => 4 * h.expectedLen
  | .mr5 h => 5 * h.expectedLen
  | .mr6 h => 6 * h.expectedLen
  | .radix4 n => n
  | .splitRadix q _ => 4 * q.expectedLen
  | .raders i => i.expectedLen + 1

end RustDHT
