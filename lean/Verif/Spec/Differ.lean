import Mathlib.Data.Real.Basic
import Mathlib.Data.Finset.Card
import Mathlib.Data.Finset.Range

/-! # Signals that differ in few entries -/

namespace RustDHT

open Classical in
/-- The number of positions, up to the length of `x`, at which `x` and `y` differ. -/
noncomputable def differ (x y : List ℝ) : ℕ := ((Finset.range x.length).filter fun i => x.getD i 0 ≠ y.getD i 0).card

end RustDHT
