import Verif.Spec.Dht
import Verif.Model.TestUtils

/-! # Exact arithmetic for the unit-test checker -/

namespace RustDHT

open Classical in
/-- `abs` and the constants are the real ones.  A division by the length 0 gives an infinity or a NaN in Rust, neither of
which is below 0.1. -/
noncomputable instance exactTest : TestNum ℝ where
  abs := fun x => |x|
  dirty := 100
  meanBelow := fun e n => decide (n ≠ 0 ∧ e / n < 1 / 10)

/-- Sum of the absolute differences of two lists. -/
noncomputable def absError (v w : List ℝ) : ℝ := (List.zipWith (fun a b => |a - b|) v w).sum

end RustDHT
