import Verif.Model.Plan
import Verif.Spec.Plan

/-! # How many numbers the tables of an object hold -/

namespace RustDHT

/-- The numbers in the tables of an object and of all objects inside it; a complex number is two.  Objects that occur twice are counted
twice (they may share one `Arc`).  The few constants of the butterflies are not in tables. -/
def Plan.memory (T : Type) [Zero T] [Add T] [Sub T] [Mul T] [FftNum T] : Plan → ℕ
  | .naive n => (naiveTwiddles T n).length
  | .mixedRadix w h => 2 * (mrTwiddles T w.expectedLen h.expectedLen).length + w.memory T + h.memory T
  | .mr2 h => 2 * (mr2Twiddles T h.expectedLen).length + h.memory T
  | .mr3 h => 2 * (mr3Twiddles T h.expectedLen).length + h.memory T
  | .mr4 h => 2 * (mr4Twiddles T h.expectedLen).length + h.memory T
  | .mr5 h => 2 * (mr5Twiddles T h.expectedLen).length + h.memory T
  | .mr6 h => 2 * (mr6Twiddles T h.expectedLen).length + h.memory T
  | .radix4 n => 2 * (radix4Twiddles T n (n / ((radix4Base T n).1 * 4))).length
  | .splitRadix q h => 2 * (srTwiddles T (4 * q.expectedLen)).length + q.memory T + h.memory T
  | .raders i => 2 * (i.expectedLen / 2 + 1) + i.memory T
  | _ => 0

/-- No object in the expression is shorter than 2. -/
def Plan.AtLeastTwo : Plan → Prop
  | .naive n => 2 ≤ n
  | .b1 => False
  | .mixedRadix w h => w.AtLeastTwo ∧ h.AtLeastTwo
  | .mr2 h | .mr3 h | .mr4 h | .mr5 h | .mr6 h => h.AtLeastTwo
  | .radix4 n => 2 ≤ n
  | .splitRadix q h => q.AtLeastTwo ∧ h.AtLeastTwo
  | .raders i => i.AtLeastTwo
  | _ => True

end RustDHT
