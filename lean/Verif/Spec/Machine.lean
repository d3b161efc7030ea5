import Verif.Model.Machine.Raders
import Verif.Spec.Plan

/-! # When the numbers of a constructor expression fit into machine integers -/

namespace RustDHT

/-- `2 * m.cap` is `2^61` on a 64-bit and `2^29` on a 32-bit target; slices of `f32` are shorter.  Every object of the expression is
shorter than that (half of that for `Radix4`), the table of every `MixedRadix` can be allocated and the square of the
length of the object inside every `RadersAlgorithm` is a `usize`.  The last condition is not necessary in a debug build for a 64-bit
target, which panics whether the numbers are bounded or not. -/
def Plan.Fits (m : Machine.Mode) : Plan → Prop
  | .mixedRadix w h => w.Fits m ∧ h.Fits m ∧ w.expectedLen * h.expectedLen < 2 * m.cap ∧
      (w.expectedLen / 2 + 1) * (h.expectedLen / 2 + 1) < m.cap
  | .mr2 h => h.Fits m ∧ 2 * h.expectedLen < 2 * m.cap
  | .mr3 h => h.Fits m ∧ 3 * h.expectedLen < 2 * m.cap
  | .mr4 h => h.Fits m ∧ 4 * h.expectedLen < 2 * m.cap
  | .mr5 h => h.Fits m ∧ 5 * h.expectedLen < 2 * m.cap
  | .mr6 h => h.Fits m ∧ 6 * h.expectedLen < 2 * m.cap
  | .radix4 n => n < m.cap
  | .splitRadix q h => q.Fits m ∧ h.Fits m ∧ 4 * q.expectedLen < 2 * m.cap
  | .raders i => i.Fits m ∧ i.expectedLen + 1 < 2 * m.cap ∧ (m = .debug ∨ i.expectedLen * i.expectedLen < 2 ^ m.bits)
  | .naive n => n < 2 * m.cap
  | .b1 | .b2 | .b3 | .b4 | .b5 | .b6 | .b8 | .b9 | .b16 => True

/-- The arguments of the constructors are `usize`. -/
def Plan.Usize (m : Machine.Mode) : Plan → Prop
  | .naive n | .radix4 n => n < 2 ^ m.bits
  | .mixedRadix w h | .splitRadix w h => w.Usize m ∧ h.Usize m
  | .mr2 h | .mr3 h | .mr4 h | .mr5 h | .mr6 h | .raders h => h.Usize m
  | .b1 | .b2 | .b3 | .b4 | .b5 | .b6 | .b8 | .b9 | .b16 => True

/-- As `Plan.Usize`; the lengths that the caller's objects announce are `usize` as well. -/
def Tree.Usize {T : Type} (m : Machine.Mode) : Tree T → Prop
  | .plan p => p.Usize m
  | .user d => d.len < 2 ^ m.bits
  | .mixedRadix w h | .splitRadix w h => w.Usize m ∧ h.Usize m
  | .mr2 h | .mr3 h | .mr4 h | .mr5 h | .mr6 h | .raders h => h.Usize m

end RustDHT
