import Verif.Spec.Ieee
import Verif.Spec.Plan
import Verif.Model.TestUtils

/-! # The unit-test checker in `f32` and `f64`, and the compositions it is applied to -/

namespace RustDHT

namespace Flt

variable {F : Fmt}

/-- `Float::abs` -/
def abs : Flt F → Flt F
  | num _ a h => num false a h
  | inf _ => inf false
  | nan => nan

/-- `<` -/
def lt : Flt F → Flt F → Bool
  | nan, _ => false
  | _, nan => false
  | inf s, inf s' => s && !s'
  | inf s, num .. => s
  | num .., inf s => !s
  | a, b => a.value < b.value

instance : TestNum (Flt F) where
  abs := abs
  dirty := ofNat F 1 * ofNat F 100
  meanBelow e n := lt (convert binary64 e / ofNat binary64 n) (round binary64 false (1 / 10 : ℚ))

end Flt

/-- The objects that the unit tests of the crate hand to `check_dht_algorithm::<f32>`, with the lengths:
src/scalar/radix2.rs:161-173, radix3.rs:187-199, radix4.rs:451-480, radix5.rs:211-223, radix6.rs:225-237,
mixed_radix.rs:289-304, split_radix.rs:171-184, raders_algorithm.rs:239-252, butterflies.rs:584-603.  (`Butterfly1` is not
tested.) -/
def unitTests32 : List (Plan × ℕ) :=
  ((List.range' 1 6).map fun h => (.mr2 (.naive h), h * 2)) ++
  ((List.range' 1 6).map fun h => (.mr3 (.naive h), h * 3)) ++
  ((List.range' 1 6).map fun h => (.mr4 (.naive h), h * 4)) ++
  ((List.range' 1 6).map fun h => (.mr5 (.naive h), h * 5)) ++
  ((List.range' 1 6).map fun h => (.mr6 (.naive h), h * 6)) ++
  ((List.range' 2 5).map fun k => (.mr4 (.naive (2 ^ k / 4)), 2 ^ k)) ++
  ((List.range' 2 5).map fun k => (.radix4 (2 ^ k), 2 ^ k)) ++
  ((List.range' 1 8).flatMap fun w => (List.range' 1 8).map fun h => (.mixedRadix (.naive w) (.naive h), w * h)) ++
  ((List.range' 1 29).map fun q => (.splitRadix (.naive q) (.naive (q * 2)), q * 4)) ++
  (((List.range' 3 7).filter Nat.Prime).map fun n => (.raders (.naive (n - 1)), n)) ++
  [(.b2, 2), (.b3, 3), (.b4, 4), (.b5, 5), (.b6, 6), (.b8, 8), (.b9, 9), (.b16, 16)]

/-- The same for `check_dht_algorithm::<f64>` (src/scalar/butterflies.rs:591-592). -/
def unitTests64 : List (Plan × ℕ) :=
  [(.b2, 2), (.b3, 3), (.b4, 4), (.b5, 5), (.b6, 6), (.b8, 8), (.b9, 9), (.b16, 16)]

/-- The unit test of composition `p` at length `n` passes for every signal with entries of absolute value at most 10 (the signal
of src/test_utils.rs:16-24 has entries in `[0, 10)`). -/
def PassesUnitTest [MathLib] (F : Fmt) (p : Plan) (n : ℕ) : Prop :=
  ∃ d, p.build (Flt F) = .ok d ∧ ∀ signal : List (Flt F), signal.length = n → (∀ a ∈ signal, a.fin ∧ |a.val| ≤ 10) →
    checkDhtAlgorithm signal d n = .ok ()

end RustDHT
