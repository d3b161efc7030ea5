import Verif.Spec.Harness
import Verif.Spec.IeeeTest
import Verif.Model.UnitTests

/-! # The arithmetic of the unit tests of `DhtNaive` -/

namespace RustDHT

/-- Exact arithmetic. -/
noncomputable instance exactTrig : TestTrig ℝ where
  ofNat := fun n => (n : ℝ)
  pi := Real.pi
  div := fun a b => a / b
  cos := Real.cos
  sin := Real.sin

/-- `f32::cos` and `f32::sin`, which Rust leaves to the platform, like those of `f64`. -/
class MathLib32 where
  cos : Flt binary32 → Flt binary32
  sin : Flt binary32 → Flt binary32

/-- What is assumed of them: for arguments of at most 256 an error of at most `2^-22`.  (The usual libraries have errors below
one unit in the last place, which is at most `2^-24`.) -/
structure MathLib32.Accurate [MathLib32] : Prop where
  cos : ∀ x : Flt binary32, x.fin → |x.val| ≤ 256 →
    (MathLib32.cos x).fin ∧ |(MathLib32.cos x).val - Real.cos x.val| ≤ 2⁻¹ ^ 22
  sin : ∀ x : Flt binary32, x.fin → |x.val| ≤ 256 →
    (MathLib32.sin x).fin ∧ |(MathLib32.sin x).val - Real.sin x.val| ≤ 2⁻¹ ^ 22

/-- `std::f32::consts::PI` -/
def pi32 : Flt binary32 := .round binary32 false (13176795 / 2 ^ 22 : ℚ)

/-- `f32` -/
instance [MathLib32] : TestTrig (Flt binary32) where
  ofNat := .ofNat binary32
  pi := pi32
  div := fun a b => a / b
  cos := MathLib32.cos
  sin := MathLib32.sin

/-- A signal as `random_real_signal` of src/test_utils.rs:16-24 makes it: of the length asked for, and with finite entries of
absolute value at most 10 (they are in `[0, 10)` there). -/
def TestSignal (signal : ℕ → List (Flt binary32)) : Prop :=
  ∀ n, (signal n).length = n ∧ ∀ a ∈ signal n, a.fin ∧ |a.val| ≤ 10

end RustDHT
