import Verif.Spec.Ieee
import Mathlib.Algebra.Ring.Defs
import Mathlib.Data.ZMod.Basic

/-! # Integer number types

`rustfft::FftNum` is implemented for every `T: Copy + FromPrimitive + Signed + Sync + Send + Debug + 'static`, so for `i8` to `i128` as
well as for `f32` and `f64`.  The constants of the crate are then converted by `FromPrimitive::from_f64` and `from_f32` of an integer
type, which drop the fractional part. -/

namespace RustDHT

/-- The fractional part is dropped. -/
noncomputable def truncate (x : ℝ) : ℤ := if 0 ≤ x then ⌊x⌋ else ⌈x⌉

/-- The number types `i8` to `i128`: `R` is `ZMod (2^8)` to `ZMod (2^128)` if operations wrap, as they do in release builds, and
the integers if no operation overflows.  `0.5f32.sqrt()` and `0.5` become zero. -/
@[instance_reducible] noncomputable def integerNum (R : Type) [Zero R] [IntCast R] [MathLib] : FftNum R where
  F64 := Wide
  f64 := Wide.ops
  fromF64 v := (truncate v.val : ℤ)
  sqrtHalfF32 := 0
  halfF32 := 0

end RustDHT
