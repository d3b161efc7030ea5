import Verif.Spec.Ieee

/-! # The patch for the rounded constant

This is not code of the crate: src/scalar/mixed_radix.rs:55, radix3.rs:33, radix5.rs:33 and radix6.rs:34 take
`T::from_f32(0.5f32.sqrt())`; patched they take `T::from_f64(0.5f64.sqrt())`. -/

namespace RustDHT

/-- `f32` or `f64`, where the constant `√(1/2)` of the twiddles is rounded to `f64` instead of `f32`. -/
@[instance_reducible] noncomputable def ieeePatched (F : Fmt) [MathLib] : FftNum (Flt F) :=
  { ieee F with sqrtHalfF32 := .convert F (.roundSigned binary64 false √(1 / 2)) }

end RustDHT
