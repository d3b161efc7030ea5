/-! # Number type, complex numbers and src/twiddles.rs -/

namespace RustDHT

/-- The `f64` operations used to compute tables. -/
structure F64Ops (F : Type) where
  /-- `n as f64`, and integer literals -/
  ofNat : Nat → F
  /-- `std::f64::consts::PI` -/
  pi : F
  neg : F → F
  mul : F → F → F
  div : F → F → F
  cos : F → F
  sin : F → F

/-- The parts of `rustfft::FftNum` (and of `num_traits::FromPrimitive`) the crate uses beyond `+ - * neg zero`.
The model assumes no law about them. -/
class FftNum (T : Type) where
  /-- the type `f64` -/
  F64 : Type
  f64 : F64Ops F64
  /-- `T::from_f64(x).unwrap()` -/
  fromF64 : F64 → T
  /-- `T::from_f32(0.5f32.sqrt()).unwrap()` (src/scalar/mixed_radix.rs:55, radix3.rs:33, radix5.rs:33, radix6.rs:34) -/
  sqrtHalfF32 : T
  /-- `T::from_f32(0.5).unwrap()` (src/scalar/raders_algorithm.rs:69-70) -/
  halfF32 : T

/-- `num_complex::Complex<T>` -/
structure Cx (T : Type) where
  re : T
  im : T

variable {T : Type} [Add T] [Mul T] [FftNum T]

/-- src/twiddles.rs:5-13 `compute_dht_twiddle` -/
def computeDhtTwiddle (T : Type) [Add T] [FftNum T] (index fftLen : Nat) : T :=
  let f := FftNum.f64 (T := T)
  let constant := f.div (f.mul (f.ofNat 2) f.pi) (f.ofNat fftLen)
  let angle := f.mul constant (f.ofNat index)
  FftNum.fromF64 (f.cos angle) + FftNum.fromF64 (f.sin angle)

/-- src/twiddles.rs:15-28 `compute_dft_twiddle_inverse` -/
def computeDftTwiddleInverse (T : Type) [FftNum T] (index fftLen : Nat) : Cx T :=
  let f := FftNum.f64 (T := T)
  let constant := f.div (f.mul (f.ofNat 2) f.pi) (f.ofNat fftLen)
  let angle := f.mul constant (f.ofNat index)
  { re := FftNum.fromF64 (f.cos angle), im := FftNum.fromF64 (f.sin angle) }

/-- src/twiddles.rs:30-43 `compute_dft_twiddle_forward` -/
def computeDftTwiddleForward (T : Type) [FftNum T] (index fftLen : Nat) : Cx T :=
  let f := FftNum.f64 (T := T)
  let constant := f.div (f.mul (f.neg (f.ofNat 2)) f.pi) (f.ofNat fftLen)
  let angle := f.mul constant (f.ofNat index)
  { re := FftNum.fromF64 (f.cos angle), im := FftNum.fromF64 (f.sin angle) }

/-- `Complex<T> * T` of the crate `num_complex` -/
def Cx.scale (c : Cx T) (s : T) : Cx T := { re := c.re * s, im := c.im * s }

end RustDHT
