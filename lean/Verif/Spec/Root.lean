import Verif.Spec.Dht

/-! # Exact arithmetic but for one constant

The crate computes `sqrt(1/2)` as `T::from_f32(0.5f32.sqrt())`, whatever the precision of `T`. -/

namespace RustDHT

open Finset

/-- Exact real arithmetic, except that `T::from_f32(0.5f32.sqrt())` has the value `ρ`. -/
@[instance_reducible] noncomputable def realWithRoot (ρ : ℝ) : FftNum ℝ where
  F64 := ℝ
  f64 := exactReal.f64
  fromF64 := fun a => a
  sqrtHalfF32 := ρ
  halfF32 := 1 / 2

/-- The nearest 24-bit number to `sqrt(1/2)`: the value of `0.5f32.sqrt()`. -/
noncomputable def sqrtHalfRounded : ℝ := 11863283 / 2 ^ 24

/-- The part of coefficient `k` of the DHT of `x` that comes from the elements whose index is a multiple of `w`. -/
noncomputable def dhtPart (w : ℕ) (x : List ℝ) (k : ℕ) : ℝ :=
  ∑ i ∈ range x.length, if w ∣ i then x.getD i 0 * cas (2 * Real.pi * i * k / x.length) else 0

/-- What a mixed-radix step with `w` rows computes with the constant `δ * sqrt(1/2)` in place of `sqrt(1/2)`: the first
coefficient of each of the `w` output rows is right, and in the others the contributions of all input rows but the first
are multiplied by `δ`. -/
noncomputable def rootDht (w : ℕ) (δ : ℝ) (x : List ℝ) : List ℝ :=
  (List.range x.length).map fun k =>
    if k % (x.length / w) = 0 then dhtCoeff x k else δ * dhtCoeff x k + (1 - δ) * dhtPart w x k

end RustDHT
