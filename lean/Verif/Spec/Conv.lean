import Mathlib.Analysis.SpecialFunctions.Trigonometric.Basic

/-! # Circular convolution, and how Hartley coefficients multiply

Nothing here refers to an algorithm of the crate. -/

namespace RustDHT

open Finset

/-- The circular convolution of two signals of the same length: element `m` is the sum of `x[i] * y[j]` over all `i`, with `j`
such that `i + j = m` modulo the length. -/
noncomputable def circConv (x y : List ℝ) : List ℝ :=
  (List.range x.length).map fun m : ℕ =>
    ∑ i ∈ range x.length, x.getD i 0 * y.getD ((m + (x.length - i)) % x.length) 0

/-- Element `k` counted from the end, with element `0` at its place: `X[-k]`, indices modulo the length. -/
noncomputable def mirrored (X : List ℝ) (k : ℕ) : ℝ := X.getD ((X.length - k) % X.length) 0

/-- The pointwise rule for the product of two spectra: `(X[k] (Y[k] + Y[-k]) + X[-k] (Y[k] - Y[-k])) / 2`. -/
noncomputable def hartleyMul (X Y : List ℝ) : List ℝ :=
  (List.range X.length).map fun k : ℕ =>
    (X.getD k 0 * (Y.getD k 0 + mirrored Y k) + mirrored X k * (Y.getD k 0 - mirrored Y k)) / 2

/-- What a rotation of the signal by `s` does to the spectrum: `cos (2πks/n) X[k] - sin (2πks/n) X[-k]`. -/
noncomputable def turn (s : ℕ) (X : List ℝ) : List ℝ :=
  (List.range X.length).map fun k : ℕ =>
    Real.cos (2 * Real.pi * k * s / X.length) * X.getD k 0 - Real.sin (2 * Real.pi * k * s / X.length) * mirrored X k

end RustDHT
