import Verif.Spec.Dht
import Mathlib.Analysis.SpecialFunctions.Trigonometric.Basic

/-! # Notions used by the algebraic properties of the transform -/

namespace RustDHT

open Finset

/-- Reverse all but the first element: `x[1..].reverse()` (src/scalar/radix5.rs:301). -/
def revTail (x : List ℝ) : List ℝ := x.take 1 ++ (x.drop 1).reverse

/-- `sin(-2 pi i / n) x[i] + cos(-2 pi i / n) x[(n - i) mod n]`: the twiddles of `test_reversal_property`
(src/scalar/radix5.rs:235-241). -/
noncomputable def revTwiddle (x : List ℝ) : List ℝ :=
  (List.range x.length).map fun i : ℕ =>
    Real.sin (-2 * Real.pi * i / x.length) * x.getD i 0
      + Real.cos (-2 * Real.pi * i / x.length) * x.getD ((x.length - i) % x.length) 0

/-- Coefficient `k` of the forward discrete Fourier transform of `x`. -/
noncomputable def dftCoeff (x : List ℝ) (k : ℕ) : ℂ :=
  ∑ j ∈ range x.length, (x.getD j 0 : ℂ) * Complex.exp (-2 * Real.pi * Complex.I * j * k / x.length)

end RustDHT
