import Verif.Spec.Conv

/-! # The power spectrum out of Hartley coefficients -/

namespace RustDHT

/-- `(X[k]² + X[-k]²) / 2` -/
noncomputable def powerSpectrum (X : List ℝ) : List ℝ :=
  (List.range X.length).map fun k : ℕ => (X.getD k 0 ^ 2 + mirrored X k ^ 2) / 2

/-- The circular autocorrelation: element `m` is the sum of `x[i] x[i - m]`, indices modulo the length. -/
noncomputable def autocorrelation (x : List ℝ) : List ℝ :=
  (List.range x.length).map fun m : ℕ => ∑ i ∈ Finset.range x.length, x.getD i 0 * x.getD ((i + (x.length - m)) % x.length) 0

end RustDHT
