import Verif.Model.Twiddles
import Verif.Spec.Contract
import Mathlib.Analysis.SpecialFunctions.Trigonometric.Basic
import Mathlib.Analysis.Real.Sqrt

/-! # The discrete Hartley transform, and exact arithmetic

The transform is the textbook sum; it refers to nothing of the model. -/

namespace RustDHT

open Finset

/-- `cas t = cos t + sin t` -/
noncomputable def cas (t : ℝ) : ℝ := Real.cos t + Real.sin t

/-- Coefficient `k` of the DHT of `x`: the sum of `x[i] * cas (2 pi i k / n)`, `n` the length of `x`. -/
noncomputable def dhtCoeff (x : List ℝ) (k : ℕ) : ℝ :=
  ∑ i ∈ range x.length, x.getD i 0 * cas (2 * Real.pi * i * k / x.length)

/-- The discrete Hartley transform of `x`. -/
noncomputable def dht (x : List ℝ) : List ℝ := (List.range x.length).map (dhtCoeff x)

/-- Exact arithmetic: the number type is `ℝ`, and so is the type that stands for `f64`; cos, sin, pi and the constants
`sqrt(1/2)` and `1/2` are the real ones, and conversions are the identity. -/
noncomputable instance exactReal : FftNum ℝ where
  F64 := ℝ
  f64 :=
    { ofNat := fun n => (n : ℝ)
      pi := Real.pi
      neg := fun a => -a
      mul := fun a b => a * b
      div := fun a b => a / b
      cos := Real.cos
      sin := Real.sin }
  fromF64 := fun a => a
  sqrtHalfF32 := √(1 / 2)
  halfF32 := 1 / 2

/-- The object `d` computes the DHT of its length, in exact arithmetic, and honours the trait contract. -/
def ComputesDht (d : Dht ℝ) : Prop := Implements d dht

/-- The method `process` of `d`, which allocates the scratch itself, computes the DHT of every chunk. -/
def ProcessesDht (d : Dht ℝ) : Prop :=
  ∀ buffer : List ℝ, d.len ≤ buffer.length → d.len ∣ buffer.length →
    d.process buffer = .ok (mapChunks d.len dht buffer)

end RustDHT
