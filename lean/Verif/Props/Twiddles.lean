import Verif.Spec.Dht
import Verif.Spec.Roots
import Verif.Proofs.ExactSign
import Mathlib.RingTheory.RootsOfUnity.Complex

/-! # C90: the functions of `src/twiddles.rs` by themselves -/

namespace RustDHT

open Complex

/-- In exact arithmetic the three functions return `cas (2πi/n)`, `exp (2π√-1 i/n)` and the conjugate of that, for all indices, also
above the length. -/
theorem C90_values (i n : ℕ) (_hn : 0 < n) :
    computeDhtTwiddle ℝ i n = cas (2 * Real.pi * i / n) ∧
    (computeDftTwiddleInverse ℝ i n).toComplex = exp (2 * Real.pi * I * i / n) ∧
    (computeDftTwiddleForward ℝ i n).toComplex = exp (-(2 * Real.pi * I * i / n)) := by
  have e : ((2 * Real.pi / n * i : ℝ) : ℂ) * I = 2 * Real.pi * I * i / n := by push_cast; ring
  have e' : ((-2 * Real.pi / n * i : ℝ) : ℂ) * I = -(2 * Real.pi * I * i / n) := by push_cast; ring
  refine ⟨?_, ?_, ?_⟩
  · change Real.cos (((2 : ℕ) : ℝ) * Real.pi / n * i) + Real.sin (((2 : ℕ) : ℝ) * Real.pi / n * i) = _
    rw [cas, show ((2 : ℕ) : ℝ) * Real.pi / n * i = 2 * Real.pi * i / n by push_cast; ring]
  · change (⟨Real.cos (((2 : ℕ) : ℝ) * Real.pi / n * i), Real.sin (((2 : ℕ) : ℝ) * Real.pi / n * i)⟩ : ℂ) = _
    rw [← e]
    refine Complex.ext ?_ ?_
    · rw [exp_ofReal_mul_I_re, Nat.cast_ofNat]
    · rw [exp_ofReal_mul_I_im, Nat.cast_ofNat]
  · change (⟨Real.cos (-((2 : ℕ) : ℝ) * Real.pi / n * i), Real.sin (-((2 : ℕ) : ℝ) * Real.pi / n * i)⟩ : ℂ) = _
    rw [← e']
    refine Complex.ext ?_ ?_
    · rw [exp_ofReal_mul_I_re, Nat.cast_ofNat]
    · rw [exp_ofReal_mul_I_im, Nat.cast_ofNat]

/-- The entries of a table are the powers of a primitive root of unity, and a table of a divisor is part of the table. -/
theorem C90_roots_of_unity (n : ℕ) (hn : 0 < n) :
    IsPrimitiveRoot (computeDftTwiddleInverse ℝ 1 n).toComplex n ∧
    (∀ i, (computeDftTwiddleInverse ℝ i n).toComplex = (computeDftTwiddleInverse ℝ 1 n).toComplex ^ i) ∧
    (∀ i, (computeDftTwiddleInverse ℝ i n).toComplex * (computeDftTwiddleForward ℝ i n).toComplex = 1) ∧
    ∀ i k, 0 < k → computeDftTwiddleInverse ℝ (i * k) (n * k) = computeDftTwiddleInverse ℝ i n := by
  refine ⟨?_, fun i => ?_, fun i => ?_, fun i k hk => ?_⟩
  · rw [(C90_values 1 n hn).2.1, Nat.cast_one, mul_one]
    exact isPrimitiveRoot_exp n hn.ne'
  · rw [(C90_values i n hn).2.1, (C90_values 1 n hn).2.1, ← exp_nat_mul]
    congr 1
    push_cast
    ring
  · rw [(C90_values i n hn).2.1, (C90_values i n hn).2.2, ← exp_add, add_neg_cancel, exp_zero]
  · have hn' : (n : ℝ) ≠ 0 := by positivity
    have hk' : (k : ℝ) ≠ 0 := by positivity
    have : ((2 : ℕ) : ℝ) * Real.pi / ((n * k : ℕ) : ℝ) * ((i * k : ℕ) : ℝ) = ((2 : ℕ) : ℝ) * Real.pi / n * i := by
      push_cast
      field_simp
    change (⟨Real.cos (((2 : ℕ) : ℝ) * Real.pi / ((n * k : ℕ) : ℝ) * ((i * k : ℕ) : ℝ)),
      Real.sin (((2 : ℕ) : ℝ) * Real.pi / ((n * k : ℕ) : ℝ) * ((i * k : ℕ) : ℝ))⟩ : Cx ℝ) = _
    rw [this]
    rfl

/-- In every arithmetic the factor of `DhtNaive` is the sum of the components of the complex one. -/
theorem C90_sum (T : Type) [Add T] [FftNum T] (i n : ℕ) :
    computeDhtTwiddle T i n = (computeDftTwiddleInverse T i n).re + (computeDftTwiddleInverse T i n).im := rfl

/-- In floating point, of any format: the forward factor is the conjugate of the inverse one, bit for bit, whatever the accuracy of
`cos` and `sin`, if they are even and odd. -/
theorem C90_conjugate (F : Fmt) [MathLib] (hs : MathLib.Symmetric) (i n : ℕ) (hi : i < 2 ^ 64) (hn : n < 2 ^ 64) :
    computeDftTwiddleForward (Flt F) i n = (computeDftTwiddleInverse (Flt F) i n).conj := by
  have hw : ∀ k, k < 2 ^ 64 → Wide.ops.ofNat k = .f64 (.ofNat binary64 k) := fun k hk => if_pos hk
  have h2 := hw 2 (by norm_num)
  have h3 := hw n hn
  have h4 := hw i hi
  let θ : Flt binary64 := Flt.ofNat binary64 2 * Flt.pi64 / Flt.ofNat binary64 n * Flt.ofNat binary64 i
  have einv : computeDftTwiddleInverse (Flt F) i n = ⟨.convert F (MathLib.cos θ), .convert F (MathLib.sin θ)⟩ := by
    simp only [computeDftTwiddleInverse, FftNum.f64, FftNum.fromF64, h2, h3, h4]
    rfl
  have efwd : computeDftTwiddleForward (Flt F) i n = ⟨.convert F (MathLib.cos (-θ)), .convert F (MathLib.sin (-θ))⟩ := by
    have : -Flt.ofNat binary64 2 * Flt.pi64 / Flt.ofNat binary64 n * Flt.ofNat binary64 i = -θ := by
      rw [Flt.neg_mul_exact, Flt.neg_div_exact, Flt.neg_mul_exact]
    rw [← this]
    simp only [computeDftTwiddleForward, FftNum.f64, FftNum.fromF64, h2, h3, h4]
    rfl
  rw [efwd, einv, hs.cos, hs.sin, Flt.convert_neg]
  rfl

/-- There is such a library. -/
example : ∃ l : MathLib, @MathLib.Symmetric l :=
  ⟨⟨fun _ => 0, fun x => x⟩, @MathLib.Symmetric.mk ⟨fun _ => 0, fun x => x⟩ (fun _ => rfl) fun _ => rfl⟩

/-- A case that is not trivial: the first entry of the table for length 4 is the imaginary unit. -/
example : (computeDftTwiddleInverse ℝ 1 4).toComplex = I := by
  rw [(C90_values 1 4 (by norm_num)).2.1, show (2 * Real.pi * I * (1 : ℕ) / (4 : ℕ) : ℂ) = Real.pi / 2 * I by push_cast; ring]
  exact exp_pi_div_two_mul_I

end RustDHT
