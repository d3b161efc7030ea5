import Verif.Spec.Rounding
import Mathlib.Data.Int.Log

/-! # A floating-point arithmetic with the precision and range of `f32`

An arithmetic with 24 significant bits, numbers up to `2^127`, products flushed to zero below `2^-126`, and a value for
everything that is not finite.  It serves as a concrete case of `FloatModel`; it is not claimed to be bit for bit the
arithmetic of a processor. -/

namespace RustDHT

/-- Keep 24 significant bits, rounding towards minus infinity. -/
noncomputable def round24 (x : ℝ) : ℝ := ⌊x / (2 : ℝ) ^ (Int.log 2 |x| - 23)⌋ * (2 : ℝ) ^ (Int.log 2 |x| - 23)

theorem round24_err (x : ℝ) : |round24 x - x| ≤ 2⁻¹ ^ 23 * |x| := by
  rcases eq_or_ne x 0 with rfl | hx
  · simp [round24]
  have hp : (0 : ℝ) < 2 ^ (Int.log 2 |x| - 23) := by positivity
  have h1 := Int.floor_le (x / (2 : ℝ) ^ (Int.log 2 |x| - 23))
  have h2 := Int.lt_floor_add_one (x / (2 : ℝ) ^ (Int.log 2 |x| - 23))
  rw [le_div_iff₀ hp] at h1
  rw [div_lt_iff₀ hp] at h2
  have h3 : (2 : ℝ) ^ (Int.log 2 |x|) ≤ |x| := by
    have := Int.zpow_log_le_self (b := 2) (by norm_num) (abs_pos.2 hx)
    exact_mod_cast this
  have h4 : (2 : ℝ) ^ (Int.log 2 |x| - 23) = 2⁻¹ ^ 23 * 2 ^ (Int.log 2 |x|) := by
    rw [zpow_sub₀ (by norm_num), div_eq_mul_inv, mul_comm]
    norm_num
  have h5 : (2 : ℝ) ^ (Int.log 2 |x| - 23) ≤ 2⁻¹ ^ 23 * |x| := h4 ▸ mul_le_mul_of_nonneg_left h3 (by positivity)
  rw [abs_le]
  unfold round24
  generalize (2 : ℝ) ^ (Int.log 2 |x| - 23) = e at *
  constructor
  · linarith
  · linarith

/-- `other` stands for infinities and NaN. -/
inductive Single
  | num (x : ℝ)
  | other

namespace Single

/-- Round, or overflow. -/
noncomputable def rounded (x : ℝ) : Single := if |x| ≤ 2 ^ 127 then num (round24 x) else other

/-- Round a product, flushing small ones to zero. -/
noncomputable def product (x : ℝ) : Single := if |x| < 2⁻¹ ^ 126 then num 0 else rounded x

noncomputable instance : Zero Single := ⟨num 0⟩
noncomputable instance : Add Single := ⟨fun | num x, num y => rounded (x + y) | _, _ => other⟩
noncomputable instance : Sub Single := ⟨fun | num x, num y => rounded (x - y) | _, _ => other⟩
noncomputable instance : Mul Single := ⟨fun | num x, num y => product (x * y) | _, _ => other⟩
noncomputable instance : Neg Single := ⟨fun | num x => num (-x) | other => other⟩

/-- Constants are rounded; `sqrt(1/2)` is the single-precision number closest to it. -/
noncomputable instance : FftNum Single where
  F64 := ℝ
  f64 := exactReal.f64
  fromF64 x := num (round24 x)
  sqrtHalfF32 := num (11863283 / 2 ^ 24 : ℝ)
  halfF32 := num (1 / 2 : ℝ)

/-- Finite. -/
def fin : Single → Prop
  | num _ => True
  | other => False

/-- The value of a finite number. -/
noncomputable def val : Single → ℝ
  | num x => x
  | other => 0

theorem rounded_spec {x : ℝ} (h : |x| ≤ 2 ^ 127) : fin (rounded x) ∧ |val (rounded x) - x| ≤ 2⁻¹ ^ 23 * |x| := by
  rw [rounded, if_pos h]
  exact ⟨trivial, round24_err x⟩

theorem product_spec {x : ℝ} (h : |x| ≤ 2 ^ 127) :
    fin (product x) ∧ |val (product x) - x| ≤ 2⁻¹ ^ 23 * |x| + 2⁻¹ ^ 126 := by
  rw [product]
  split
  · rename_i h1
    refine ⟨trivial, ?_⟩
    show |0 - x| ≤ _
    rw [zero_sub, abs_neg]
    have : (0 : ℝ) ≤ 2⁻¹ ^ 23 * |x| := by positivity
    linarith
  · obtain ⟨h1, h2⟩ := rounded_spec h
    exact ⟨h1, by have : (0 : ℝ) ≤ 2⁻¹ ^ 126 := by positivity
                  linarith⟩

theorem round24_const {x : ℝ} (h : |x| ≤ 1) : |round24 x - x| ≤ (1 : ℕ) * 2⁻¹ ^ 23 := by
  refine (round24_err x).trans ?_
  have : (0 : ℝ) ≤ 2⁻¹ ^ 23 := by positivity
  push_cast
  nlinarith

/-- It is a floating-point arithmetic, with tables accurate to one unit and `sqrt(1/2)` as well. -/
theorem floatModel : FloatModel fin val (2⁻¹ ^ 23) (2⁻¹ ^ 126) (2 ^ 127) 1 1 where
  u_nonneg := by positivity
  η_nonneg := by positivity
  η_le := pow_le_pow_of_le_one (by norm_num) (by norm_num) (by norm_num)
  zero := ⟨trivial, rfl⟩
  add := by
    rintro (x | _) (y | _) ha hb h <;> try cases ha <;> try cases hb
    exact rounded_spec h
  sub := by
    rintro (x | _) (y | _) ha hb h <;> try cases ha <;> try cases hb
    exact rounded_spec h
  mul := by
    rintro (x | _) (y | _) ha hb h <;> try cases ha <;> try cases hb
    exact product_spec h
  neg := by
    rintro (x | _) ha
    · exact ⟨trivial, rfl⟩
    · cases ha
  cos i n _ := ⟨trivial, by
    rw [show 2 * Real.pi * i / n = 2 * Real.pi / n * i by ring]; exact round24_const (Real.abs_cos_le_one _)⟩
  sin i n _ := ⟨trivial, by
    rw [show 2 * Real.pi * i / n = 2 * Real.pi / n * i by ring]; exact round24_const (Real.abs_sin_le_one _)⟩
  cosFwd i n _ := ⟨trivial, by
    rw [show 2 * Real.pi * i / n = -(-2 * Real.pi / n * i) by ring, Real.cos_neg]; exact round24_const (Real.abs_cos_le_one _)⟩
  sinFwd i n _ := ⟨trivial, by
    rw [show 2 * Real.pi * i / n = -(-2 * Real.pi / n * i) by ring, Real.sin_neg, neg_neg]
    exact round24_const (Real.abs_sin_le_one _)⟩
  sqrtHalf := ⟨trivial, by
    show |(11863283 / 2 ^ 24 : ℝ) - √(1 / 2)| ≤ _
    have h1 : (11863282 / 2 ^ 24 : ℝ) ≤ √(1 / 2) := Real.le_sqrt_of_sq_le (by norm_num)
    have h2 : √(1 / 2) ≤ (11863284 / 2 ^ 24 : ℝ) := Real.sqrt_le_iff.2 ⟨by norm_num, by norm_num⟩
    rw [abs_le]
    constructor <;> norm_num at * <;> linarith⟩
  half := ⟨trivial, rfl⟩
  norm n hn := ⟨trivial, by
    have h0 : (0 : ℝ) < (1 : ℕ) / (n : ℝ) := by positivity
    have h1 : ((1 : ℕ) : ℝ) / (n : ℝ) ≤ 1 := by rw [div_le_one (by positivity)]; exact_mod_cast hn
    have := round24_const (x := ((1 : ℕ) : ℝ) / n) (by rw [abs_of_pos h0]; exact h1)
    rwa [show (1 : ℝ) / n = ((1 : ℕ) : ℝ) / n by simp]⟩

end Single

end RustDHT
