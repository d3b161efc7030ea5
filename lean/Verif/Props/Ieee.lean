import Verif.Proofs.IeeeModel
import Verif.Props.Stability

/-! # C48: `f32` and `f64` themselves

The statements about floating point so far are about any arithmetic that satisfies `FloatModel`.  Here the arithmetic is the one
that IEEE 754 prescribes, with nothing assumed but the accuracy of the functions `cos` and `sin` of `f64`. -/

namespace RustDHT

/-- Rounding is to a nearest number of the format: no finite number is nearer to `x`. -/
theorem C48_round_nearest (F : Fmt) (z : Bool) (x : ℝ) (h : (Flt.roundSigned F z x).fin) (y : Flt F) (hy : y.fin) :
    |(Flt.roundSigned F z x).val - x| ≤ |y.val - x| := Flt.roundSigned_nearest z x h y hy

/-- Numbers of the format are left alone: a number is not changed by a conversion to its own format. -/
theorem C48_convert_self (F : Fmt) (a : Flt F) : Flt.convert F a = a := Flt.convert_self a

section
variable [MathLib]

/-- `f32`: unit roundoff `2^-24`, underflow at `2^-150`, no overflow up to `2^127`, tables accurate to 2 units. -/
theorem C48_f32 (hl : MathLib.Accurate) :
    FloatModel (T := Flt binary32) Flt.fin Flt.val (2⁻¹ ^ 24) (2⁻¹ ^ 150) (2 ^ 127) 2 2 := floatModel32 hl

/-- `f64`: unit roundoff `2^-53`, underflow at `2^-1075`, no overflow up to `2^1023`, tables accurate to 69 units; but the
constant for `sqrt(1/2)`, which went through `f32`, only to `2^29` units. -/
theorem C48_f64 (hl : MathLib.Accurate) :
    FloatModel (T := Flt binary64) Flt.fin Flt.val (2⁻¹ ^ 53) (2⁻¹ ^ 1075) (2 ^ 1023) 69 (2 ^ 29) := floatModel64 hl

/-- Every composition in `f32`. -/
theorem C48_plan_f32 (hl : MathLib.Accurate) (p : Plan) (hr : p.SmallRadix4) (d : Dht (Flt binary32))
    (hd : p.build (Flt binary32) = .ok d) :
    ∃ f, Implements d f ∧
      ∀ x, x.length = d.len → (∀ a ∈ x, a.fin) → ∀ a : Stab, a = p.stability 2 2 → a.depth ≤ 2 ^ 23 →
        a.big * (√d.len * (2 * (max (norm2 (x.map Flt.val)) 1 + a.under * 2⁻¹ ^ 150 * √d.len))) ≤ 2 ^ 127 →
        (∀ y ∈ f x, y.fin) ∧
        norm2 (List.zipWith (· - ·) ((f x).map Flt.val) (dht (x.map Flt.val)))
          ≤ a.depth * 2⁻¹ ^ 23 * norm2 (dht (x.map Flt.val)) + 2 * a.under * 2⁻¹ ^ 150 * d.len := by
  obtain ⟨f, hi, h⟩ := C46_relative_error p hr (C48_f32 hl) d hd
  refine ⟨f, hi, fun x hx hf a ha hD hO => ?_⟩
  have hD' : (a.depth : ℝ) ≤ 2 ^ 23 := by exact_mod_cast hD
  obtain ⟨h1, h2⟩ := h x hx hf a ha (by
    have := mul_le_mul_of_nonneg_right hD' (show (0 : ℝ) ≤ 2⁻¹ ^ 24 by positivity)
    norm_num at this ⊢
    linarith) hO
  refine ⟨h1, h2.trans_eq ?_⟩
  rw [show (2 : ℝ) * a.depth * 2⁻¹ ^ 24 = a.depth * 2⁻¹ ^ 23 by ring]

/-- Every composition in `f64`. -/
theorem C48_plan_f64 (hl : MathLib.Accurate) (p : Plan) (hr : p.SmallRadix4) (d : Dht (Flt binary64))
    (hd : p.build (Flt binary64) = .ok d) :
    ∃ f, Implements d f ∧
      ∀ x, x.length = d.len → (∀ a ∈ x, a.fin) → ∀ a : Stab, a = p.stability 69 (2 ^ 29) → a.depth ≤ 2 ^ 52 →
        a.big * (√d.len * (2 * (max (norm2 (x.map Flt.val)) 1 + a.under * 2⁻¹ ^ 1075 * √d.len))) ≤ 2 ^ 1023 →
        (∀ y ∈ f x, y.fin) ∧
        norm2 (List.zipWith (· - ·) ((f x).map Flt.val) (dht (x.map Flt.val)))
          ≤ a.depth * 2⁻¹ ^ 52 * norm2 (dht (x.map Flt.val)) + 2 * a.under * 2⁻¹ ^ 1075 * d.len := by
  obtain ⟨f, hi, h⟩ := C46_relative_error p hr (C48_f64 hl) d hd
  refine ⟨f, hi, fun x hx hf a ha hD hO => ?_⟩
  have hD' : (a.depth : ℝ) ≤ 2 ^ 52 := by exact_mod_cast hD
  obtain ⟨h1, h2⟩ := h x hx hf a ha (by
    have := mul_le_mul_of_nonneg_right hD' (show (0 : ℝ) ≤ 2⁻¹ ^ 53 by positivity)
    norm_num at this ⊢
    linarith) hO
  refine ⟨h1, h2.trans_eq ?_⟩
  rw [show (2 : ℝ) * a.depth * 2⁻¹ ^ 53 = a.depth * 2⁻¹ ^ 52 by ring]

end

/-- The assumption about `cos` and `sin` can be met. -/
example : @MathLib.Accurate
    ⟨fun x => .roundSigned binary64 false (Real.cos x.val), fun x => .roundSigned binary64 false (Real.sin x.val)⟩ :=
  rounded_accurate

/-- A sum in `f32` that is a tie: `2^24 + 1` is rounded to even, `2^24`; and `2^24 + 3` to `2^24 + 4`. -/
example : (Flt.round binary32 false (2 ^ 24 + 1 : ℚ)).value = 2 ^ 24 ∧
    (Flt.round binary32 false (2 ^ 24 + 3 : ℚ)).value = 2 ^ 24 + 4 := by
  have h : ∀ k : ℕ, k ≤ 3 → binary32.exponent |(2 ^ 24 + k : ℚ)| = 1 := by
    intro k hk
    have e : |(2 ^ 24 + k : ℚ)| = ((2 ^ 24 + k : ℕ) : ℚ) := by push_cast; exact abs_of_pos (by positivity)
    rw [e, Fmt.exponent, Int.log_natCast, Nat.log_eq_of_pow_le_of_lt_pow (m := 24) (by omega) (by omega)]
    rfl
  have h1 := h 1 (by omega)
  have h3 := h 3 (by omega)
  push_cast at h1 h3
  have hb : ∀ q : ℚ, q ≤ 2 ^ 25 → q < 2 ^ binary32.emax := fun q hq =>
    lt_of_le_of_lt hq (by show (2 : ℚ) ^ 25 < 2 ^ (128 : ℤ); norm_num)
  constructor <;> simp [Flt.round, Fmt.mantissa, h1, h3] <;> norm_num [roundEven, Flt.value, hb]

end RustDHT
