import Verif.Proofs.IeeeTwiddle

/-! # `f32` and `f64` as instances of `FloatModel` -/

namespace RustDHT

variable [MathLib]

theorem floatModel32 (hl : MathLib.Accurate) :
    FloatModel (T := Flt binary32) Flt.fin Flt.val (2⁻¹ ^ 24) (2⁻¹ ^ 150) (2 ^ 127) 2 2 := by
  have h := Flt.floatModel (F := binary32) hl fits32 2 (by decide) (by decide) (by decide) (by
    show (2⁻¹ : ℝ) ^ 24 * (3 / 4) + 2 ^ (-150 : ℤ) + 2⁻¹ ^ 24 * (3 / 4) ≤ (2 : ℕ) * 2⁻¹ ^ 24
    norm_num)
  have e1 : (2 : ℝ) ^ (binary32.emin - 1) = 2⁻¹ ^ 150 := by
    show (2 : ℝ) ^ (-150 : ℤ) = _
    rw [zpow_neg, inv_pow]
    norm_cast
  have e2 : (2 : ℝ) ^ (binary32.emax - 1) = 2 ^ 127 := by
    show (2 : ℝ) ^ (127 : ℤ) = _
    norm_cast
  rw [e1, e2] at h
  exact h

theorem floatModel64 (hl : MathLib.Accurate) :
    FloatModel (T := Flt binary64) Flt.fin Flt.val (2⁻¹ ^ 53) (2⁻¹ ^ 1075) (2 ^ 1023) 69 (2 ^ 29) := by
  have h := Flt.floatModel (F := binary64) hl fits64 (2 ^ 29) (by decide) (by decide) (by decide) (by
    show u64 * (3 / 4) + h64 + 2⁻¹ ^ 24 * (3 / 4) ≤ ((2 ^ 29 : ℕ) : ℝ) * u64
    have := h64_le
    have e : (2⁻¹ : ℝ) ^ 24 = 2 ^ 29 * u64 := by unfold u64; norm_num
    have h0 := u64_pos
    rw [e]
    push_cast
    nlinarith)
  have e1 : (2 : ℝ) ^ (binary64.emin - 1) = 2⁻¹ ^ 1075 := by
    show (2 : ℝ) ^ (-((1075 : ℕ) : ℤ)) = _
    rw [zpow_neg, inv_pow, zpow_natCast]
  have e2 : (2 : ℝ) ^ (binary64.emax - 1) = 2 ^ 1023 := by
    exact zpow_natCast 2 1023
  rw [e1, e2] at h
  exact h

omit [MathLib] in
/-- Correctly rounded functions are accurate. -/
theorem rounded_accurate : @MathLib.Accurate
    ⟨fun x => .roundSigned binary64 false (Real.cos x.val), fun x => .roundSigned binary64 false (Real.sin x.val)⟩ := by
  have key : ∀ y : ℝ, |y| ≤ 1 → (Flt.roundSigned binary64 false y).fin ∧
      |(Flt.roundSigned binary64 false y).val - y| ≤ 2⁻¹ ^ 52 := by
    intro y hy
    obtain ⟨h1, h2, -⟩ := Flt.roundSigned_spec (F := binary64) (by decide) false y (big64 (hy.trans (by norm_num)))
    refine ⟨h1, h2.trans ?_⟩
    change u64 * |y| + h64 ≤ _
    have e : (2⁻¹ : ℝ) ^ 52 = 2 * u64 := by unfold u64; norm_num
    have := mul_le_mul_of_nonneg_left hy u64_pos.le
    rw [e]
    linarith [h64_le]
  exact @MathLib.Accurate.mk (_) (fun x _ _ => key _ (Real.abs_cos_le_one _)) fun x _ _ => key _ (Real.abs_sin_le_one _)

end RustDHT
