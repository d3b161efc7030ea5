import Verif.Model.PatchedFloat
import Verif.Proofs.IeeeModel

/-! # `f64` with the patched constant as an instance of `FloatModel` -/

namespace RustDHT

variable [MathLib]

theorem sqrtHalfPatched_spec :
    (@FftNum.sqrtHalfF32 _ (ieeePatched binary64)).fin ∧
    |(@FftNum.sqrtHalfF32 _ (ieeePatched binary64)).val - √(1 / 2)| ≤ (1 : ℕ) * 2⁻¹ ^ 53 := by
  have e : @FftNum.sqrtHalfF32 _ (ieeePatched binary64) = Flt.roundSigned binary64 false √(1 / 2) := Flt.convert_self _
  rw [e]
  have h1 : √(1 / 2 : ℝ) ≤ 0.71 := Real.sqrt_le_iff.2 ⟨by norm_num, by norm_num⟩
  have h0 : 0 ≤ √(1 / 2 : ℝ) := Real.sqrt_nonneg _
  have hb : |√(1 / 2 : ℝ)| ≤ (2 : ℝ) ^ (binary64.emax - 1) := by
    rw [abs_of_nonneg h0]
    exact h1.trans ((by norm_num : (0.71 : ℝ) ≤ 1).trans (one_le_zpow₀ (by norm_num) (by decide)))
  obtain ⟨k1, k2, -⟩ := Flt.roundSigned_spec (F := binary64) (by decide) false (√(1 / 2 : ℝ)) hb
  refine ⟨k1, ?_⟩
  rw [abs_of_nonneg h0] at k2
  change |(Flt.roundSigned binary64 false √(1 / 2 : ℝ)).val - √(1 / 2)| ≤ u64 * √(1 / 2) + h64 at k2
  have h2 := h64_small
  have h3 := u64_pos
  have h4 : u64 * √(1 / 2 : ℝ) ≤ u64 * 0.71 := mul_le_mul_of_nonneg_left h1 h3.le
  show _ ≤ ((1 : ℕ) : ℝ) * u64
  norm_num at *
  linarith

theorem floatModel64Patched (hl : MathLib.Accurate) :
    @FloatModel (Flt binary64) _ _ _ _ _ (ieeePatched binary64) Flt.fin Flt.val (2⁻¹ ^ 53) (2⁻¹ ^ 1075) (2 ^ 1023) 69 1 :=
  have h := floatModel64 hl
  @FloatModel.mk (Flt binary64) _ _ _ _ _ (ieeePatched binary64) _ _ _ _ _ _ _ h.u_nonneg h.η_nonneg h.η_le h.zero h.add h.sub
    h.mul h.neg h.cos h.sin h.cosFwd h.sinFwd sqrtHalfPatched_spec h.half h.norm

end RustDHT
