import Verif.Proofs.Ieee
import Verif.Spec.Rounding
import Mathlib.Analysis.Real.Pi.Bounds
import Mathlib.Analysis.SpecialFunctions.Trigonometric.Bounds

/-! # Accuracy of the tables in IEEE 754 arithmetic -/

namespace RustDHT

/-- The unit roundoff of `f64`. -/
noncomputable def u64 : ℝ := 2⁻¹ ^ 53
/-- Half of the smallest number of `f64`. -/
noncomputable def h64 : ℝ := 2 ^ (-1075 : ℤ)

theorem u64_pos : 0 < u64 := by unfold u64; positivity
theorem u64_le : u64 ≤ 1 / 10 ^ 10 := by unfold u64; norm_num
theorem h64_pos : 0 < h64 := by unfold h64; positivity
theorem h64_small : h64 * 2 ^ 70 ≤ u64 := by
  have e1 : (2 : ℝ) ^ 70 = 2 ^ (70 : ℤ) := by norm_cast
  have e2 : u64 = 2 ^ (-53 : ℤ) := by unfold u64; norm_num
  rw [h64, e1, e2, ← zpow_add₀ (by norm_num)]
  exact zpow_le_zpow_right₀ one_le_two (by norm_num)
theorem h64_le : h64 ≤ u64 := le_trans (le_mul_of_one_le_right h64_pos.le (by norm_num)) h64_small

theorem big64 {x : ℝ} (h : x ≤ 2 ^ 64) : x ≤ (2 : ℝ) ^ (binary64.emax - 1) := by
  refine h.trans ?_
  rw [← zpow_natCast]
  exact zpow_le_zpow_right₀ one_le_two (by decide)

namespace Wide

variable [MathLib]

/-- Finite. -/
def ok : Wide → Prop
  | f64 x => x.fin
  | beyond _ => True

theorem ofNat_spec (n : ℕ) : (ops.ofNat n).ok ∧ |(ops.ofNat n).val - n| ≤ u64 * n := by
  by_cases hn : n < 2 ^ 64
  · have e : ops.ofNat n = f64 (.ofNat binary64 n) := if_pos hn
    rw [e]
    refine Flt.ofNat_spec (F := binary64) (by decide) (by decide) n (big64 ?_)
    exact_mod_cast hn.le
  · have e : ops.ofNat n = beyond n := if_neg hn
    rw [e]
    refine ⟨trivial, ?_⟩
    show |(n : ℝ) - n| ≤ _
    rw [sub_self, abs_zero]
    exact mul_nonneg u64_pos.le (Nat.cast_nonneg n)

theorem neg_spec (a : Wide) (ha : a.ok) : (ops.neg a).ok ∧ (ops.neg a).val = -a.val := by
  match a, ha with
  | f64 a, ha => exact Flt.neg_spec a ha
  | beyond a, _ => exact ⟨trivial, rfl⟩

theorem mul_spec (a b : Wide) (ha : a.ok) (hb : b.ok) (h : |a.val * b.val| ≤ 2 ^ 64) :
    (ops.mul a b).ok ∧ |(ops.mul a b).val - a.val * b.val| ≤ u64 * |a.val * b.val| + h64 := by
  have h0 : 0 ≤ u64 * |a.val * b.val| + h64 := add_nonneg (mul_nonneg u64_pos.le (abs_nonneg _)) h64_pos.le
  match a, b, ha, hb with
  | f64 a, f64 b, ha, hb => exact Flt.mul_spec (by decide) a b ha hb (big64 h)
  | beyond a, b, _, _ => exact ⟨trivial, by show |_ * _ - _ * _| ≤ _; rwa [sub_self, abs_zero]⟩
  | f64 a, beyond b, _, _ => exact ⟨trivial, by show |_ * _ - _ * _| ≤ _; rwa [sub_self, abs_zero]⟩

/-- Quotients that are not tiny. -/
theorem div_spec (a : Wide) (ha : a.ok) (n : ℕ) (hn : 0 < n) (h1 : 1 / 2 ≤ |a.val|) (h2 : |a.val| ≤ 7) :
    (ops.div a (ops.ofNat n)).ok ∧
      |(ops.div a (ops.ofNat n)).val * n - a.val| ≤ 23 * u64 := by
  obtain ⟨ok, hv⟩ := ofNat_spec n
  have hn' : (1 : ℝ) ≤ n := by exact_mod_cast hn
  have hu0 := u64_pos
  have hu := u64_le
  rw [abs_le] at hv
  have hlo : (n : ℝ) * (9 / 10) ≤ (ops.ofNat n).val := by nlinarith
  have hpos : 0 < (ops.ofNat n).val := by linarith
  have key : |(ops.div a (ops.ofNat n)).val - a.val / (ops.ofNat n).val| ≤ 2 * u64 * |a.val / (ops.ofNat n).val| ∧
      (ops.div a (ops.ofNat n)).ok := by
    have h0 : 0 ≤ 2 * u64 * |a.val / (ops.ofNat n).val| := by positivity
    by_cases hb : n < 2 ^ 64
    · have e : ops.ofNat n = f64 (.ofNat binary64 n) := if_pos hb
      rw [e] at ok hv hlo hpos h0 ⊢
      match a, ha with
      | f64 a, ha =>
        change (Flt.ofNat binary64 n).fin at ok
        change 0 < (Flt.ofNat binary64 n).val at hpos
        change (n : ℝ) * (9 / 10) ≤ (Flt.ofNat binary64 n).val at hlo
        change 1 / 2 ≤ |a.val| at h1
        change |a.val| ≤ 7 at h2
        change -(u64 * n) ≤ (Flt.ofNat binary64 n).val - n ∧ (Flt.ofNat binary64 n).val - n ≤ u64 * n at hv
        show |(a / Flt.ofNat binary64 n).val - a.val / (Flt.ofNat binary64 n).val|
          ≤ 2 * u64 * |a.val / (Flt.ofNat binary64 n).val| ∧ (a / Flt.ofNat binary64 n).fin
        have hq : |a.val / (Flt.ofNat binary64 n).val| ≤ 2 ^ 64 := by
          rw [abs_div, abs_of_pos hpos, div_le_iff₀ hpos]
          nlinarith
        obtain ⟨r1, r2⟩ := Flt.div_spec (F := binary64) (by decide) a (.ofNat binary64 n) ha ok hpos.ne' (big64 hq)
        refine ⟨r2.trans ?_, r1⟩
        have hsmall : h64 ≤ u64 * |a.val / (Flt.ofNat binary64 n).val| := by
          have hb' : (n : ℝ) ≤ 2 ^ 64 := by exact_mod_cast hb.le
          have hge : (1 : ℝ) / 2 ^ 70 ≤ |a.val / (Flt.ofNat binary64 n).val| := by
            rw [abs_div, abs_of_pos hpos, le_div_iff₀ hpos]
            have : (Flt.ofNat binary64 n).val ≤ 2 ^ 65 := by nlinarith
            have e2 : (1 : ℝ) / 2 ^ 70 * 2 ^ 65 ≤ 1 / 2 := by norm_num
            have e3 := mul_le_mul_of_nonneg_left this (show (0 : ℝ) ≤ 1 / 2 ^ 70 by positivity)
            linarith
          have := mul_le_mul_of_nonneg_left hge hu0.le
          have h70 := h64_small
          have e4 : h64 = h64 * 2 ^ 70 * (1 / 2 ^ 70) := by
            rw [mul_assoc, mul_one_div_cancel (by positivity), mul_one]
          rw [e4]
          exact le_trans (mul_le_mul_of_nonneg_right h70 (by positivity)) this
        change u64 * |a.val / (Flt.ofNat binary64 n).val| + h64 ≤ _
        linarith
      | beyond a, _ =>
        exact ⟨by show |_ / _ - _ / _| ≤ _; rwa [sub_self, abs_zero], trivial⟩
    · have e : ops.ofNat n = beyond n := if_neg hb
      rw [e] at h0 ⊢
      match a, ha with
      | f64 a, _ => exact ⟨by show |_ / _ - _ / _| ≤ _; rwa [sub_self, abs_zero], trivial⟩
      | beyond a, _ => exact ⟨by show |_ / _ - _ / _| ≤ _; rwa [sub_self, abs_zero], trivial⟩
  refine ⟨key.2, ?_⟩
  have k1 := key.1
  generalize (ops.div a (ops.ofNat n)).val = r at *
  generalize (ops.ofNat n).val = w at *
  generalize a.val = c at *
  have hN : (0 : ℝ) < n := by linarith
  -- the quotient times `n`
  have q1 : |c / w * n - c| ≤ 8 * u64 := by
    have e : c / w * n - c = c * ((n - w) / w) := by field_simp
    rw [e, abs_mul, abs_div, abs_of_pos hpos]
    have : |(n : ℝ) - w| / w ≤ 8 / 7 * u64 := by
      rw [div_le_iff₀ hpos, abs_le]
      constructor <;> nlinarith
    calc |c| * (|(n : ℝ) - w| / w) ≤ 7 * (8 / 7 * u64) := mul_le_mul h2 this (by positivity) (by norm_num)
      _ = 8 * u64 := by ring
  have q2 : |c / w| * n ≤ 7 + 8 * u64 := by
    have : |c / w * n| ≤ |c| + 8 * u64 := by
      have := abs_add_le (c / w * n - c) c
      rw [sub_add_cancel] at this
      linarith
    rw [abs_mul, abs_of_pos hN] at this
    linarith
  have e : r * n - c = (r - c / w) * n + (c / w * n - c) := by ring
  rw [e]
  refine (abs_add_le _ _).trans ?_
  rw [abs_mul, abs_of_pos hN]
  have h3 := mul_le_mul_of_nonneg_right k1 hN.le
  have h4 : 2 * u64 * |c / w| * n ≤ 2 * u64 * (7 + 8 * u64) := by
    rw [mul_assoc]; exact mul_le_mul_of_nonneg_left q2 (by positivity)
  have h5 : u64 * u64 ≤ u64 * (1 / 10 ^ 10) := mul_le_mul_of_nonneg_left hu hu0.le
  linarith

theorem pi_spec : (ops.pi).ok ∧ |ops.pi.val - Real.pi| ≤ 5 * u64 := by
  have hb : |((884279719003555 / 2 ^ 48 : ℚ) : ℝ)| ≤ (2 : ℝ) ^ (binary64.emax - 1) := big64 (by
    push_cast; rw [abs_of_pos (by norm_num)]; norm_num)
  obtain ⟨h1, h2, -⟩ := Flt.round_rat (F := binary64) (by decide) false (884279719003555 / 2 ^ 48 : ℚ) hb
  refine ⟨h1, ?_⟩
  have e : ops.pi.val = (Flt.round binary64 false (884279719003555 / 2 ^ 48 : ℚ)).val := rfl
  rw [← e] at h2
  change |ops.pi.val - (|((884279719003555 / 2 ^ 48 : ℚ) : ℝ)|)| ≤ u64 * |((884279719003555 / 2 ^ 48 : ℚ) : ℝ)| + h64 at h2
  have e2 : |((884279719003555 / 2 ^ 48 : ℚ) : ℝ)| = 884279719003555 / 2 ^ 48 := by
    push_cast; exact abs_of_pos (by norm_num)
  rw [e2] at h2
  have hh := h64_small
  have h0 := h64_pos
  have hu0 := u64_pos
  have g1 := Real.pi_gt_d20
  have g2 := Real.pi_lt_d20
  generalize ops.pi.val = p at *
  have hu : (11102230246251565 : ℝ) / 10 ^ 32 ≤ u64 := by unfold u64; norm_num
  rw [abs_le] at h2 ⊢
  norm_num at h2 hh hu g1 g2
  constructor <;> linarith


/-- The constants `2π` and `-2π`, as the tables compute them from a number that is nearly `σ * 2`. -/
theorem two_pi_spec (b : Wide) (hb : b.ok) (σ : ℝ) (hσ : |σ| = 1) (h : |b.val - σ * 2| ≤ 2 * u64) :
    (ops.mul b ops.pi).ok ∧ |(ops.mul b ops.pi).val - σ * (2 * Real.pi)| ≤ 25 * u64 := by
  obtain ⟨hp, hv⟩ := pi_spec
  have hh := h64_le
  have h0 := h64_pos
  have hu0 := u64_pos
  have hu := u64_le
  have g1 := Real.pi_gt_d2
  have g2 := Real.pi_lt_d2
  have hs : |b.val| ≤ 2.1 := by
    have := abs_add_le (b.val - σ * 2) (σ * 2)
    rw [sub_add_cancel, abs_mul, hσ, abs_of_pos (by norm_num : (0 : ℝ) < 2)] at this
    norm_num at hu ⊢
    linarith
  have hp4 : |ops.pi.val| ≤ 3.16 := by
    rw [abs_le] at hv ⊢
    norm_num at hu g1 g2 ⊢
    constructor <;> linarith
  have hprod : |b.val * ops.pi.val| ≤ 7 := by
    rw [abs_mul]
    refine (mul_le_mul hs hp4 (abs_nonneg _) (by norm_num)).trans (by norm_num)
  obtain ⟨r1, r2⟩ := mul_spec b ops.pi hb hp (hprod.trans (by norm_num))
  refine ⟨r1, ?_⟩
  have e : (ops.mul b ops.pi).val - σ * (2 * Real.pi)
      = ((ops.mul b ops.pi).val - b.val * ops.pi.val) + (b.val * (ops.pi.val - Real.pi) + (b.val - σ * 2) * Real.pi) := by ring
  rw [e]
  have t1 := abs_add_le ((ops.mul b ops.pi).val - b.val * ops.pi.val)
    (b.val * (ops.pi.val - Real.pi) + (b.val - σ * 2) * Real.pi)
  have t2 := abs_add_le (b.val * (ops.pi.val - Real.pi)) ((b.val - σ * 2) * Real.pi)
  rw [abs_mul b.val, abs_mul _ Real.pi, abs_of_pos Real.pi_pos] at t2
  have t3 := mul_le_mul hs hv (abs_nonneg _) (by norm_num)
  have t4 := mul_le_mul h g2.le Real.pi_pos.le (by positivity)
  have t5 := mul_le_mul_of_nonneg_left hprod hu0.le
  norm_num at t3 t4
  linarith

/-- The angles. -/
theorem angle_spec (c : Wide) (hc : c.ok) (σ : ℝ) (hσ : |σ| = 1) (h : |c.val - σ * (2 * Real.pi)| ≤ 25 * u64) {i n : ℕ}
    (hi : i < n) : (ops.mul (ops.div c (ops.ofNat n)) (ops.ofNat i)).ok ∧
      |(ops.mul (ops.div c (ops.ofNat n)) (ops.ofNat i)).val - σ * (2 * Real.pi * i / n)| ≤ 64 * u64 := by
  have hh := h64_le
  have h0 := h64_pos
  have hu0 := u64_pos
  have hu := u64_le
  have g1 := Real.pi_gt_d2
  have g2 := Real.pi_lt_d2
  norm_num at hu g1 g2
  have habs : |σ * (2 * Real.pi)| = 2 * Real.pi := by rw [abs_mul, hσ, one_mul]; exact abs_of_pos (by linarith)
  have c1 : |c.val| ≤ 6.31 := by
    have := abs_add_le (c.val - σ * (2 * Real.pi)) (σ * (2 * Real.pi))
    rw [sub_add_cancel, habs] at this
    norm_num
    linarith
  have c2 : 1 / 2 ≤ |c.val| := by
    have := abs_sub_abs_le_abs_sub (σ * (2 * Real.pi)) c.val
    rw [habs, abs_sub_comm] at this
    linarith
  have hn : 0 < n := by omega
  have hN : (0 : ℝ) < n := by exact_mod_cast hn
  obtain ⟨d1, d2⟩ := div_spec c hc n hn c2 (c1.trans (by norm_num))
  obtain ⟨i1, i2⟩ := ofNat_spec i
  have hin : (i : ℝ) ≤ n := by exact_mod_cast hi.le
  have hi0 : (0 : ℝ) ≤ i := Nat.cast_nonneg i
  have key : |(ops.div c (ops.ofNat n)).val * (ops.ofNat i).val - c.val * (i / n)| ≤ 30 * u64 := by
    have e : (ops.div c (ops.ofNat n)).val * (ops.ofNat i).val - c.val * (i / n)
        = (ops.div c (ops.ofNat n)).val * ((ops.ofNat i).val - i)
          + ((ops.div c (ops.ofNat n)).val * n - c.val) * (i / n) := by field_simp; ring
    rw [e]
    refine (abs_add_le _ _).trans ?_
    rw [abs_mul, abs_mul]
    have hr : |(ops.div c (ops.ofNat n)).val| * n ≤ 6.4 := by
      have := abs_add_le ((ops.div c (ops.ofNat n)).val * n - c.val) c.val
      rw [sub_add_cancel, abs_mul, abs_of_pos hN] at this
      norm_num at c1 ⊢
      linarith
    have f1 : |(ops.div c (ops.ofNat n)).val| * |(ops.ofNat i).val - i| ≤ 6.4 * u64 := by
      calc _ ≤ |(ops.div c (ops.ofNat n)).val| * (u64 * i) := mul_le_mul_of_nonneg_left i2 (abs_nonneg _)
        _ ≤ |(ops.div c (ops.ofNat n)).val| * (u64 * n) := by gcongr
        _ = |(ops.div c (ops.ofNat n)).val| * n * u64 := by ring
        _ ≤ _ := mul_le_mul_of_nonneg_right hr hu0.le
    have f2 : |(ops.div c (ops.ofNat n)).val * n - c.val| * |(i : ℝ) / n| ≤ 23 * u64 := by
      have : |(i : ℝ) / n| ≤ 1 := by
        rw [abs_of_nonneg (by positivity), div_le_one hN]; exact hin
      calc _ ≤ 23 * u64 * 1 := mul_le_mul d2 this (abs_nonneg _) (by positivity)
        _ = _ := by ring
    norm_num at f1
    linarith
  have hci : |c.val * (i / n)| ≤ 6.31 := by
    rw [abs_mul]
    have : |(i : ℝ) / n| ≤ 1 := by
      rw [abs_of_nonneg (by positivity), div_le_one hN]; exact hin
    calc _ ≤ 6.31 * (1 : ℝ) := mul_le_mul c1 this (abs_nonneg _) (by norm_num)
      _ = _ := by norm_num
  have hprod : |(ops.div c (ops.ofNat n)).val * (ops.ofNat i).val| ≤ 7 := by
    have := abs_add_le ((ops.div c (ops.ofNat n)).val * (ops.ofNat i).val - c.val * (i / n)) (c.val * (i / n))
    rw [sub_add_cancel] at this
    have h6 : (6.31 : ℝ) ≤ 6.5 := by norm_num
    have h7 : (6.5 : ℝ) + 30 * u64 ≤ 7 := by norm_num; linarith
    linarith
  obtain ⟨r1, r2⟩ := mul_spec _ _ d1 i1 (hprod.trans (by norm_num))
  refine ⟨r1, ?_⟩
  have hlast : |c.val * (i / n) - σ * (2 * Real.pi * i / n)| ≤ 25 * u64 := by
    have e : c.val * (i / n) - σ * (2 * Real.pi * i / n) = (c.val - σ * (2 * Real.pi)) * (i / n) := by ring
    have : |(i : ℝ) / n| ≤ 1 := by
      rw [abs_of_nonneg (by positivity), div_le_one hN]; exact hin
    rw [e, abs_mul]
    calc _ ≤ 25 * u64 * 1 := mul_le_mul h this (abs_nonneg _) (by positivity)
      _ = _ := by ring
  have t5 := mul_le_mul_of_nonneg_left hprod hu0.le
  generalize (ops.mul (ops.div c (ops.ofNat n)) (ops.ofNat i)).val = A at *
  generalize (ops.div c (ops.ofNat n)).val * (ops.ofNat i).val = B at *
  generalize c.val * (i / n) = C at *
  have s1 := abs_sub_le A B (σ * (2 * Real.pi * i / n))
  have s2 := abs_sub_le B C (σ * (2 * Real.pi * i / n))
  linarith

variable (hl : MathLib.Accurate)
include hl

theorem cos_spec (a : Wide) (ha : a.ok) (θ : ℝ) (hθ : |θ| ≤ 7) (h : |a.val - θ| ≤ 64 * u64) :
    (ops.cos a).ok ∧ |(ops.cos a).val - Real.cos θ| ≤ 66 * u64 := by
  have hu := u64_le
  norm_num at hu
  have e52 : (2⁻¹ : ℝ) ^ 52 = 2 * u64 := by unfold u64; norm_num
  have h8 : |a.val| ≤ 8 := by
    have := abs_add_le (a.val - θ) θ
    rw [sub_add_cancel] at this
    linarith
  have h1 : (ops.cos a).ok ∧ |(ops.cos a).val - Real.cos a.val| ≤ 2 * u64 := by
    match a, ha with
    | f64 a, ha => rw [← e52]; exact hl.cos a ha h8
    | beyond a, _ =>
      exact ⟨trivial, by show |Real.cos a - Real.cos a| ≤ _; rw [sub_self, abs_zero]; linarith [u64_pos]⟩
  have h2 := Real.abs_cos_sub_cos_le a.val θ
  have h3 := abs_sub_le (ops.cos a).val (Real.cos a.val) (Real.cos θ)
  exact ⟨h1.1, by linarith [h1.2]⟩

theorem sin_spec (a : Wide) (ha : a.ok) (θ : ℝ) (hθ : |θ| ≤ 7) (h : |a.val - θ| ≤ 64 * u64) :
    (ops.sin a).ok ∧ |(ops.sin a).val - Real.sin θ| ≤ 66 * u64 := by
  have hu := u64_le
  norm_num at hu
  have e52 : (2⁻¹ : ℝ) ^ 52 = 2 * u64 := by unfold u64; norm_num
  have h8 : |a.val| ≤ 8 := by
    have := abs_add_le (a.val - θ) θ
    rw [sub_add_cancel] at this
    linarith
  have h1 : (ops.sin a).ok ∧ |(ops.sin a).val - Real.sin a.val| ≤ 2 * u64 := by
    match a, ha with
    | f64 a, ha => rw [← e52]; exact hl.sin a ha h8
    | beyond a, _ =>
      exact ⟨trivial, by show |Real.sin a - Real.sin a| ≤ _; rw [sub_self, abs_zero]; linarith [u64_pos]⟩
  have h2 := Real.abs_sin_sub_sin_le a.val θ
  have h3 := abs_sub_le (ops.sin a).val (Real.sin a.val) (Real.sin θ)
  exact ⟨h1.1, by linarith [h1.2]⟩

end Wide

/-- What a conversion from `f64` needs for the tables to be accurate to `t` units. -/
structure Fmt.Fits (F : Fmt) (t : ℕ) : Prop where
  emin : F.emin + 2 ≤ F.emax
  two : (2 : ℝ) ≤ 2 ^ (F.emax - 1)
  small : 67 * u64 + 2⁻¹ ^ F.prec * (1 + 67 * u64) + 2 ^ (F.emin - 1) ≤ t * 2⁻¹ ^ F.prec

namespace Flt

variable [MathLib] {F : Fmt} {t : ℕ}

theorem fromF64_spec (hF : F.Fits t) (w : Wide) (hw : w.ok) (y : ℝ) (hy : |y| ≤ 1) (h : |w.val - y| ≤ 67 * u64) :
    (FftNum.fromF64 (T := Flt F) w).fin ∧ |(FftNum.fromF64 (T := Flt F) w).val - y| ≤ t * 2⁻¹ ^ F.prec := by
  have hu := u64_le
  norm_num at hu
  have h1 : |w.val| ≤ 1 + 67 * u64 := by
    have := abs_add_le (w.val - y) y
    rw [sub_add_cancel] at this
    linarith
  have h2 : |w.val| ≤ 2 ^ (F.emax - 1) := le_trans (by linarith) hF.two
  have key : (FftNum.fromF64 (T := Flt F) w).fin ∧
      |(FftNum.fromF64 (T := Flt F) w).val - w.val| ≤ 2⁻¹ ^ F.prec * |w.val| + 2 ^ (F.emin - 1) := by
    match w, hw with
    | .f64 a, ha => exact convert_spec hF.emin a ha h2
    | .beyond a, _ =>
      obtain ⟨k1, k2, -⟩ := roundSigned_spec (F := F) hF.emin false a h2
      exact ⟨k1, k2⟩
  refine ⟨key.1, le_trans ?_ hF.small⟩
  have h3 := abs_sub_le (FftNum.fromF64 (T := Flt F) w).val w.val y
  have h4 := mul_le_mul_of_nonneg_left h1 (show (0 : ℝ) ≤ 2⁻¹ ^ F.prec by positivity)
  linarith [key.2]

omit [MathLib] in
theorem abs_angle {i n : ℕ} (hi : i < n) (σ : ℝ) (hσ : |σ| = 1) : |σ * (2 * Real.pi * i / n)| ≤ 7 := by
  have hN : (0 : ℝ) < n := by exact_mod_cast (by omega : 0 < n)
  have hin : (i : ℝ) ≤ n := by exact_mod_cast hi.le
  have g2 := Real.pi_lt_d2
  have g0 := Real.pi_pos
  norm_num at g2
  rw [abs_mul, hσ, one_mul, abs_of_nonneg (by positivity), div_le_iff₀ hN]
  nlinarith

theorem inverse_spec (hl : MathLib.Accurate) (hF : F.Fits t) {i n : ℕ} (hi : i < n) :
    ((computeDftTwiddleInverse (Flt F) i n).re.fin ∧
      |(computeDftTwiddleInverse (Flt F) i n).re.val - Real.cos (2 * Real.pi * i / n)| ≤ t * 2⁻¹ ^ F.prec) ∧
    ((computeDftTwiddleInverse (Flt F) i n).im.fin ∧
      |(computeDftTwiddleInverse (Flt F) i n).im.val - Real.sin (2 * Real.pi * i / n)| ≤ t * 2⁻¹ ^ F.prec) := by
  obtain ⟨b1, b2⟩ := Wide.ofNat_spec 2
  obtain ⟨c1, c2⟩ := Wide.two_pi_spec _ b1 1 abs_one (by rw [one_mul, mul_comm 2 u64]; exact_mod_cast b2)
  obtain ⟨a1, a2⟩ := Wide.angle_spec _ c1 1 abs_one c2 hi
  have ha := abs_angle hi 1 abs_one
  rw [one_mul] at a2 ha
  have hu := u64_pos
  obtain ⟨k1, k2⟩ := Wide.cos_spec hl _ a1 _ ha a2
  obtain ⟨k3, k4⟩ := Wide.sin_spec hl _ a1 _ ha a2
  exact ⟨fromF64_spec hF _ k1 _ (Real.abs_cos_le_one _) (by linarith), fromF64_spec hF _ k3 _ (Real.abs_sin_le_one _) (by linarith)⟩

theorem forward_spec (hl : MathLib.Accurate) (hF : F.Fits t) {i n : ℕ} (hi : i < n) :
    ((computeDftTwiddleForward (Flt F) i n).re.fin ∧
      |(computeDftTwiddleForward (Flt F) i n).re.val - Real.cos (2 * Real.pi * i / n)| ≤ t * 2⁻¹ ^ F.prec) ∧
    ((computeDftTwiddleForward (Flt F) i n).im.fin ∧
      |(computeDftTwiddleForward (Flt F) i n).im.val - -Real.sin (2 * Real.pi * i / n)| ≤ t * 2⁻¹ ^ F.prec) := by
  obtain ⟨b1, b2⟩ := Wide.ofNat_spec 2
  obtain ⟨n1, n2⟩ := Wide.neg_spec _ b1
  have hσ : |(-1 : ℝ)| = 1 := by rw [abs_neg, abs_one]
  obtain ⟨c1, c2⟩ := Wide.two_pi_spec _ n1 (-1) hσ (by
    rw [n2, show -(Wide.ops.ofNat 2).val - -1 * 2 = -((Wide.ops.ofNat 2).val - 2) by ring, abs_neg, mul_comm 2 u64]
    exact_mod_cast b2)
  obtain ⟨a1, a2⟩ := Wide.angle_spec _ c1 (-1) hσ c2 hi
  have ha := abs_angle hi (-1) hσ
  rw [neg_one_mul] at a2 ha
  have hu := u64_pos
  obtain ⟨k1, k2⟩ := Wide.cos_spec hl _ a1 _ ha a2
  obtain ⟨k3, k4⟩ := Wide.sin_spec hl _ a1 _ ha a2
  rw [Real.cos_neg] at k2
  rw [Real.sin_neg] at k4
  exact ⟨fromF64_spec hF _ k1 _ (Real.abs_cos_le_one _) (by linarith), fromF64_spec hF _ k3 _ (by
    rw [abs_neg]; exact Real.abs_sin_le_one _) (by linarith)⟩

theorem norm_spec (hF : F.Fits t) {n : ℕ} (hn : 0 < n) :
    (FftNum.fromF64 (T := Flt F) (Wide.ops.div (Wide.ops.ofNat 1) (Wide.ops.ofNat n))).fin ∧
    |(FftNum.fromF64 (T := Flt F) (Wide.ops.div (Wide.ops.ofNat 1) (Wide.ops.ofNat n))).val - 1 / n| ≤ t * 2⁻¹ ^ F.prec := by
  obtain ⟨b1, b2⟩ := Wide.ofNat_spec 1
  have hu0 := u64_pos
  have hu := u64_le
  norm_num at hu
  rw [Nat.cast_one, mul_one] at b2
  have hb := abs_le.1 b2
  have b0 : 0 < (Wide.ops.ofNat 1).val := by linarith
  obtain ⟨d1, d2⟩ := Wide.div_spec _ b1 n hn (by rw [abs_of_pos b0]; linarith) (by rw [abs_of_pos b0]; linarith)
  have hN : (1 : ℝ) ≤ n := by exact_mod_cast hn
  have hN0 : (0 : ℝ) < n := by linarith
  refine fromF64_spec hF _ d1 _ (by rw [abs_of_pos (by positivity), div_le_one hN0]; exact hN) ?_
  generalize (Wide.ops.div (Wide.ops.ofNat 1) (Wide.ops.ofNat n)).val = r at *
  have e : r - 1 / n = (r * n - 1) / n := by field_simp
  rw [e, abs_div, abs_of_pos hN0, div_le_iff₀ hN0]
  have h1 := abs_sub_le (r * n) (Wide.ops.ofNat 1).val 1
  nlinarith

theorem half_rep (F : Fmt) (h1 : F.emin ≤ -1) (h2 : 0 ≤ F.emax) : F.Rep (1 / 2) := by
  refine ⟨1, -1, Nat.one_lt_two_pow (by have := F.prec_pos; omega), h1, by norm_num, ?_⟩
  exact lt_of_lt_of_le (by norm_num) (one_le_zpow₀ (by norm_num) h2)

theorem half_spec (h1 : F.emin ≤ -1) (h2 : 0 ≤ F.emax) :
    (FftNum.halfF32 (T := Flt F)).fin ∧ (FftNum.halfF32 (T := Flt F)).val = 1 / 2 := by
  have e : FftNum.halfF32 (T := Flt F) = num false (1 / 2) (half_rep F h1 h2) := by
    show convert F (round binary32 false (1 / 2 : ℚ)) = _
    rw [round_rep false (half_rep binary32 (by decide) (by decide))]
    exact round_rep false (half_rep F h1 h2)
  rw [e]
  exact ⟨trivial, by rw [abs_val]; simp [withSign]⟩

theorem sqrtHalf_spec (hF : F.Fits t) :
    (FftNum.sqrtHalfF32 (T := Flt F)).fin ∧
    |(FftNum.sqrtHalfF32 (T := Flt F)).val - √(1 / 2)| ≤ 2⁻¹ ^ F.prec * (3 / 4) + 2 ^ (F.emin - 1) + 2⁻¹ ^ 24 * (3 / 4) := by
  have h1 : √(1 / 2 : ℝ) ≤ 0.71 := Real.sqrt_le_iff.2 ⟨by norm_num, by norm_num⟩
  have h0 : 0 ≤ √(1 / 2 : ℝ) := Real.sqrt_nonneg _
  have hb : |√(1 / 2 : ℝ)| ≤ (2 : ℝ) ^ (binary32.emax - 1) := by
    rw [abs_of_nonneg h0]
    exact h1.trans ((by norm_num : (0.71 : ℝ) ≤ 1).trans (one_le_zpow₀ (by norm_num) (by decide)))
  obtain ⟨k1, k2, -⟩ := roundSigned_spec (F := binary32) (by decide) false (√(1 / 2 : ℝ)) hb
  rw [abs_of_nonneg h0] at k2
  change |(roundSigned binary32 false √(1 / 2 : ℝ)).val - √(1 / 2)| ≤ 2⁻¹ ^ 24 * √(1 / 2) + 2 ^ (-150 : ℤ) at k2
  have e150 : (2 : ℝ) ^ (-150 : ℤ) ≤ 2⁻¹ ^ 24 * 0.01 := by norm_num
  have k3 : |(roundSigned binary32 false √(1 / 2 : ℝ)).val| ≤ 3 / 4 := by
    have := abs_add_le ((roundSigned binary32 false √(1 / 2 : ℝ)).val - √(1 / 2)) √(1 / 2)
    rw [sub_add_cancel, abs_of_nonneg h0] at this
    norm_num at *
    linarith
  obtain ⟨c1, c2⟩ := convert_spec hF.emin _ k1 (k3.trans (by linarith [hF.two]))
  refine ⟨c1, ?_⟩
  have h3 := abs_sub_le (FftNum.sqrtHalfF32 (T := Flt F)).val (roundSigned binary32 false √(1 / 2 : ℝ)).val √(1 / 2)
  have h4 := mul_le_mul_of_nonneg_left k3 (show (0 : ℝ) ≤ 2⁻¹ ^ F.prec by positivity)
  have h5 : 2⁻¹ ^ 24 * √(1 / 2 : ℝ) ≤ 2⁻¹ ^ 24 * 0.71 := mul_le_mul_of_nonneg_left h1 (by positivity)
  change |(FftNum.sqrtHalfF32 (T := Flt F)).val - (roundSigned binary32 false √(1 / 2 : ℝ)).val| ≤ _ at c2
  have h6 : (2⁻¹ : ℝ) ^ 24 * 0.71 + 2⁻¹ ^ 24 * 0.01 ≤ 2⁻¹ ^ 24 * (3 / 4) := by norm_num
  linarith

theorem zero_spec : (0 : Flt F).fin ∧ (0 : Flt F).val = 0 := by
  have h : F.Rep 0 := ⟨0, F.emin, by positivity, le_rfl, by simp, by positivity⟩
  have e : (0 : Flt F) = num false 0 h := round_rep false h
  rw [e]
  exact ⟨trivial, by rw [abs_val]; simp [withSign]⟩

/-- IEEE 754 arithmetic is a floating-point arithmetic in the sense of `FloatModel`. -/
theorem floatModel (hl : MathLib.Accurate) (hF : F.Fits t) (s : ℕ) (h1 : F.emin ≤ -1) (h2 : 0 ≤ F.emax)
    (hη : F.emin - 1 ≤ -F.prec)
    (hs : 2⁻¹ ^ F.prec * (3 / 4) + 2 ^ (F.emin - 1) + 2⁻¹ ^ 24 * (3 / 4) ≤ (s : ℝ) * 2⁻¹ ^ F.prec) :
    FloatModel (T := Flt F) fin val (2⁻¹ ^ F.prec) (2 ^ (F.emin - 1)) (2 ^ (F.emax - 1)) t s where
  u_nonneg := by positivity
  η_nonneg := by positivity
  η_le := by
    rw [inv_pow, ← zpow_natCast, ← zpow_neg]
    exact zpow_le_zpow_right₀ one_le_two hη
  zero := zero_spec
  add := add_spec hF.emin
  sub := sub_spec hF.emin
  mul := mul_spec hF.emin
  neg := neg_spec
  cos _ _ hi := (inverse_spec hl hF hi).1
  sin _ _ hi := (inverse_spec hl hF hi).2
  cosFwd _ _ hi := (forward_spec hl hF hi).1
  sinFwd _ _ hi := (forward_spec hl hF hi).2
  sqrtHalf := by
    obtain ⟨k1, k2⟩ := sqrtHalf_spec hF
    exact ⟨k1, k2.trans hs⟩
  half := half_spec h1 h2
  norm n hn := norm_spec hF hn

end Flt

theorem fits32 : binary32.Fits 2 where
  emin := by decide
  two := by
    show (2 : ℝ) ≤ 2 ^ (127 : ℤ)
    norm_num
  small := by
    show 67 * u64 + 2⁻¹ ^ 24 * (1 + 67 * u64) + 2 ^ (-150 : ℤ) ≤ (2 : ℕ) * (2⁻¹ : ℝ) ^ 24
    unfold u64
    norm_num

theorem fits64 : binary64.Fits 69 where
  emin := by decide
  two := by
    show (2 : ℝ) ≤ 2 ^ (1023 : ℤ)
    calc (2 : ℝ) = 2 ^ (1 : ℤ) := by norm_num
      _ ≤ _ := zpow_le_zpow_right₀ one_le_two (by norm_num)
  small := by
    show 67 * u64 + u64 * (1 + 67 * u64) + h64 ≤ (69 : ℕ) * u64
    have h1 := h64_small
    have h2 := u64_le
    have h3 := u64_pos
    have h0 := h64_pos
    norm_num at h1 h2 ⊢
    nlinarith

end RustDHT
