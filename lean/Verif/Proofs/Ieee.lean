import Verif.Spec.Ieee

/-! # Rounding errors of IEEE 754 arithmetic -/

set_option linter.unusedSectionVars false

namespace RustDHT

section
variable {K : Type} [Field K] [LinearOrder K] [IsStrictOrderedRing K] [FloorRing K]

theorem roundEven_nearest (x : K) (j : ℤ) : |(roundEven x : K) - x| ≤ |(j : K) - x| := by
  have h1 := Int.floor_le x
  have h2 := Int.lt_floor_add_one x
  rcases le_or_gt j ⌊x⌋ with hj | hj
  · have hj' : (j : K) ≤ ⌊x⌋ := by exact_mod_cast hj
    rw [abs_of_nonpos (by linarith : (j : K) - x ≤ 0), abs_le, roundEven]
    split_ifs <;> push_cast <;> constructor <;> linarith
  · have hj' : (⌊x⌋ : K) + 1 ≤ j := by exact_mod_cast hj
    rw [abs_of_nonneg (by linarith : 0 ≤ (j : K) - x), abs_le, roundEven]
    split_ifs <;> push_cast <;> constructor <;> linarith

namespace Fmt

variable (F : Fmt)

/-- Half a unit in the last place. -/
theorem mantissa_err (x : K) : |(F.mantissa x : K) * 2 ^ F.exponent |x| - (|x|)| ≤ 2 ^ (F.exponent |x| - 1) := by
  have h2 : (0 : K) < 2 := two_pos
  have hp : (0 : K) < 2 ^ F.exponent |x| := by positivity
  have h := roundEven_err (|x| / 2 ^ F.exponent |x|)
  have e : (F.mantissa x : K) * 2 ^ F.exponent |x| - |x|
      = ((F.mantissa x : K) - |x| / 2 ^ F.exponent |x|) * 2 ^ F.exponent |x| := by
    rw [sub_mul, div_mul_cancel₀ _ hp.ne']
  rw [e, abs_mul, abs_of_pos hp, zpow_sub₀ h2.ne', zpow_one]
  calc _ ≤ 1 / 2 * (2 : K) ^ F.exponent |x| := mul_le_mul_of_nonneg_right h hp.le
    _ = _ := by ring

theorem log_le (x : K) (hx : x ≠ 0) : (2 : K) ^ (Int.log 2 |x|) ≤ |x| := by
  have := Int.zpow_log_le_self (b := 2) (by norm_num) (abs_pos.2 hx)
  exact_mod_cast this

/-- A relative error of half a unit, or the absolute one that gradual underflow causes. -/
theorem mantissa_cases (x : K) : F.exponent |x| = F.emin ∨
    |(F.mantissa x : K) * 2 ^ F.exponent |x| - (|x|)| ≤ 2⁻¹ ^ F.prec * |x| := by
  have h2 : (0 : K) < 2 := two_pos
  rcases eq_or_ne x 0 with rfl | hx
  · right
    simp [mantissa, roundEven]
  rcases le_total (Int.log 2 |x| - F.prec + 1) F.emin with h | h
  · exact .inl (max_eq_right h)
  · right
    refine (F.mantissa_err x).trans ?_
    have e : F.exponent |x| - 1 = -(F.prec : ℤ) + Int.log 2 |x| := by
      rw [exponent, max_eq_left h]; ring
    rw [e, zpow_add₀ h2.ne', zpow_neg, zpow_natCast, inv_pow]
    exact mul_le_mul_of_nonneg_left (log_le x hx) (by positivity)

theorem mantissa_total (x : K) :
    |(F.mantissa x : K) * 2 ^ F.exponent |x| - (|x|)| ≤ 2⁻¹ ^ F.prec * |x| + 2 ^ (F.emin - 1) := by
  have h2 : (0 : K) < 2 := two_pos
  rcases F.mantissa_cases x with h | h
  · have := F.mantissa_err x
    rw [h] at this
    rw [h]
    have h3 : (0 : K) ≤ 2⁻¹ ^ F.prec * |x| := by positivity
    linarith
  · have h3 : (0 : K) < 2 ^ (F.emin - 1) := by positivity
    linarith

/-- Whole multiples of the smallest number suffer no underflow. -/
theorem mantissa_multiple (x : K) (k : ℤ) (hk : x = k * 2 ^ F.emin) :
    |(F.mantissa x : K) * 2 ^ F.exponent |x| - (|x|)| ≤ 2⁻¹ ^ F.prec * |x| := by
  have h2 : (0 : K) < 2 := two_pos
  rcases F.mantissa_cases x with h | h
  · have hp : (0 : K) < 2 ^ F.emin := by positivity
    have e : |x| / 2 ^ F.emin = ((|k| : ℤ) : K) := by
      rw [hk, abs_mul, abs_of_pos hp, mul_div_cancel_right₀ _ hp.ne']; push_cast; rfl
    have hr : ∀ j : ℤ, roundEven (j : K) = j := fun j => by simp [roundEven]
    rw [mantissa, h, e, hr, ← e, div_mul_cancel₀ _ hp.ne', sub_self, abs_zero]
    positivity
  · exact h

/-- No number of the format is nearer. -/
theorem mantissa_nearest (x : K) {y : ℚ} (hy : F.Rep y) :
    |(F.mantissa x : K) * 2 ^ F.exponent |x| - (|x|)| ≤ |(y : K) - (|x|)| := by
  have h2 : (0 : K) < 2 := two_pos
  have hp : (0 : K) < 2 ^ F.exponent |x| := by positivity
  have grid : ∀ j : ℤ, |(F.mantissa x : K) * 2 ^ F.exponent |x| - (|x|)| ≤ |(j : K) * 2 ^ F.exponent |x| - (|x|)| := by
    intro j
    have e : ∀ k : K, k * 2 ^ F.exponent |x| - |x| = (k - |x| / 2 ^ F.exponent |x|) * 2 ^ F.exponent |x| := fun k => by
      rw [sub_mul, div_mul_cancel₀ _ hp.ne']
    rw [e, e, abs_mul, abs_mul]
    exact mul_le_mul_of_nonneg_right (roundEven_nearest _ j) (abs_nonneg _)
  rcases eq_or_ne x 0 with rfl | hx
  · simp [mantissa, roundEven]
  obtain ⟨m, e, hm, he, rfl, -⟩ := hy
  rcases le_or_gt (F.exponent |x|) e with hE | hE
  · have h := grid (m * 2 ^ (e - F.exponent |x|).toNat)
    convert h using 3
    push_cast
    rw [mul_assoc, ← zpow_natCast, ← zpow_add₀ h2.ne', Int.toNat_of_nonneg (by omega)]
    congr 2
    ring
  · have hexp : F.exponent |x| = Int.log 2 |x| - F.prec + 1 := by
      rcases max_choice (Int.log 2 |x| - F.prec + 1) F.emin with h | h
      · exact h
      · rw [exponent, h] at hE; omega
    have hlog := log_le x hx
    have e1 : ((2 ^ (F.prec - 1) : ℤ) : K) * 2 ^ F.exponent |x| = 2 ^ Int.log 2 |x| := by
      push_cast
      rw [← zpow_natCast, ← zpow_add₀ h2.ne', hexp]
      have := F.prec_pos
      congr 1
      omega
    have h := grid (2 ^ (F.prec - 1))
    rw [e1] at h
    refine h.trans ?_
    have hy : ((m * 2 ^ e : ℚ) : K) ≤ 2 ^ Int.log 2 |x| := by
      push_cast
      calc (m : K) * 2 ^ e ≤ 2 ^ F.prec * 2 ^ e := by
            gcongr
            exact_mod_cast hm.le
        _ = 2 ^ ((F.prec : ℤ) + e) := by rw [zpow_add₀ h2.ne', zpow_natCast]
        _ ≤ _ := zpow_le_zpow_right₀ one_le_two (by omega)
    rw [abs_of_nonpos (sub_nonpos.2 hlog), abs_of_nonpos (sub_nonpos.2 (hy.trans hlog))]
    exact neg_le_neg (sub_le_sub_right hy _)

theorem u_le : (2⁻¹ : K) ^ F.prec ≤ 1 / 2 := by
  have := pow_le_pow_of_le_one (a := (2⁻¹ : K)) (by positivity) (by norm_num) F.prec_pos
  rw [pow_one] at this
  linarith

theorem no_overflow (hF : F.emin + 2 ≤ F.emax) (x : K) (hx : |x| ≤ 2 ^ (F.emax - 1)) :
    (F.mantissa x : ℚ) * 2 ^ F.exponent |x| < 2 ^ F.emax := by
  have h2 : (0 : K) < 2 := two_pos
  have h : (F.mantissa x : K) * 2 ^ F.exponent |x| < 2 ^ F.emax := by
    have h1 := (abs_le.1 (F.mantissa_total x)).2
    have hu := mul_le_mul_of_nonneg_right (F.u_le (K := K)) (abs_nonneg x)
    have e1 : (2 : K) ^ (F.emin - 1) ≤ 2 ^ (F.emax - 3) := zpow_le_zpow_right₀ one_le_two (by omega)
    have e2 : (2 : K) ^ (F.emax - 3) = 2 ^ F.emax / 8 := by
      rw [zpow_sub₀ h2.ne']; norm_num
    have e3 : (2 : K) ^ (F.emax - 1) = 2 ^ F.emax / 2 := by
      rw [zpow_sub₀ h2.ne']; norm_num
    rw [e2] at e1
    rw [e3] at hx
    have hp : (0 : K) < 2 ^ F.emax := by positivity
    linarith
  have h' : (((F.mantissa x : ℚ) * 2 ^ F.exponent |x| : ℚ) : K) < (((2 : ℚ) ^ F.emax : ℚ) : K) := by
    push_cast; exact h
  exact Rat.cast_lt.1 h'

end Fmt

/-- `x` with a given sign. -/
def withSign (neg : Bool) (x : K) : K := if neg then -x else x

theorem abs_withSign_sub (s : Bool) (x y : K) : |withSign s x - withSign s y| = |x - y| := by
  cases s
  · rfl
  · simp only [withSign, if_true]
    rw [show -x - -y = -(x - y) by ring, abs_neg]

namespace Flt

variable {F : Fmt}

theorem round_spec (hF : F.emin + 2 ≤ F.emax) (s : Bool) (x : K) (hx : |x| ≤ 2 ^ (F.emax - 1)) :
    (round F s x).fin ∧
      |((round F s x).value : K) - withSign s (|x|)| ≤ 2⁻¹ ^ F.prec * |x| + 2 ^ (F.emin - 1) ∧
      (∀ k : ℤ, x = k * 2 ^ F.emin → |((round F s x).value : K) - withSign s (|x|)| ≤ 2⁻¹ ^ F.prec * |x|) := by
  rw [round, dif_pos (F.no_overflow hF x hx)]
  have e : (((num s ((F.mantissa x : ℚ) * 2 ^ F.exponent |x|)
      (F.rep_of (F.mantissa_nonneg x) (F.mantissa_le x) (le_max_right _ _) (F.no_overflow hF x hx)) : Flt F).value : ℚ) : K)
      = withSign s ((F.mantissa x : K) * 2 ^ F.exponent |x|) := by
    cases s <;> simp [value, withSign]
  rw [e, abs_withSign_sub]
  exact ⟨trivial, F.mantissa_total x, fun k hk => F.mantissa_multiple x k hk⟩

theorem withSign_abs (x : K) (z : Bool) : withSign (if x = 0 then z else decide (x < 0)) |x| = x := by
  split
  · rename_i h; subst h; cases z <;> simp [withSign]
  · by_cases h : x < 0
    · simp [withSign, h, abs_of_neg h]
    · simp [withSign, h, abs_of_nonneg (not_lt.1 h)]

theorem roundSigned_eq (z : Bool) (x : K) : roundSigned F z x = round F (if x = 0 then z else decide (x < 0)) x := by
  rw [roundSigned]; split <;> rfl

theorem roundSigned_spec (hF : F.emin + 2 ≤ F.emax) (z : Bool) (x : K) (hx : |x| ≤ 2 ^ (F.emax - 1)) :
    (roundSigned F z x).fin ∧
      |((roundSigned F z x).value : K) - x| ≤ 2⁻¹ ^ F.prec * |x| + 2 ^ (F.emin - 1) ∧
      (∀ k : ℤ, x = k * 2 ^ F.emin → |((roundSigned F z x).value : K) - x| ≤ 2⁻¹ ^ F.prec * |x|) := by
  have h := round_spec hF (if x = 0 then z else decide (x < 0)) x hx
  rw [withSign_abs] at h
  rw [roundSigned_eq]
  exact h

end Flt
end

namespace Flt

variable {F : Fmt}

theorem zpow_cast (z : ℤ) : (2 : ℝ) ^ z = ((2 ^ z : ℚ) : ℝ) := by push_cast; rfl

theorem upow_cast (n : ℕ) : (2⁻¹ : ℝ) ^ n = ((2⁻¹ ^ n : ℚ) : ℝ) := by push_cast; rfl

theorem multiple (a : Flt F) : ∃ k : ℤ, a.value = k * 2 ^ F.emin := by
  have key : ∀ m : ℚ, F.Rep m → ∃ k : ℤ, m = k * 2 ^ F.emin := by
    rintro _ ⟨m, e, -, he, rfl, -⟩
    refine ⟨m * 2 ^ (e - F.emin).toNat, ?_⟩
    push_cast
    rw [mul_assoc, ← zpow_natCast, ← zpow_add₀ (by norm_num), Int.toNat_of_nonneg (by omega)]
    congr 2
    ring
  match a with
  | num s m h =>
    obtain ⟨k, hk⟩ := key m h
    cases s
    · exact ⟨k, by simp [value, hk]⟩
    · exact ⟨-k, by simp [value, hk]⟩
  | inf _ => exact ⟨0, by simp [value]⟩
  | nan => exact ⟨0, by simp [value]⟩

theorem num_congr {s : Bool} {x y : ℚ} (h : x = y) (hx : F.Rep x) (hy : F.Rep y) : (num s x hx : Flt F) = num s y hy := by
  subst h; rfl

/-- Numbers of the format are not changed by rounding. -/
theorem round_rep (s : Bool) {x : ℚ} (h : F.Rep x) : round F s x = num s x h := by
  have key : (F.mantissa x : ℚ) * 2 ^ F.exponent |x| = x := by
    obtain ⟨m, e, hm, he, hx, -⟩ := h
    have hx0 : |x| = x := abs_of_nonneg (by rw [hx]; positivity)
    rcases eq_or_ne x 0 with h0 | h0
    · subst h0; simp [Fmt.mantissa, roundEven]
    have hE : F.exponent |x| ≤ e := by
      refine max_le ?_ he
      have hlt : |x| < ((2 : ℕ) : ℚ) ^ ((F.prec : ℤ) + e) := by
        rw [hx0, hx, Nat.cast_ofNat, zpow_add₀ (by norm_num), zpow_natCast]
        exact mul_lt_mul_of_pos_right (by exact_mod_cast hm) (by positivity)
      have := (Int.lt_zpow_iff_log_lt (b := 2) (by norm_num) (abs_pos.2 h0)).1 hlt
      omega
    have e1 : |x| / 2 ^ F.exponent |x| = ((m * 2 ^ (e - F.exponent |x|).toNat : ℕ) : ℤ) := by
      rw [div_eq_iff (by positivity), hx0]
      conv_lhs => rw [hx]
      push_cast
      rw [mul_assoc, ← zpow_natCast, ← zpow_add₀ (by norm_num), Int.toNat_of_nonneg (by rw [hx0] at hE; omega)]
      congr 2
      ring
    have hr : ∀ j : ℤ, roundEven (j : ℚ) = j := fun j => by simp [roundEven]
    rw [Fmt.mantissa, e1, hr, ← e1, div_mul_cancel₀ _ (by positivity), hx0]
  have hlt : (F.mantissa x : ℚ) * 2 ^ F.exponent |x| < 2 ^ F.emax := by
    rw [key]; obtain ⟨_, _, _, _, _, h⟩ := h; exact h
  rw [round, dif_pos hlt]
  exact num_congr key _ _

/-- Converting a number to its own format does nothing. -/
theorem convert_self (a : Flt F) : convert F a = a := by
  match a with
  | num s x h => exact round_rep s h
  | inf s => rfl
  | nan => rfl

/-- No number of the format is nearer to `x` than the rounded one. -/
theorem roundSigned_nearest (z : Bool) (x : ℝ) (h : (roundSigned F z x).fin) (y : Flt F) (hy : y.fin) :
    |(roundSigned F z x).val - x| ≤ |y.val - x| := by
  rw [roundSigned_eq] at h ⊢
  generalize hs : (if x = 0 then z else decide (x < 0)) = s at *
  have hx : withSign s |x| = x := hs ▸ withSign_abs x z
  by_cases hb : (F.mantissa x : ℚ) * 2 ^ F.exponent |x| < 2 ^ F.emax
  · have e : (round F s x).val = withSign s ((F.mantissa x : ℝ) * 2 ^ F.exponent |x|) := by
      rw [round, dif_pos hb]
      unfold val
      cases s <;> simp [value, withSign]
    match y, hy with
    | num s' m hm, _ =>
      have h1 := F.mantissa_nearest x hm
      have e3 : ∀ A : ℝ, |withSign s A - x| = |A - (|x|)| := fun A => by
        rw [← abs_withSign_sub s A, hx]
      rw [e, e3]
      refine h1.trans ?_
      have h0 : (0 : ℝ) ≤ m := by
        obtain ⟨k, e, -, -, rfl, -⟩ := hm
        push_cast
        positivity
      have h2 : |(num s' m hm : Flt F).val| = m := by
        unfold val
        cases s' <;> simp [value, abs_of_nonneg h0]
      rw [← h2]
      exact abs_abs_sub_abs_le _ _
  · rw [round, dif_neg hb] at h
    exact h.elim

section
variable (hF : F.emin + 2 ≤ F.emax)

include hF

theorem round_rat (s : Bool) (x : ℚ) (hx : |(x : ℝ)| ≤ 2 ^ (F.emax - 1)) :
    (round F s x).fin ∧
      |(round F s x).val - withSign s (|(x : ℝ)|)| ≤ 2⁻¹ ^ F.prec * |(x : ℝ)| + 2 ^ (F.emin - 1) ∧
      (∀ k : ℤ, x = k * 2 ^ F.emin → |(round F s x).val - withSign s (|(x : ℝ)|)| ≤ 2⁻¹ ^ F.prec * |(x : ℝ)|) := by
  rw [zpow_cast] at hx
  rw [zpow_cast, upow_cast]
  obtain ⟨h1, h2, h3⟩ := round_spec hF s x (by exact_mod_cast hx)
  have e : ((withSign s |x| : ℚ) : ℝ) = withSign s |(x : ℝ)| := by cases s <;> simp [withSign]
  refine ⟨h1, ?_, fun k hk => ?_⟩
  · rw [← e]; unfold val; exact_mod_cast h2
  · rw [← e]; unfold val; exact_mod_cast h3 k hk

theorem add_spec (a b : Flt F) (ha : a.fin) (hb : b.fin) (h : |a.val + b.val| ≤ 2 ^ (F.emax - 1)) :
    (a + b).fin ∧ |(a + b).val - (a.val + b.val)| ≤ 2⁻¹ ^ F.prec * |a.val + b.val| := by
  obtain ⟨k, hk⟩ := a.multiple
  obtain ⟨l, hl⟩ := b.multiple
  match a, b, ha, hb with
  | num s m hm, num s' m' hm', _, _ =>
    have e : (num s m hm + num s' m' hm' : Flt F)
      = roundSigned F (s && s') ((num s m hm : Flt F).value + (num s' m' hm' : Flt F).value) := rfl
    rw [e]
    unfold val at h ⊢
    rw [zpow_cast] at h
    rw [upow_cast]
    obtain ⟨h1, -, h3⟩ := roundSigned_spec hF (s && s') ((num s m hm : Flt F).value + (num s' m' hm' : Flt F).value)
      (by exact_mod_cast h)
    refine ⟨h1, ?_⟩
    have := h3 (k + l) (by rw [hk, hl]; push_cast; ring)
    exact_mod_cast this

omit hF in
theorem neg_spec (a : Flt F) (ha : a.fin) : (-a).fin ∧ (-a).val = -a.val := by
  match a, ha with
  | num s m hm, _ =>
    have e : (-(num s m hm) : Flt F) = num (!s) m hm := rfl
    rw [e]
    refine ⟨trivial, ?_⟩
    unfold val
    cases s <;> simp [value]

theorem sub_spec (a b : Flt F) (ha : a.fin) (hb : b.fin) (h : |a.val - b.val| ≤ 2 ^ (F.emax - 1)) :
    (a - b).fin ∧ |(a - b).val - (a.val - b.val)| ≤ 2⁻¹ ^ F.prec * |a.val - b.val| := by
  obtain ⟨h1, h2⟩ := neg_spec b hb
  have e : a - b = a + -b := rfl
  have := add_spec hF a (-b) ha h1 (by rw [h2, ← sub_eq_add_neg]; exact h)
  rw [h2, ← sub_eq_add_neg] at this
  rw [e]
  exact this

omit hF in
theorem abs_val (s : Bool) (m : ℚ) (hm : F.Rep m) : (num s m hm : Flt F).val = withSign s (m : ℝ) := by
  unfold val
  cases s <;> simp [value, withSign]

omit hF in
theorem rep_nonneg {m : ℚ} (hm : F.Rep m) : 0 ≤ m := by
  obtain ⟨k, e, -, -, rfl, -⟩ := hm
  positivity

theorem mul_spec (a b : Flt F) (ha : a.fin) (hb : b.fin) (h : |a.val * b.val| ≤ 2 ^ (F.emax - 1)) :
    (a * b).fin ∧ |(a * b).val - a.val * b.val| ≤ 2⁻¹ ^ F.prec * |a.val * b.val| + 2 ^ (F.emin - 1) := by
  match a, b, ha, hb with
  | num s m hm, num s' m' hm', _, _ =>
    have e : (num s m hm * num s' m' hm' : Flt F) = round F (xor s s') (m * m') := rfl
    have h0 : (0 : ℝ) ≤ m := by exact_mod_cast rep_nonneg hm
    have h0' : (0 : ℝ) ≤ m' := by exact_mod_cast rep_nonneg hm'
    have e2 : (num s m hm : Flt F).val * (num s' m' hm' : Flt F).val = withSign (xor s s') |((m * m' : ℚ) : ℝ)| := by
      rw [abs_val, abs_val, Rat.cast_mul, abs_of_nonneg (mul_nonneg h0 h0')]
      cases s <;> cases s' <;> simp [withSign]
    have e3 : |(num s m hm : Flt F).val * (num s' m' hm' : Flt F).val| = |((m * m' : ℚ) : ℝ)| := by
      rw [e2]; cases (xor s s') <;> simp [withSign]
    rw [e3] at h
    obtain ⟨h1, h2, -⟩ := round_rat hF (xor s s') (m * m') h
    rw [e, e3, e2]
    exact ⟨h1, h2⟩

theorem div_spec (a b : Flt F) (ha : a.fin) (hb : b.fin) (hb0 : b.val ≠ 0) (h : |a.val / b.val| ≤ 2 ^ (F.emax - 1)) :
    (a / b).fin ∧ |(a / b).val - a.val / b.val| ≤ 2⁻¹ ^ F.prec * |a.val / b.val| + 2 ^ (F.emin - 1) := by
  match a, b, ha, hb with
  | num s m hm, num s' m' hm', _, _ =>
    have hm0 : m' ≠ 0 := by
      rintro rfl
      apply hb0
      rw [abs_val]
      cases s' <;> simp [withSign]
    have e : (num s m hm / num s' m' hm' : Flt F) = round F (xor s s') (m / m') := by
      show (if m' = 0 then _ else _) = _
      rw [if_neg hm0]
    have h0 : (0 : ℝ) ≤ m := by exact_mod_cast rep_nonneg hm
    have h0' : (0 : ℝ) ≤ m' := by exact_mod_cast rep_nonneg hm'
    have e2 : (num s m hm : Flt F).val / (num s' m' hm' : Flt F).val = withSign (xor s s') |((m / m' : ℚ) : ℝ)| := by
      rw [abs_val, abs_val, Rat.cast_div, abs_of_nonneg (div_nonneg h0 h0')]
      cases s <;> cases s' <;> simp [withSign, div_neg, neg_div]
    have e3 : |(num s m hm : Flt F).val / (num s' m' hm' : Flt F).val| = |((m / m' : ℚ) : ℝ)| := by
      rw [e2]; cases (xor s s') <;> simp [withSign]
    rw [e3] at h
    obtain ⟨h1, h2, -⟩ := round_rat hF (xor s s') (m / m') h
    rw [e, e3, e2]
    exact ⟨h1, h2⟩

theorem ofNat_spec (hF0 : F.emin ≤ 0) (n : ℕ) (h : (n : ℝ) ≤ 2 ^ (F.emax - 1)) :
    (ofNat F n).fin ∧ |(ofNat F n).val - n| ≤ 2⁻¹ ^ F.prec * n := by
  have hn : |((n : ℚ) : ℝ)| = n := by simp
  obtain ⟨h1, -, h3⟩ := round_rat hF false (n : ℚ) (by rw [hn]; exact h)
  refine ⟨h1, ?_⟩
  have := h3 (n * 2 ^ (-F.emin).toNat) (by
    push_cast
    rw [mul_assoc, ← zpow_natCast, ← zpow_add₀ (by norm_num), Int.toNat_of_nonneg (by omega)]
    simp)
  rw [hn] at this
  exact this

theorem convert_spec {G : Fmt} (a : Flt G) (ha : a.fin) (h : |a.val| ≤ 2 ^ (F.emax - 1)) :
    (convert F a).fin ∧ |(convert F a).val - a.val| ≤ 2⁻¹ ^ F.prec * |a.val| + 2 ^ (F.emin - 1) := by
  match a, ha with
  | num s m hm, _ =>
    have h0 : (0 : ℝ) ≤ m := by exact_mod_cast rep_nonneg hm
    have e2 : (num s m hm : Flt G).val = withSign s |(m : ℝ)| := by rw [abs_val, abs_of_nonneg h0]
    have e3 : |(num s m hm : Flt G).val| = |(m : ℝ)| := by rw [e2]; cases s <;> simp [withSign]
    rw [e3] at h
    obtain ⟨h1, h2, -⟩ := round_rat hF s m h
    rw [e3, e2]
    exact ⟨h1, h2⟩

end

end Flt

end RustDHT
