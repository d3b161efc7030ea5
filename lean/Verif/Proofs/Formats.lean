import Verif.Spec.Formats
import Verif.Spec.RootFree
import Verif.Proofs.IeeeModel
import Verif.Proofs.RootIeee
import Verif.Proofs.ImpulseIeee

/-! # Every binary format as an instance of `FloatModel` -/

namespace RustDHT

/-- The accuracy of tables, in units of a format. -/
def Fmt.tableUnits (F : Fmt) : ℕ := 2 + 68 * 2 ^ (F.prec - 53)

/-- The accuracy of the constant that went through `f32`, in units of a format. -/
def Fmt.rootUnits (F : Fmt) : ℕ := 2 + 2 ^ (F.prec - 24)

theorem pow_units (p k : ℕ) : (2⁻¹ : ℝ) ^ k ≤ (2 ^ (p - k) : ℕ) * 2⁻¹ ^ p := by
  rcases le_total k p with h | h
  · obtain ⟨j, rfl⟩ := Nat.exists_eq_add_of_le h
    rw [Nat.add_sub_cancel_left, pow_add]
    push_cast
    have : (2 : ℝ) ^ j * 2⁻¹ ^ j = 1 := by rw [← mul_pow]; norm_num
    rw [mul_left_comm, this, mul_one]
  · rw [Nat.sub_eq_zero_of_le h, pow_zero, Nat.cast_one, one_mul]
    exact pow_le_pow_of_le_one (by norm_num) (by norm_num) h

theorem Fmt.under_le {F : Fmt} (he : F.emin ≤ -F.prec) : (2 : ℝ) ^ (F.emin - 1) ≤ 2⁻¹ ^ F.prec * (1 / 2) := by
  have : (2 : ℝ) ^ (F.emin - 1) ≤ 2 ^ (-(F.prec : ℤ) - 1) := zpow_le_zpow_right₀ one_le_two (by omega)
  refine this.trans_eq ?_
  rw [zpow_sub₀ (by norm_num), zpow_neg, zpow_natCast, inv_pow]
  norm_num
  ring

theorem two_le_zpow {e : ℤ} (h : 2 ≤ e) : (2 : ℝ) ≤ 2 ^ (e - 1) := by
  calc (2 : ℝ) = 2 ^ (1 : ℤ) := by norm_num
    _ ≤ _ := zpow_le_zpow_right₀ one_le_two (by omega)

theorem Fmt.fits (F : Fmt) (he : F.emin ≤ -F.prec) (hm : 2 ≤ F.emax) : F.Fits F.tableUnits where
  emin := by have := F.prec_pos; omega
  two := two_le_zpow hm
  small := by
    have h1 := F.under_le he
    have h2 : (2⁻¹ : ℝ) ^ 53 ≤ _ := pow_units F.prec 53
    have hu : (0 : ℝ) < 2⁻¹ ^ F.prec := by positivity
    have h3 := u64_le
    have h4 : (2⁻¹ : ℝ) ^ F.prec * (67 * u64) ≤ 2⁻¹ ^ F.prec * (1 / 2) := by
      gcongr
      norm_num at h3
      linarith
    have h5 : u64 = 2⁻¹ ^ 53 := rfl
    rw [Fmt.tableUnits]
    push_cast at h2 ⊢
    rw [← h5] at h2
    have h6 := u64_pos
    nlinarith

theorem Fmt.fits_narrow (F : Fmt) (hp : F.prec ≤ 44) (he : F.emin ≤ -F.prec) (hm : 2 ≤ F.emax) : F.Fits 2 where
  emin := by have := F.prec_pos; omega
  two := two_le_zpow hm
  small := by
    have h1 := F.under_le he
    have hu : (0 : ℝ) < 2⁻¹ ^ F.prec := by positivity
    have h2 : (2⁻¹ : ℝ) ^ 44 ≤ 2⁻¹ ^ F.prec := pow_le_pow_of_le_one (by norm_num) (by norm_num) hp
    have h5 : u64 = 2⁻¹ ^ 53 := rfl
    have h6 : (2⁻¹ : ℝ) ^ F.prec ≤ 1 := pow_le_one₀ (by norm_num) (by norm_num)
    rw [h5]
    norm_num at h2 h1 hu h6 ⊢
    nlinarith

namespace Flt
variable [MathLib]

/-- Any format. -/
theorem floatModelAny (hl : MathLib.Accurate) (F : Fmt) (he : F.emin ≤ -F.prec) (hm : 2 ≤ F.emax) :
    FloatModel (T := Flt F) fin val (2⁻¹ ^ F.prec) (2 ^ (F.emin - 1)) (2 ^ (F.emax - 1)) F.tableUnits F.rootUnits := by
  have hp := F.prec_pos
  refine floatModel hl (F.fits he hm) _ (by omega) (by omega) (by omega) ?_
  have h1 := F.under_le he
  have h2 := pow_units F.prec 24
  have hu : (0 : ℝ) < 2⁻¹ ^ F.prec := by positivity
  have h3 : (0 : ℝ) < 2⁻¹ ^ 24 := by positivity
  rw [Fmt.rootUnits]
  push_cast at h2 ⊢
  linarith

/-- Narrow formats. -/
theorem floatModelNarrow (hl : MathLib.Accurate) (F : Fmt) (hp : F.prec ≤ 24) (he : F.emin ≤ -F.prec) (hm : 2 ≤ F.emax) :
    FloatModel (T := Flt F) fin val (2⁻¹ ^ F.prec) (2 ^ (F.emin - 1)) (2 ^ (F.emax - 1)) 2 2 := by
  have hp' := F.prec_pos
  refine floatModel hl (F.fits_narrow (by omega) he hm) _ (by omega) (by omega) (by omega) ?_
  have h1 := F.under_le he
  have hu : (0 : ℝ) < 2⁻¹ ^ F.prec := by positivity
  have h2 : (2⁻¹ : ℝ) ^ 24 ≤ 2⁻¹ ^ F.prec := pow_le_pow_of_le_one (by norm_num) (by norm_num) hp
  push_cast
  linarith

/-- The square root of a half, rounded to the format itself. -/
noncomputable def ownRoot (F : Fmt) : Flt F := roundSigned F false √(1 / 2 : ℝ)

omit [MathLib] in
theorem ownRoot_spec (F : Fmt) (he : F.emin ≤ -F.prec) (hm : 2 ≤ F.emax) :
    (ownRoot F).fin ∧ |(ownRoot F).val - √(1 / 2)| ≤ ((2 : ℕ) : ℝ) * 2⁻¹ ^ F.prec := by
  have hp := F.prec_pos
  have h1 : √(1 / 2 : ℝ) ≤ 1 := Real.sqrt_le_iff.2 ⟨by norm_num, by norm_num⟩
  have h0 : 0 ≤ √(1 / 2 : ℝ) := Real.sqrt_nonneg _
  obtain ⟨k1, k2, -⟩ := roundSigned_spec (F := F) (by omega) false (√(1 / 2 : ℝ)) (by
    rw [abs_of_nonneg h0]
    linarith [two_le_zpow hm])
  refine ⟨k1, k2.trans ?_⟩
  rw [abs_of_nonneg h0]
  have h3 := F.under_le he
  have hu : (0 : ℝ) < 2⁻¹ ^ F.prec := by positivity
  have := mul_le_mul_of_nonneg_left h1 hu.le
  push_cast
  linarith

theorem floatModelOwn (hl : MathLib.Accurate) (F : Fmt) (he : F.emin ≤ -F.prec) (hm : 2 ≤ F.emax) :
    @FloatModel (Flt F) _ _ _ _ _ ((ieee F).withRoot (ownRoot F)) fin val (2⁻¹ ^ F.prec) (2 ^ (F.emin - 1)) (2 ^ (F.emax - 1))
      F.tableUnits 2 :=
  have h := floatModelAny hl F he hm
  @FloatModel.mk (Flt F) _ _ _ _ _ ((ieee F).withRoot (ownRoot F)) _ _ _ _ _ _ _ h.u_nonneg h.η_nonneg h.η_le h.zero h.add h.sub
    h.mul h.neg h.cos h.sin h.cosFwd h.sinFwd (ownRoot_spec F he hm) h.half h.norm

/-- Numbers of `f32` are kept by a conversion to a wider format; here the constant. -/
theorem sqrtHalf_wide (F : Fmt) (hp : 24 ≤ F.prec) (he : F.emin ≤ -F.prec) (hm : 2 ≤ F.emax) :
    (FftNum.sqrtHalfF32 (T := Flt F)).fin ∧ (FftNum.sqrtHalfF32 (T := Flt F)).val = sqrtHalfRounded := by
  obtain ⟨h1, h2⟩ := round_near (r := √(1 / 2))
    (by have : ((11863282 : ℝ) + 1 / 2) / 2 ^ 24 < √(1 / 2) := Real.lt_sqrt_of_sq_lt (by norm_num)
        linarith)
    (by have : √(1 / 2) < ((11863283 : ℝ) + 1 / 2) / 2 ^ 24 := (Real.sqrt_lt' (by norm_num)).2 (by norm_num)
        linarith)
  have hr : F.Rep (11863283 / 2 ^ 24) := by
    refine ⟨11863283, -24, lt_of_lt_of_le (by norm_num) (Nat.pow_le_pow_right Nat.two_pos hp), by omega, by norm_num, ?_⟩
    exact lt_of_lt_of_le (by norm_num) (one_le_zpow₀ (by norm_num : (1 : ℚ) ≤ 2) (by omega : 0 ≤ F.emax))
  show (convert F (roundSigned binary32 false √(1 / 2))).fin ∧ (convert F (roundSigned binary32 false √(1 / 2))).val = _
  generalize roundSigned binary32 false √(1 / 2) = w at *
  match w, h1, h2 with
  | num s m h, _, h2 =>
    have hm0 : 0 ≤ m := by
      obtain ⟨k, e, _, _, rfl, _⟩ := h
      positivity
    cases s with
    | true =>
      exfalso
      change -m = _ at h2
      norm_num at h2
      linarith
    | false =>
      change m = _ at h2
      have e : m = 11863283 / 2 ^ 24 := by rw [h2]
      subst e
      have : convert F (num false _ h) = num false (11863283 / 2 ^ 24) hr := round_rep false hr
      rw [this]
      refine ⟨trivial, ?_⟩
      show (((11863283 / 2 ^ 24 : ℚ)) : ℝ) = _
      rw [sqrtHalfRounded]
      norm_num

omit [MathLib] in
theorem val_false {F : Fmt} (m : ℚ) (h : F.Rep m) : (num false m h).val = m := rfl

omit [MathLib] in
theorem val_true {F : Fmt} (m : ℚ) (h : F.Rep m) : (num true m h).val = -m := by
  show (((-m : ℚ)) : ℝ) = _
  push_cast
  rfl

omit [MathLib] in
/-- A number of `f64` between a half and one is a multiple of `2^-53`. -/
theorem grid53 (x : Flt binary64) (hx : x.fin) (h1 : 1 / 2 ≤ x.val) (h2 : x.val < 1) :
    ∃ (k : ℕ) (h : binary64.Rep (k / 2 ^ 53)), k < 2 ^ 53 ∧ x = num false (k / 2 ^ 53) h := by
  match x, hx with
  | num s m h, _ =>
    have hm0 := rep_nonneg h
    cases s with
    | true =>
      exfalso
      rw [val_true] at h1
      have : (0 : ℝ) ≤ m := by exact_mod_cast hm0
      linarith
    | false =>
      rw [val_false] at h1 h2
      have h1 : (1 / 2 : ℚ) ≤ m := by
        have : ((1 / 2 : ℚ) : ℝ) ≤ m := by push_cast; exact h1
        exact_mod_cast this
      have h2 : m < 1 := by exact_mod_cast h2
      have hr := h
      obtain ⟨k, e, hk, _, hme, _⟩ := h
      have hk : k < 2 ^ 53 := hk
      have he : -53 ≤ e := by
        by_contra hc
        have hle : (2 : ℚ) ^ e ≤ 2 ^ (-54 : ℤ) := zpow_le_zpow_right₀ (by norm_num) (by omega)
        have hk' : (k : ℚ) < 2 ^ 53 := by exact_mod_cast hk
        have h3 : m < 2 ^ 53 * 2 ^ (-54 : ℤ) := by
          rw [hme]
          exact lt_of_le_of_lt (mul_le_mul_of_nonneg_left hle (Nat.cast_nonneg k)) (mul_lt_mul_of_pos_right hk' (by norm_num))
        norm_num at h3
        linarith
      obtain ⟨j, hj⟩ : ∃ j : ℕ, e = j - 53 := ⟨(e + 53).toNat, by omega⟩
      have e1 : m = ((k * 2 ^ j : ℕ) : ℚ) / 2 ^ 53 := by
        rw [hme, hj, zpow_sub₀ (by norm_num), zpow_natCast]
        push_cast
        norm_num
        ring
      refine ⟨k * 2 ^ j, e1 ▸ hr, ?_, num_congr e1 _ _⟩
      rw [e1, div_lt_one (by norm_num)] at h2
      exact_mod_cast h2

/-- The table entry `cas(2π/8)` in any format of 54 bits or more: a multiple of `2^-53`. -/
theorem cas_wide (hl : MathLib.Accurate) (F : Fmt) (hp : 54 ≤ F.prec) (he : F.emin ≤ -F.prec) (hm : 2 ≤ F.emax) :
    ∃ (k : ℕ) (h : F.Rep (k / 2 ^ 53)), 0 < k ∧ computeDhtTwiddle (Flt F) 1 8 = num false (k / 2 ^ 53) h := by
  have rep : ∀ k : ℕ, k < 2 ^ 54 → F.Rep (k / 2 ^ 53) := by
    intro k hk
    refine ⟨k, -53, lt_of_lt_of_le hk (Nat.pow_le_pow_right Nat.two_pos hp), by omega, by norm_num [div_eq_mul_inv], ?_⟩
    have h1 : (k : ℚ) < 2 ^ 54 := by exact_mod_cast hk
    have h2 : (2 : ℚ) ≤ 2 ^ F.emax := by
      calc (2 : ℚ) = 2 ^ (1 : ℤ) := by norm_num
        _ ≤ _ := zpow_le_zpow_right₀ (by norm_num) (by omega)
    refine lt_of_lt_of_le ?_ h2
    rw [div_lt_iff₀ (by norm_num)]
    linarith
  have hi : 1 < 8 := by norm_num
  obtain ⟨b1, b2⟩ := Wide.ofNat_spec 2
  obtain ⟨c1, c2⟩ := Wide.two_pi_spec _ b1 1 abs_one (by rw [_root_.one_mul, mul_comm 2 u64]; exact_mod_cast b2)
  obtain ⟨a1, a2⟩ := Wide.angle_spec _ c1 1 abs_one c2 hi
  have ha := abs_angle hi 1 abs_one
  rw [_root_.one_mul] at a2 ha
  have hu := u64_pos
  have hu' := u64_le
  obtain ⟨k1, k2⟩ := Wide.cos_spec hl _ a1 _ ha a2
  obtain ⟨k3, k4⟩ := Wide.sin_spec hl _ a1 _ ha a2
  have e8 : 2 * Real.pi * ((1 : ℕ) : ℝ) / ((8 : ℕ) : ℝ) = Real.pi / 4 := by push_cast; ring
  rw [e8, Real.cos_pi_div_four] at k2
  rw [e8, Real.sin_pi_div_four] at k4
  have q1 : (1.41 : ℝ) < √2 := Real.lt_sqrt_of_sq_lt (by norm_num)
  have q2 : √2 < (1.42 : ℝ) := (Real.sqrt_lt' (by norm_num)).2 (by norm_num)
  show ∃ (k : ℕ) (h : F.Rep (k / 2 ^ 53)), 0 < k ∧ FftNum.fromF64 (T := Flt F) (Wide.ops.cos _) + FftNum.fromF64 (T := Flt F) (Wide.ops.sin _) = _
  obtain ⟨x, hx⟩ : ∃ x, Wide.ops.mul (Wide.ops.div (Wide.ops.mul (Wide.ops.ofNat 2) Wide.ops.pi) (Wide.ops.ofNat 8)) (Wide.ops.ofNat 1)
      = Wide.f64 x := ⟨_, rfl⟩
  rw [hx] at k1 k2 k3 k4
  have k2 := abs_le.1 k2
  have k4 := abs_le.1 k4
  norm_num at hu'
  obtain ⟨i, hri, hi', hci⟩ := grid53 (MathLib.cos x) k1 (by change _ ≤ (Wide.ops.cos (.f64 x)).val; linarith)
    (by change (Wide.ops.cos (.f64 x)).val < _; linarith)
  obtain ⟨j, hrj, hj', hcj⟩ := grid53 (MathLib.sin x) k3 (by change _ ≤ (Wide.ops.sin (.f64 x)).val; linarith)
    (by change (Wide.ops.sin (.f64 x)).val < _; linarith)
  have hi0 : 0 < i := by
    by_contra h0
    have : i = 0 := by omega
    subst this
    change -(66 * u64) ≤ (MathLib.cos x).val - √2 / 2 ∧ _ at k2
    rw [hci] at k2
    have e : (num false ((0 : ℕ) / 2 ^ 53) hri : Flt binary64).val = 0 := by simp [val, value]
    rw [e] at k2
    linarith
  refine ⟨i + j, rep _ (by omega), by omega, ?_⟩
  have ec : FftNum.fromF64 (T := Flt F) (Wide.ops.cos (.f64 x)) = num false (i / 2 ^ 53) (rep i (by omega)) := by
    show convert F (MathLib.cos x) = _
    rw [hci]
    exact round_rep false (rep i (by omega))
  have es : FftNum.fromF64 (T := Flt F) (Wide.ops.sin (.f64 x)) = num false (j / 2 ^ 53) (rep j (by omega)) := by
    show convert F (MathLib.sin x) = _
    rw [hcj]
    exact round_rep false (rep j (by omega))
  erw [hx, ec, es]
  show roundSigned F (false && false) ((i / 2 ^ 53 : ℚ) + j / 2 ^ 53) = _
  have e : (i / 2 ^ 53 : ℚ) + j / 2 ^ 53 = ((i + j : ℕ) : ℚ) / 2 ^ 53 := by push_cast; ring
  have hpos : (0 : ℚ) < ((i + j : ℕ) : ℚ) / 2 ^ 53 := by positivity
  rw [e, roundSigned, if_neg hpos.ne', decide_eq_false hpos.le.not_gt]
  exact round_rep false (rep (i + j) (by omega))

end Flt

/-- No multiple of `2^-53` is nearer to the square root of two than `2^-56`. -/
theorem sqrt2_grid (k : ℕ) : (2⁻¹ : ℝ) ^ 56 ≤ |(k : ℝ) / 2 ^ 53 - √2| := by
  have q1 : ((12738103345051545 : ℝ) + 1 / 8) / 2 ^ 53 < √2 := Real.lt_sqrt_of_sq_lt (by norm_num)
  have q2 : √2 < ((12738103345051545 : ℝ) + 1 / 2) / 2 ^ 53 := (Real.sqrt_lt' (by norm_num)).2 (by norm_num)
  rcases Nat.lt_or_ge 12738103345051545 k with h | h
  · have h : (12738103345051546 : ℝ) ≤ k := by exact_mod_cast h
    have h : (12738103345051546 : ℝ) / 2 ^ 53 ≤ k / 2 ^ 53 := by gcongr
    refine le_trans ?_ (le_abs_self _)
    norm_num at *
    linarith
  · have h : (k : ℝ) ≤ 12738103345051545 := by exact_mod_cast h
    have h : (k : ℝ) / 2 ^ 53 ≤ 12738103345051545 / 2 ^ 53 := by gcongr
    refine le_trans ?_ (neg_le_abs _)
    norm_num at *
    linarith

section
variable {T : Type} [Zero T] [Add T] [Sub T] [Mul T] [Neg T] [FftNum T]

/-- `Butterfly8`, the second output, written out. -/
theorem butterfly8_one (a b c d e f g h : T) : ∃ y, (butterfly8 T).process [a, b, c, d, e, f, g, h] = .ok y ∧
    y.length = 8 ∧ nth y 1 = a - e + (c - g) + (b - f) * computeDhtTwiddle T 1 8 :=
  ⟨_, process_single butterfly8_implements rfl, butterfly8_implements.length _ rfl, rfl⟩

end

end RustDHT
