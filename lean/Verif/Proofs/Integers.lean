import Verif.Proofs.SumsIeee
import Verif.Proofs.LeavesDht
import Verif.Proofs.Impulse
import Verif.Spec.Integers
import Mathlib.Analysis.SpecialFunctions.Trigonometric.Bounds

/-! # The tables in integer number types -/

namespace RustDHT

open Finset

theorem truncate_one : truncate 1 = 1 := by simp [truncate]

theorem truncate_small {x : ℝ} (h : |x| < 1) : truncate x = 0 := by
  rw [abs_lt] at h
  unfold truncate
  split_ifs with h0
  · exact Int.floor_eq_zero_iff.2 ⟨h0, h.2⟩
  · rw [Int.ceil_eq_zero_iff]
    exact ⟨by linarith, by linarith⟩

/-- For odd `n` no angle but zero is a multiple of a half turn. -/
theorem abs_cos_le {n j : ℕ} (hn : n % 2 = 1) (hj : ¬ n ∣ j) : |Real.cos (2 * Real.pi * j / n)| ≤ 1 - 2 / (n : ℝ) ^ 2 := by
  have hn0 : (0 : ℝ) < n := by exact_mod_cast (by omega : 0 < n)
  have hp := Real.pi_pos
  set m : ℤ := round (2 * (j : ℝ) / n) with hm
  have h1 : |2 * (j : ℝ) / n - m| ≤ 1 / 2 := abs_sub_round _
  have h2 : 1 / (n : ℝ) ≤ |2 * (j : ℝ) / n - m| := by
    have e : 2 * (j : ℝ) / n - m = ((2 * j - m * n : ℤ) : ℝ) / n := by
      push_cast
      field_simp
    rw [e, abs_div, abs_of_pos hn0]
    refine (div_le_div_iff_of_pos_right hn0).2 ?_
    have : (2 * j - m * n : ℤ) ≠ 0 := by
      intro h
      apply hj
      have h3 : (n : ℤ) ∣ 2 * j := ⟨m, by linarith⟩
      have h4 : n ∣ 2 * j := by exact_mod_cast h3
      exact (Nat.Coprime.dvd_of_dvd_mul_left (by
        rw [Nat.coprime_comm, Nat.coprime_two_left, Nat.odd_iff]; exact hn) h4)
    exact_mod_cast Int.one_le_abs this
  have e : 2 * Real.pi * j / n = (2 * (j : ℝ) / n - m) * Real.pi + m * Real.pi := by ring
  generalize 2 * (j : ℝ) / n - m = y at h1 h2 e
  rw [e, Real.cos_add_int_mul_pi, abs_mul, abs_zpow, abs_neg, abs_one, one_zpow, one_mul]
  have hy : |y * Real.pi| ≤ Real.pi / 2 := by
    rw [abs_mul, abs_of_pos hp]
    nlinarith
  rw [abs_le] at hy
  rw [abs_of_nonneg (Real.cos_nonneg_of_mem_Icc ⟨by linarith, by linarith⟩)]
  have hc := Real.cos_le_one_sub_mul_cos_sq (x := y * Real.pi) (abs_le.2 ⟨by linarith, by linarith⟩)
  have e2 : 2 / Real.pi ^ 2 * (y * Real.pi) ^ 2 = 2 * |y| ^ 2 := by
    rw [sq_abs]
    field_simp
  have h3 : (1 / (n : ℝ)) ^ 2 ≤ |y| ^ 2 := pow_le_pow_left₀ (by positivity) h2 2
  rw [e2] at hc
  have e3 : 2 / (n : ℝ) ^ 2 = 2 * (1 / (n : ℝ)) ^ 2 := by ring
  rw [e3]
  linarith

/-- Nor of a quarter turn. -/
theorem abs_cos_sin_le {n j : ℕ} (hn : n % 2 = 1) (hj : ¬ n ∣ j) (h : n ≤ 2 ^ 20) :
    |Real.cos (2 * Real.pi * j / n)| ≤ 1 - 2⁻¹ ^ 44 ∧ |Real.sin (2 * Real.pi * j / n)| ≤ 1 - 2⁻¹ ^ 44 := by
  have hj2 : ¬ n ∣ 2 * j := fun h => hj (Nat.Coprime.dvd_of_dvd_mul_left (by
    rw [Nat.coprime_comm, Nat.coprime_two_left, Nat.odd_iff]; exact hn) h)
  have h1 := abs_cos_le hn hj2
  have e : 2 * Real.pi * (2 * j : ℕ) / n = 2 * (2 * Real.pi * j / n) := by push_cast; ring
  rw [e] at h1
  generalize 2 * Real.pi * j / n = θ at h1
  have hn0 : (0 : ℝ) < n := by exact_mod_cast (by omega : 0 < n)
  have h2 : (2 : ℝ)⁻¹ ^ 40 ≤ 1 / (n : ℝ) ^ 2 := by
    have h3 : (n : ℝ) ≤ 2 ^ 20 := by exact_mod_cast h
    have h4 : (n : ℝ) ^ 2 ≤ (2 ^ 20) ^ 2 := pow_le_pow_left₀ hn0.le h3 2
    have := one_div_le_one_div_of_le (by positivity) h4
    refine le_trans (le_of_eq ?_) this
    norm_num
  have e2 : 2 / (n : ℝ) ^ 2 = 2 * (1 / (n : ℝ) ^ 2) := by ring
  rw [e2, abs_le, one_div] at h1
  have hs := Real.sin_sq_add_cos_sq θ
  have hc := Real.cos_two_mul θ
  norm_num at h2
  constructor
  · refine abs_le_of_sq_le_sq ?_ (by norm_num)
    norm_num
    nlinarith
  · refine abs_le_of_sq_le_sq ?_ (by norm_num)
    norm_num
    nlinarith

variable [MathLib]

omit [MathLib] in
theorem Wide.val_ofNat_one : (Flt.ofNat binary64 1).val = 1 := by
  rw [Flt.ofNat, Nat.cast_one, Flt.round_rep _ (Flt.one_rep binary64 (by decide) (by decide))]
  simp [Flt.val, Flt.value]

section

variable (R : Type) [CommRing R]

attribute [local instance] integerNum

theorem integer_twiddle_zero (hz : MathLib.AtZero) {n : ℕ} (hn : 0 < n) : computeDhtTwiddle R 0 n = 1 := by
  rw [computeDhtTwiddle]
  rcases Flt.angle_zero hn with ⟨z, z1, z2, ez⟩ | ez
  · show ((truncate (Wide.ops.cos (Wide.ops.mul (Wide.ops.div (Wide.ops.mul (Wide.ops.ofNat 2) Wide.ops.pi)
      (Wide.ops.ofNat n)) (Wide.ops.ofNat 0))).val : ℤ) : R) + ((truncate (Wide.ops.sin (Wide.ops.mul (Wide.ops.div
      (Wide.ops.mul (Wide.ops.ofNat 2) Wide.ops.pi) (Wide.ops.ofNat n)) (Wide.ops.ofNat 0))).val : ℤ) : R) = _
    rw [ez]
    show ((truncate (MathLib.cos z).val : ℤ) : R) + ((truncate (MathLib.sin z).val : ℤ) : R) = _
    rw [hz.cos z z1 z2, hz.sin z z1 z2, Wide.val_ofNat_one, truncate_one, truncate_small (by simp [Flt.val, z2])]
    simp
  · show ((truncate (Wide.ops.cos (Wide.ops.mul (Wide.ops.div (Wide.ops.mul (Wide.ops.ofNat 2) Wide.ops.pi)
      (Wide.ops.ofNat n)) (Wide.ops.ofNat 0))).val : ℤ) : R) + ((truncate (Wide.ops.sin (Wide.ops.mul (Wide.ops.div
      (Wide.ops.mul (Wide.ops.ofNat 2) Wide.ops.pi) (Wide.ops.ofNat n)) (Wide.ops.ofNat 0))).val : ℤ) : R) = _
    rw [ez]
    show ((truncate (Real.cos 0) : ℤ) : R) + ((truncate (Real.sin 0) : ℤ) : R) = _
    rw [Real.cos_zero, Real.sin_zero, truncate_one, truncate_small (by simp)]
    simp

theorem integer_twiddle_other (hl : MathLib.Accurate) {i n : ℕ} (hn : n % 2 = 1) (h : n ≤ 2 ^ 20) (h0 : 0 < i) (hi : i < n) :
    computeDhtTwiddle R i n = 0 := by
  obtain ⟨b1, b2⟩ := Wide.ofNat_spec 2
  obtain ⟨c1, c2⟩ := Wide.two_pi_spec _ b1 1 abs_one (by rw [one_mul, mul_comm 2 u64]; exact_mod_cast b2)
  obtain ⟨d1, d2⟩ := Wide.angle_spec _ c1 1 abs_one c2 hi
  have h7 := Flt.abs_angle hi 1 abs_one
  rw [one_mul] at d2 h7
  obtain ⟨-, e2⟩ := Wide.cos_spec hl _ d1 _ h7 d2
  obtain ⟨-, f2⟩ := Wide.sin_spec hl _ d1 _ h7 d2
  obtain ⟨g1, g2⟩ := abs_cos_sin_le hn (fun hd => absurd (Nat.le_of_dvd h0 hd) (by omega)) h
  have hu : 66 * u64 < 2⁻¹ ^ 44 := by unfold u64; norm_num
  have t1 : |(Wide.ops.cos (Wide.ops.mul (Wide.ops.div (Wide.ops.mul (Wide.ops.ofNat 2) Wide.ops.pi) (Wide.ops.ofNat n))
      (Wide.ops.ofNat i))).val| < 1 := by
    have := abs_add_le ((Wide.ops.cos (Wide.ops.mul (Wide.ops.div (Wide.ops.mul (Wide.ops.ofNat 2) Wide.ops.pi) (Wide.ops.ofNat n))
      (Wide.ops.ofNat i))).val - Real.cos (2 * Real.pi * i / n)) (Real.cos (2 * Real.pi * i / n))
    rw [sub_add_cancel] at this
    linarith
  have t2 : |(Wide.ops.sin (Wide.ops.mul (Wide.ops.div (Wide.ops.mul (Wide.ops.ofNat 2) Wide.ops.pi) (Wide.ops.ofNat n))
      (Wide.ops.ofNat i))).val| < 1 := by
    have := abs_add_le ((Wide.ops.sin (Wide.ops.mul (Wide.ops.div (Wide.ops.mul (Wide.ops.ofNat 2) Wide.ops.pi) (Wide.ops.ofNat n))
      (Wide.ops.ofNat i))).val - Real.sin (2 * Real.pi * i / n)) (Real.sin (2 * Real.pi * i / n))
    rw [sub_add_cancel] at this
    linarith
  show ((truncate (Wide.ops.cos (Wide.ops.mul (Wide.ops.div (Wide.ops.mul (Wide.ops.ofNat 2) Wide.ops.pi)
      (Wide.ops.ofNat n)) (Wide.ops.ofNat i))).val : ℤ) : R) + ((truncate (Wide.ops.sin (Wide.ops.mul (Wide.ops.div
      (Wide.ops.mul (Wide.ops.ofNat 2) Wide.ops.pi) (Wide.ops.ofNat n)) (Wide.ops.ofNat i))).val : ℤ) : R) = _
  rw [truncate_small t1, truncate_small t2]
  simp

omit [MathLib] in
theorem foldl_add_sum_ring {R : Type} [CommRing R] (g : ℕ → R) (n : ℕ) (a : R) :
    (List.range n).foldl (fun acc i => acc + g i) a = a + ∑ i ∈ range n, g i := by
  induction n with
  | zero => simp
  | succ n ih => rw [List.range_succ, List.foldl_append, ih, sum_range_succ]; simp [add_assoc]

theorem integer_naive (hl : MathLib.Accurate) (hz : MathLib.AtZero) {n : ℕ} (hn : n % 2 = 1) (h : n ≤ 2 ^ 20) {x : List R}
    (hx : x.length = n) :
    naiveFn R n x = tab n fun k => ∑ i ∈ range n, if n ∣ i * k then nth x i else 0 := by
  rw [naiveFn]
  refine tab_congr fun k hk => ?_
  rw [naiveVal, foldl_add_sum_ring (fun i => nth (naiveTwiddles R n) (i * k % (naiveTwiddles R n).length) * nth x i), zero_add, hx,
    length_naiveTwiddles]
  refine sum_congr rfl fun i _ => ?_
  have hm : i * k % n < n := Nat.mod_lt _ (by omega)
  have e : nth (naiveTwiddles R n) (i * k % n) = computeDhtTwiddle R (i * k % n) n := by
    rw [nth_eq_getElem (by rwa [length_naiveTwiddles])]
    simp [naiveTwiddles]
  rw [e]
  by_cases hd : n ∣ i * k
  · rw [if_pos hd, Nat.mod_eq_zero_of_dvd hd, integer_twiddle_zero R hz (by omega), one_mul]
  · rw [if_neg hd, integer_twiddle_other R hl hn h (Nat.pos_of_ne_zero fun h0 => hd (Nat.dvd_of_mod_eq_zero h0)) hm, zero_mul]

theorem integer_norm {n : ℕ} (hn : 2 ≤ n) :
    FftNum.fromF64 ((FftNum.f64 (T := R)).div ((FftNum.f64 (T := R)).ofNat 1) ((FftNum.f64 (T := R)).ofNat n)) = 0 := by
  obtain ⟨b1, b2⟩ := Wide.ofNat_spec 1
  have hu0 := u64_pos
  have hu := u64_le
  norm_num at hu
  rw [Nat.cast_one, mul_one] at b2
  have hb := abs_le.1 b2
  have b0 : 0 < (Wide.ops.ofNat 1).val := by linarith
  obtain ⟨-, d2⟩ := Wide.div_spec _ b1 n (by omega) (by rw [abs_of_pos b0]; linarith) (by rw [abs_of_pos b0]; linarith)
  have hN : (2 : ℝ) ≤ n := by exact_mod_cast hn
  have ht : |(Wide.ops.div (Wide.ops.ofNat 1) (Wide.ops.ofNat n)).val| < 1 := by
    generalize (Wide.ops.div (Wide.ops.ofNat 1) (Wide.ops.ofNat n)).val = r at d2
    rw [abs_le] at d2
    rw [abs_lt]
    constructor
    · by_contra h
      nlinarith
    · by_contra h
      nlinarith
  show ((truncate (Wide.ops.div (Wide.ops.ofNat 1) (Wide.ops.ofNat n)).val : ℤ) : R) = 0
  rw [truncate_small ht, Int.cast_zero]

theorem integer_absorbs (hz : MathLib.AtZero) (a : R) : Absorbs (fun b : R => b = 0) fun b => b = a :=
  ⟨rfl, by rintro _ _ rfl rfl; simp, by rintro _ _ rfl rfl; simp, by rintro _ rfl; simp, by rintro _ _ rfl; simp,
    by rintro _ _ rfl; simp, by rintro _ _ rfl rfl; simp, by rintro _ _ rfl rfl; simp, by rintro _ _ rfl rfl; simp,
    by rintro n hn _ rfl; rw [integer_twiddle_zero R hz hn, one_mul]⟩

/-- All tables of `RadersAlgorithm` are zero: the second inner transform is one of an impulse. -/
theorem integer_raders (hz : MathLib.AtZero) {i : Dht R} {f : List R → List R} (hi : Implements i f)
    (hf : 0 < i.len → Flat (fun b : R => b = 0) i.len f) {d : Dht R} (hd : raders i = .ok d) {x : List R} (hx : x.length = d.len) :
    ∃ X₀, d.process x = .ok (X₀ :: List.replicate (d.len - 1) (nth x 0)) := by
  obtain ⟨g, gi, h⟩ := raders_data hi hd
  have h2 := h.prime.two_le
  have ho := h.odd
  have hf := hf (by omega)
  have hdl : d.len = i.len + 1 := by rw [h.eq]; rfl
  have hA := integer_absorbs R hz (nth x 0)
  have hk : ∀ j, nth (rdKernel R (i.len + 1) gi) j = 0 := by
    intro j
    rcases Nat.lt_or_ge j i.len with hj | hj
    · rw [rdKernel, nth_tab (by omega), Nat.add_sub_cancel, integer_norm R (by omega), mul_zero]
    · rw [nth_of_ge (by simpa [rdKernel] using hj)]
  have hfk : ∀ j, nth (f (rdKernel R (i.len + 1) gi)) j = 0 := by
    intro j
    rcases Nat.lt_or_ge j i.len with hj | hj
    · exact hf _ hA.zeros _ (by simp [rdKernel]) (hk 0) (fun j _ => hk j) j hj
    · rw [nth_of_ge (by rw [hi.length _ (by simp [rdKernel])]; exact hj)]
  have htw : ∀ j, rdTw (f (rdKernel R (i.len + 1) gi)) (i.len + 1 - 1) j = ⟨0, 0⟩ := by
    intro j
    unfold rdTw
    simp only [hfk]
    split_ifs
    · rfl
    · simp
  have hmul : ∀ y j, rdMul y (rdTw (f (rdKernel R (i.len + 1) gi)) (i.len + 1 - 1)) (i.len + 1 - 1) j = 0 := by
    intro y j
    unfold rdMul
    simp only [htw]
    split_ifs <;> simp
  have e := process_single (h.implements hi) hx
  rw [rdFn] at e
  refine ⟨nth x 0 + nth (f (rdIn (i.len + 1) g x)) 0, ?_⟩
  rw [e, hdl]
  congr 2
  rw [List.eq_replicate_iff]
  refine ⟨by simp, fun b hb => ?_⟩
  obtain ⟨k, hk, rfl⟩ := List.mem_iff_getElem.1 hb
  rw [getElem_tab]
  have hk' : k < i.len := by simpa using hk
  refine hf _ hA _ (by simp [rdMid]) ?_ (fun j hj => ?_) _
    (dlog_spec h.prime h.gi_pos h.gi_lt h.gi_order (by omega) (by omega)).1
  · rw [rdMid, nth_tab (by omega), if_pos rfl, hmul, zero_add]
  · rcases Nat.lt_or_ge j i.len with hj' | hj'
    · rw [rdMid, nth_tab (by omega), if_neg (by omega), hmul]
    · rw [nth_of_ge (by simpa [rdMid] using hj')]

end

end RustDHT
