import Verif.Proofs.SumsIeee
import Mathlib.NumberTheory.Niven

/-! # Sums and differences without rounding, and where the DHT is irrational -/

namespace RustDHT

namespace Flt

variable {F : Fmt}

theorem sub_exact {a b : Flt F} (ha : a.fin) (hb : b.fin) (h : F.Rep |a.value - b.value|) :
    (a - b).fin ∧ (a - b).value = a.value - b.value := by
  have hb' : (-b).fin := by match b, hb with | num .., _ => trivial
  have := add_exact ha hb' (by rwa [value_neg', ← sub_eq_add_neg])
  rwa [value_neg', ← sub_eq_add_neg] at this

/-- A finite multiple of `2 ^ e` of absolute value at most `B`, with the value `v`. -/
structure Grid (e : ℤ) (B v : ℚ) (a : Flt F) : Prop where
  fin : a.fin
  value : a.value = v
  mul : ∃ k : ℤ, v = k * 2 ^ e
  le : |v| ≤ B

variable {e : ℤ} {B C v w : ℚ} {a b : Flt F}

theorem rep_grid (he : F.emin ≤ e) (hm : ∃ k : ℤ, v = k * 2 ^ e) (h1 : |v| ≤ 2 ^ F.prec * 2 ^ e) (h2 : |v| < 2 ^ F.emax) :
    F.Rep |v| := by
  obtain ⟨k, rfl⟩ := hm
  have hp : (0 : ℚ) < 2 ^ e := by positivity
  have e2 : |(k : ℚ) * 2 ^ e| = (|k| : ℤ) * 2 ^ e := by rw [abs_mul, abs_of_pos hp, Int.cast_abs]
  rw [e2] at h1 h2 ⊢
  refine F.rep_of (abs_nonneg _) ?_ he h2
  exact_mod_cast le_of_mul_le_mul_right h1 hp

theorem Grid.add (he : F.emin ≤ e) (ha : Grid e B v a) (hb : Grid e C w b) (h1 : B + C ≤ 2 ^ F.prec * 2 ^ e)
    (h2 : B + C < 2 ^ F.emax) : Grid e (B + C) (v + w) (a + b) := by
  have hm : ∃ k : ℤ, v + w = k * 2 ^ e := by
    obtain ⟨k, hk⟩ := ha.mul
    obtain ⟨l, hl⟩ := hb.mul
    exact ⟨k + l, by rw [hk, hl]; push_cast; ring⟩
  have hle : |v + w| ≤ B + C := (abs_add_le _ _).trans (add_le_add ha.le hb.le)
  obtain ⟨f1, f2⟩ := add_exact ha.fin hb.fin
    (by rw [ha.value, hb.value]; exact rep_grid he hm (hle.trans h1) (hle.trans_lt h2))
  exact ⟨f1, by rw [f2, ha.value, hb.value], hm, hle⟩

theorem Grid.sub (he : F.emin ≤ e) (ha : Grid e B v a) (hb : Grid e C w b) (h1 : B + C ≤ 2 ^ F.prec * 2 ^ e)
    (h2 : B + C < 2 ^ F.emax) : Grid e (B + C) (v - w) (a - b) := by
  have hm : ∃ k : ℤ, v - w = k * 2 ^ e := by
    obtain ⟨k, hk⟩ := ha.mul
    obtain ⟨l, hl⟩ := hb.mul
    exact ⟨k - l, by rw [hk, hl]; push_cast; ring⟩
  have hle : |v - w| ≤ B + C := (abs_sub _ _).trans (add_le_add ha.le hb.le)
  obtain ⟨f1, f2⟩ := sub_exact ha.fin hb.fin
    (by rw [ha.value, hb.value]; exact rep_grid he hm (hle.trans h1) (hle.trans_lt h2))
  exact ⟨f1, by rw [f2, ha.value, hb.value], hm, hle⟩

end Flt

/-- `cos + sin` at the `n`-th part of the circle is rational for `n = 1, 2, 4` only. -/
theorem cas_irrational {n : ℕ} (hn : 0 < n) (h : ¬ n ∣ 4) : Irrational (Real.cos (2 * Real.pi / n) + Real.sin (2 * Real.pi / n)) := by
  rintro ⟨q, hq⟩
  have hn' : (n : ℝ) ≠ 0 := by positivity
  have hint : IsIntegral ℤ ((2 * q : ℚ) : ℝ) := by
    have h1 := Real.isIntegral_two_mul_cos_rat_mul_pi (2 / n)
    have h2 := Real.isIntegral_two_mul_sin_rat_mul_pi (2 / n)
    have e : ((2 / n : ℚ) : ℝ) * Real.pi = 2 * Real.pi / n := by push_cast; ring
    rw [e] at h1 h2
    have := h1.add h2
    rw [← mul_add, ← hq] at this
    exact_mod_cast this
  obtain ⟨k, hk⟩ := (IsIntegral.exists_int_iff_exists_rat hint).1 ⟨_, rfl⟩
  have hk' : (2 * (q : ℝ)) = k := by exact_mod_cast hk
  have hsin : Real.sin (4 * Real.pi / n) = (q : ℝ) ^ 2 - 1 := by
    have e : 4 * Real.pi / n = 2 * (2 * Real.pi / n) := by ring
    rw [e, Real.sin_two_mul, hq]
    have := Real.sin_sq_add_cos_sq (2 * Real.pi / n)
    linear_combination -this
  have hint2 : IsIntegral ℤ ((2 * (q ^ 2 - 1) : ℚ) : ℝ) := by
    have h2 := Real.isIntegral_two_mul_sin_rat_mul_pi (4 / n)
    have e : ((4 / n : ℚ) : ℝ) * Real.pi = 4 * Real.pi / n := by push_cast; ring
    rw [e, hsin] at h2
    exact_mod_cast h2
  obtain ⟨l, hl⟩ := (IsIntegral.exists_int_iff_exists_rat hint2).1 ⟨_, rfl⟩
  have hl' : 2 * ((q : ℝ) ^ 2 - 1) = l := by exact_mod_cast hl
  have hkl : k ^ 2 - 4 = 2 * l := by
    have : (k : ℝ) ^ 2 - 4 = 2 * l := by rw [← hk', ← hl']; ring
    exact_mod_cast this
  have hb1 : (q : ℝ) ^ 2 - 1 ≤ 1 := hsin ▸ Real.sin_le_one _
  have hb2 : -1 ≤ (q : ℝ) ^ 2 - 1 := hsin ▸ Real.neg_one_le_sin _
  have hl1 : -2 ≤ l := by
    have : (-2 : ℝ) ≤ l := by rw [← hl']; linarith
    exact_mod_cast this
  have hl2 : l ≤ 2 := by
    have : (l : ℝ) ≤ 2 := by rw [← hl']; linarith
    exact_mod_cast this
  have hl3 : l = -2 ∨ l = 0 := by
    have hk2 : k ≤ 2 := by nlinarith
    have hk3 : -2 ≤ k := by nlinarith
    interval_cases k <;> omega
  rcases hl3 with rfl | rfl
  · have hs : Real.sin (4 * Real.pi / n) = -1 := by rw [hsin]; push_cast at hl'; linarith
    rw [Real.sin_eq_neg_one_iff] at hs
    obtain ⟨j, hj⟩ := hs
    have hpi := Real.pi_ne_zero
    have : (8 : ℝ) = n * (4 * j - 1) := by
      field_simp at hj
      linarith
    have : (8 : ℤ) = n * (4 * j - 1) := by exact_mod_cast this
    have hd : (n : ℤ) ∣ 8 := ⟨_, this⟩
    have hd' : n ∣ 8 := by exact_mod_cast hd
    have hle := Nat.le_of_dvd (by norm_num) hd'
    interval_cases n <;> omega
  · have hs : Real.sin (4 * Real.pi / n) = 0 := by rw [hsin]; push_cast at hl'; linarith
    rw [Real.sin_eq_zero_iff] at hs
    obtain ⟨j, hj⟩ := hs
    have hpi := Real.pi_ne_zero
    have : (j : ℝ) * n = 4 := by
      field_simp at hj
      linarith
    have : j * (n : ℤ) = 4 := by exact_mod_cast this
    have hd : (n : ℤ) ∣ 4 := Dvd.intro_left j this
    exact h (by exact_mod_cast hd)

/-- Up to length 4, `Radix4` is its base butterfly. -/
theorem radix4Fn_small {T : Type} [Zero T] [Add T] [Sub T] [Mul T] [Neg T] [FftNum T] {m : ℕ} (hm : m ≤ 2) {x : List T}
    (hx : x.length = 2 ^ m) : radix4Fn T m x = r4BaseFn T m x := by
  have hl : r4Levels m = 0 := by rw [r4Levels, if_pos (by omega)]
  have hb : r4BaseLen m = 2 ^ m := by rw [r4_len m, hl, pow_zero, mul_one]
  have e : (tab (r4BaseLen m * 4 ^ 0) fun p => nth x (r4Index (r4BaseLen m) 0 false p)) = x := by
    rw [hb, pow_zero, mul_one]
    exact (eq_tab hx fun k _ => rfl).symm
  rw [radix4Fn, r4Fn, hl, e, r4Layers, mapChunks_single (r4BaseLen_pos m) (by rw [hb, hx])]

end RustDHT
