import Verif.Proofs.LeavesDht

/-! # `Butterfly8`, `Butterfly9` and `Butterfly16` compute the DHT -/

namespace RustDHT

open Finset

/-- Table for length 8. -/
noncomputable def tbl8 : ℕ → ℝ
  | 0 => 1
  | 1 => ca 8 1
  | 2 => 1
  | 3 => 0
  | 4 => -1
  | 5 => -ca 8 1
  | 6 => -1
  | _ => 0

theorem ca_eight_three : ca 8 3 = 0 := by
  rw [ca, cs, sn, show (2 : ℝ) * Real.pi * ((3 : ℤ) : ℝ) / ((8 : ℕ) : ℝ) = Real.pi - Real.pi / 4 by push_cast; ring]
  simp

theorem tbl8_ok : ∀ j < 8, ca 8 (j : ℕ) = tbl8 j := by
  intro j hj
  have h0 := ca_half 4 (by omega) 0
  have h1 := ca_half 4 (by omega) 1
  have h2 := ca_half 4 (by omega) 2
  have h3 := ca_half 4 (by omega) 3
  have h4 := ca_mul (n := 4) (m := 2) (by omega) 1
  norm_num [ca_four_one, ca_eight_three] at h0 h1 h2 h3 h4
  rw [h4] at h2
  interval_cases j <;> norm_num [tbl8, h0, h1, h2, h3, h4, ca_eight_three]

theorem butterfly8_dht : ComputesDht (butterfly8 ℝ) := by
  refine butterfly8_implements.congr fun x hx => ?_
  have hx : x.length = 8 := hx
  obtain ⟨a0, a1, a2, a3, a4, a5, a6, a7, rfl⟩ := list8 hx
  refine dht_of_table tbl8_ok rfl rfl fun k hk => ?_
  rw [bflyFn, run_eq (b8_eval ..), b8List]
  simp only [dht_twiddle]
  interval_cases k <;> simp [nth, sum_range_succ, tbl8] <;> ring1

/-- Table for length 9. -/
noncomputable def tbl9 : ℕ → ℝ
  | 0 => 1
  | 1 => cs 9 1 + sn 9 1
  | 2 => cs 9 2 + sn 9 2
  | 3 => cs 3 1 + sn 3 1
  | 4 => cs 9 4 + sn 9 4
  | 5 => cs 9 4 - sn 9 4
  | 6 => cs 3 1 - sn 3 1
  | 7 => cs 9 2 - sn 9 2
  | _ => cs 9 1 - sn 9 1

theorem tbl9_ok : ∀ j < 9, ca 9 (j : ℕ) = tbl9 j := by
  intro j hj
  have h3 := ca_mul (n := 3) (m := 3) (by omega) 1
  have h6 := ca_mul (n := 3) (m := 3) (by omega) (-1)
  have h5 : ca 9 5 = ca 9 (-4) := ca_congr ⟨1, by norm_num⟩
  have h6' : ca 9 6 = ca 9 (-3) := ca_congr ⟨1, by norm_num⟩
  have h7 : ca 9 7 = ca 9 (-2) := ca_congr ⟨1, by norm_num⟩
  have h8 : ca 9 8 = ca 9 (-1) := ca_congr ⟨1, by norm_num⟩
  norm_num at h3 h6
  rw [ca_neg 3] at h6
  rw [h6] at h6'
  rw [ca_neg] at h5 h7 h8
  interval_cases j
  · simp [tbl9]
  · simp [tbl9, ca]
  · simp [tbl9, ca]
  · simpa [tbl9, ca] using h3
  · simp [tbl9, ca]
  · simpa [tbl9] using h5
  · simpa [tbl9] using h6'
  · simpa [tbl9] using h7
  · simpa [tbl9] using h8

theorem cs_three_one : cs 3 1 = -1 / 2 := by
  rw [cs, show (2 : ℝ) * Real.pi * ((1 : ℤ) : ℝ) / ((3 : ℕ) : ℝ) = Real.pi - Real.pi / 3 by push_cast; ring,
    Real.cos_pi_sub, Real.cos_pi_div_three]; norm_num

theorem nine_relations : cs 9 4 = -cs 9 1 - cs 9 2 ∧ sn 9 4 = sn 9 2 - sn 9 1 := by
  have e1 := cs_add 9 1 3
  have e2 := cs_sub 9 1 3
  have e3 := sn_add 9 1 3
  have e4 := sn_sub 9 1 3
  have h3 := cs_mul (n := 3) (m := 3) (by omega) 1
  norm_num at e1 e2 e3 e4 h3
  rw [cs_neg] at e2
  rw [sn_neg] at e4
  rw [h3, cs_three_one] at e1 e2 e3 e4
  constructor <;> linarith

/-- What `Butterfly9` stores. -/
noncomputable def b9List (i0 i1 i2 i3 i4 i5 i6 i7 i8 : ℝ) : List ℝ :=
  let bt := (computeDftTwiddleForward ℝ 1 3).re - (computeDftTwiddleForward ℝ 1 3).im
  let tw1 := computeDftTwiddleInverse ℝ 1 9
  let tw2 := computeDftTwiddleInverse ℝ 2 9
  let tw4 := computeDftTwiddleInverse ℝ 4 9
  let w1 := i0 - i6 + (i3 - i6) * bt
  let w2 := i0 - i3 - (i3 - i6) * bt
  let x0 := i0 + i3 + i6
  let x3 := i1 + i4 + i7
  let x6 := i2 + i5 + i8
  let t := (x3 - x6) * bt
  let u1 := i7 - i4 + (i2 - i5)
  let u4 := i7 - i4 - (i2 - i5)
  let u2 := i8 - i5 + (i1 - i4)
  let u3 := i8 - i5 - (i1 - i4)
  let v1 := (u1 - u2) * tw4.re
  let p1 := v1 - u2 * tw1.re
  let p2 := -v1 - u1 * tw2.re
  let v2 := (u3 + u4) * tw4.im
  let p3 := -v2 - u3 * tw1.im
  let p4 := u4 * tw2.im - v2
  [x0 + x3 + x6, -(p1 - p3) - (p2 + p4) + w1, p1 + p3 + w2, x0 - x6 + t, p2 + p4 + w1, p2 - p4 + w2, x0 - x3 - t,
   p1 - p3 + w1, -(p2 - p4) - (p1 + p3) + w2]

theorem forward_re (i n : ℕ) : (computeDftTwiddleForward ℝ i n).re = cs n i := by
  change Real.cos (-((2 : ℕ) : ℝ) * Real.pi / n * i) = cs n i
  rw [cs, ← Real.cos_neg]; congr 1; push_cast; ring
theorem forward_im (i n : ℕ) : (computeDftTwiddleForward ℝ i n).im = -sn n i := by
  change Real.sin (-((2 : ℕ) : ℝ) * Real.pi / n * i) = -sn n i
  rw [sn, ← Real.sin_neg]; congr 1; push_cast; ring

theorem butterfly9_dht : ComputesDht (butterfly9 ℝ) := by
  refine butterfly9_implements.congr fun x hx => ?_
  have hx : x.length = 9 := hx
  obtain ⟨a0, a1, a2, a3, a4, a5, a6, a7, a8, rfl⟩ := list9 hx
  refine dht_of_table tbl9_ok rfl rfl fun k hk => ?_
  have key : bflyFn contiguous9 [a0, a1, a2, a3, a4, a5, a6, a7, a8] = b9List a0 a1 a2 a3 a4 a5 a6 a7 a8 := rfl
  rw [key, b9List]
  simp only [inverse_re, inverse_im, forward_re, forward_im]
  have h1 := nine_relations.1
  have h2 := nine_relations.2
  interval_cases k <;> simp [nth, sum_range_succ, tbl9, h1, h2, cs_three_one] <;> ring1

/-- Table for length 16. -/
noncomputable def tbl16 : ℕ → ℝ
  | 0 => 1
  | 1 => cs 16 1 + sn 16 1
  | 2 => ca 8 1
  | 3 => cs 16 1 + sn 16 1
  | 4 => 1
  | 5 => cs 16 1 - sn 16 1
  | 6 => 0
  | 7 => sn 16 1 - cs 16 1
  | 8 => -1
  | 9 => -(cs 16 1 + sn 16 1)
  | 10 => -ca 8 1
  | 11 => -(cs 16 1 + sn 16 1)
  | 12 => -1
  | 13 => sn 16 1 - cs 16 1
  | 14 => 0
  | _ => cs 16 1 - sn 16 1

theorem cs_four (k : ℤ) : cs 16 (4 + k) = -sn 16 k := by
  rw [cs_add]
  have h1 : cs 16 4 = 0 := by
    rw [cs, show (2 : ℝ) * Real.pi * ((4 : ℤ) : ℝ) / ((16 : ℕ) : ℝ) = Real.pi / 2 by push_cast; ring]; simp
  have h2 : sn 16 4 = 1 := by
    rw [sn, show (2 : ℝ) * Real.pi * ((4 : ℤ) : ℝ) / ((16 : ℕ) : ℝ) = Real.pi / 2 by push_cast; ring]; simp
  rw [h1, h2]; ring
theorem sn_four (k : ℤ) : sn 16 (4 + k) = cs 16 k := by
  have := cs_four (-4 - k)
  rw [show (4 : ℤ) + (-4 - k) = -k by ring, cs_neg, show (-4 : ℤ) - k = -(4 + k) by ring, sn_neg] at this
  linarith

theorem tbl16_ok : ∀ j < 16, ca 16 (j : ℕ) = tbl16 j := by
  have h1 : ca 16 1 = cs 16 1 + sn 16 1 := rfl
  have h2 := ca_mul (n := 8) (m := 2) (by omega) 1
  have h3 : ca 16 3 = cs 16 1 + sn 16 1 := by
    have e1 := cs_four (-1); have e2 := sn_four (-1)
    norm_num at e1 e2
    rw [ca, e1, e2, cs_neg, sn_neg]; ring
  have h4 := ca_mul (n := 8) (m := 2) (by omega) 2
  have h4' : ca 8 2 = 1 := by have := tbl8_ok 2 (by omega); norm_num [tbl8] at this; exact this
  have h5 : ca 16 5 = cs 16 1 - sn 16 1 := by
    have e1 := cs_four 1; have e2 := sn_four 1
    norm_num at e1 e2
    rw [ca, e1, e2]; ring
  have h6 := ca_mul (n := 8) (m := 2) (by omega) 3
  norm_num at h2 h4 h6
  rw [h4'] at h4
  rw [ca_eight_three] at h6
  have h15 : ca 16 15 = cs 16 1 - sn 16 1 := by
    rw [← ca_neg]; exact ca_congr ⟨1, by norm_num⟩
  have g0 := ca_half 8 (by omega) 0
  have g1 := ca_half 8 (by omega) 1
  have g2 := ca_half 8 (by omega) 2
  have g3 := ca_half 8 (by omega) 3
  have g4 := ca_half 8 (by omega) 4
  have g5 := ca_half 8 (by omega) 5
  have g6 := ca_half 8 (by omega) 6
  have g7 := ca_half 8 (by omega) 7
  norm_num at g0 g1 g2 g3 g4 g5 g6 g7
  intro j hj
  interval_cases j
  · simp [tbl16]
  · simpa [tbl16] using h1
  · simpa [tbl16] using h2
  · simpa [tbl16] using h3
  · simpa [tbl16] using h4
  · simpa [tbl16] using h5
  · simpa [tbl16] using h6
  · norm_num [tbl16]; linarith
  · simpa [tbl16] using g0
  · norm_num [tbl16]; linarith
  · norm_num [tbl16]; linarith
  · norm_num [tbl16]; linarith
  · norm_num [tbl16]; linarith
  · norm_num [tbl16]; linarith
  · norm_num [tbl16]; linarith
  · simpa [tbl16] using h15

set_option maxHeartbeats 1000000 in
theorem butterfly16_dht : ComputesDht (butterfly16 ℝ) := by
  refine butterfly16_implements.congr fun x hx => ?_
  have hx : x.length = 16 := hx
  obtain ⟨a0, a1, a2, a3, a4, a5, a6, a7, b0, b1, b2, b3, b4, b5, b6, b7, rfl⟩ := list16 hx
  have key : bflyFn contiguous16 [a0, a1, a2, a3, a4, a5, a6, a7, b0, b1, b2, b3, b4, b5, b6, b7]
      = b16List a0 a1 a2 a3 a4 a5 a6 a7 b0 b1 b2 b3 b4 b5 b6 b7 := by
    rw [bflyFn]
    apply run_eq
    rw [performInPlace, b16_eval (h := if_pos rfl), ok_bind]
  rw [key, b16List, b16Pure]
  refine dht_of_table tbl16_ok rfl rfl fun k hk => ?_
  simp only [b8List, b4List, inverse_re, inverse_im, dht_twiddle]
  interval_cases k <;> simp [nth, sum_range_succ, tbl16] <;> ring1

end RustDHT
