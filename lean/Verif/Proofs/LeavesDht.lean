import Verif.Proofs.MixedRadixDht
import Mathlib.Tactic.FinCases
import Mathlib.Tactic.NormNum.ModEq

/-! # `DhtNaive` and the butterflies compute the DHT -/

namespace RustDHT

open Finset

theorem dht_twiddle (i n : ℕ) : computeDhtTwiddle ℝ i n = ca n i := by
  change Real.cos (2 * Real.pi / n * i) + Real.sin (2 * Real.pi / n * i) = _
  rw [ca, cs, sn]; congr 2 <;> push_cast <;> ring

theorem foldl_add_sum (f : ℕ → ℝ) (n : ℕ) (a : ℝ) :
    (List.range n).foldl (fun acc i => acc + f i) a = a + ∑ i ∈ range n, f i := by
  induction n with
  | zero => simp
  | succ n ih => rw [List.range_succ, List.foldl_append, ih, sum_range_succ]; simp [add_assoc]

theorem ca_mod {n : ℕ} (i k : ℕ) : ca n ((i : ℤ) * k) = ca n ((i * k % n : ℕ) : ℤ) := by
  apply ca_congr
  refine ⟨(i * k / n : ℕ), ?_⟩
  have := Nat.div_add_mod (i * k) n
  have h2 : ((n * (i * k / n) + i * k % n : ℕ) : ℤ) = (i * k : ℕ) := by rw [this]
  push_cast at h2 ⊢
  linarith

theorem naiveFn_dht {n : ℕ} {x : List ℝ} (hx : x.length = n) : naiveFn ℝ n x = dht x := by
  rw [dht_eq' hx, naiveFn]
  refine tab_congr fun k hk => ?_
  rw [naiveVal, foldl_add_sum (fun i => nth (naiveTwiddles ℝ n) (i * k % (naiveTwiddles ℝ n).length) * nth x i), zero_add, hx,
    length_naiveTwiddles, hart]
  refine sum_congr rfl fun i _ => ?_
  have hm : i * k % n < n := Nat.mod_lt _ (by omega)
  rw [show naiveTwiddles ℝ n = tab n fun i => computeDhtTwiddle ℝ i n from rfl, nth_tab hm, dht_twiddle, ca_mod, mul_comm]

theorem dhtNaive_dht (n : ℕ) : ComputesDht (dhtNaive ℝ n) :=
  (dhtNaive_implements n).congr fun _ hx => naiveFn_dht (hx.trans (dhtNaive_len n))

/-- The transform with table indices reduced modulo the length. -/
theorem hart_table {n : ℕ} {tbl : ℕ → ℝ} (ht : ∀ j < n, ca n (j : ℕ) = tbl j) (f : ℕ → ℝ) (k : ℕ) :
    hart n f k = ∑ i ∈ range n, f i * tbl (i * k % n) := by
  unfold hart
  refine sum_congr rfl fun i hi => ?_
  have hm : i * k % n < n := Nat.mod_lt _ (by have := mem_range.1 hi; omega)
  rw [ca_mod, ht _ hm]

theorem dht_of_table {n : ℕ} {tbl : ℕ → ℝ} (ht : ∀ j < n, ca n (j : ℕ) = tbl j) {x y : List ℝ} (hx : x.length = n)
    (hy : y.length = n) (h : ∀ k < n, nth y k = ∑ i ∈ range n, nth x i * tbl (i * k % n)) : y = dht x := by
  rw [dht_eq' hx]
  refine eq_tab hy fun k hk => ?_
  rw [h k hk, hart_table ht]

theorem butterfly1_dht : ComputesDht (butterfly1 ℝ) := by
  refine butterfly1_implements.congr fun x hx => ?_
  refine dht_of_table (n := 1) (tbl := fun _ => 1) (fun j hj => ?_) hx hx fun k hk => ?_
  · obtain rfl : j = 0 := by omega
    simp
  · obtain rfl : k = 0 := by omega
    simp

/-! ## Tables -/

theorem ca_half (n : ℕ) (hn : 0 < n) (k : ℤ) : ca (n * 2) (k + n) = - ca (n * 2) k := by
  have h1 : cs (n * 2) (n : ℤ) = -1 := by
    have : (n : ℝ) ≠ 0 := by positivity
    rw [cs, show (2 : ℝ) * Real.pi * ((n : ℤ) : ℝ) / ((n * 2 : ℕ) : ℝ) = Real.pi by push_cast; field_simp]
    exact Real.cos_pi
  have h2 : sn (n * 2) (n : ℤ) = 0 := by
    have : (n : ℝ) ≠ 0 := by positivity
    rw [sn, show (2 : ℝ) * Real.pi * ((n : ℤ) : ℝ) / ((n * 2 : ℕ) : ℝ) = Real.pi by push_cast; field_simp]
    exact Real.sin_pi
  rw [ca_add, h1, h2]; ring

/-- Table for length 2. -/
def tbl2 : ℕ → ℝ
  | 0 => 1
  | _ => -1

theorem tbl2_ok : ∀ j < 2, ca 2 (j : ℕ) = tbl2 j := by
  intro j hj
  have h1 := ca_half 1 (by omega) 0
  interval_cases j
  · simp [tbl2]
  · simpa [tbl2] using h1

theorem butterfly2_dht : ComputesDht (butterfly2 ℝ) := by
  refine butterfly2_implements.congr fun x hx => ?_
  have hx : x.length = 2 := hx
  obtain ⟨a, b, rfl⟩ := list2 hx
  refine dht_of_table tbl2_ok rfl rfl fun k hk => ?_
  change nth [a + b, a - b] k = _
  interval_cases k <;> simp [nth, sum_range_succ, tbl2] <;> ring

/-- Table for length 3. -/
noncomputable def tbl3 : ℕ → ℝ
  | 0 => 1
  | 1 => cs 3 1 + sn 3 1
  | _ => cs 3 1 - sn 3 1

theorem tbl3_ok : ∀ j < 3, ca 3 (j : ℕ) = tbl3 j := by
  intro j hj
  interval_cases j
  · simp [tbl3]
  · simp [tbl3, ca]
  · have h : ca 3 2 = ca 3 (-1) := ca_congr ⟨1, by norm_num⟩
    rw [ca_neg] at h
    simpa [tbl3] using h

theorem butterfly3_dht : ComputesDht (butterfly3 ℝ) := by
  refine butterfly3_implements.congr fun x hx => ?_
  have hx : x.length = 3 := hx
  obtain ⟨a, b, c, rfl⟩ := list3 hx
  refine dht_of_table tbl3_ok rfl rfl fun k hk => ?_
  change nth [a + (b + c), (b + c) * (computeDftTwiddleInverse ℝ 1 3).re + a + (b - c) * (computeDftTwiddleInverse ℝ 1 3).im,
    (b + c) * (computeDftTwiddleInverse ℝ 1 3).re + a - (b - c) * (computeDftTwiddleInverse ℝ 1 3).im] k = _
  rw [inverse_re, inverse_im]
  interval_cases k <;> simp [nth, sum_range_succ, tbl3] <;> ring

theorem ca_four_one : ca 4 1 = 1 := by
  rw [ca, cs, sn, show (2 : ℝ) * Real.pi * ((1 : ℤ) : ℝ) / ((4 : ℕ) : ℝ) = Real.pi / 2 by push_cast; ring]
  simp

/-- Table for length 4. -/
def tbl4 : ℕ → ℝ
  | 0 => 1
  | 1 => 1
  | _ => -1

theorem tbl4_ok : ∀ j < 4, ca 4 (j : ℕ) = tbl4 j := by
  intro j hj
  have h0 := ca_half 2 (by omega) 0
  have h1 := ca_half 2 (by omega) 1
  norm_num [ca_four_one] at h0 h1
  interval_cases j
  · simp [tbl4]
  · simpa [tbl4] using ca_four_one
  · simpa [tbl4] using h0
  · simpa [tbl4] using h1

theorem butterfly4_dht : ComputesDht (butterfly4 ℝ) := by
  refine butterfly4_implements.congr fun x hx => ?_
  have hx : x.length = 4 := hx
  obtain ⟨a, b, c, d, rfl⟩ := list4 hx
  refine dht_of_table tbl4_ok rfl rfl fun k hk => ?_
  change nth (b4List a b c d) k = _
  unfold b4List
  interval_cases k <;> simp [nth, sum_range_succ, tbl4] <;> ring

/-- Table for length 5. -/
noncomputable def tbl5 : ℕ → ℝ
  | 0 => 1
  | 1 => cs 5 1 + sn 5 1
  | 2 => cs 5 2 + sn 5 2
  | 3 => cs 5 2 - sn 5 2
  | _ => cs 5 1 - sn 5 1

theorem tbl5_ok : ∀ j < 5, ca 5 (j : ℕ) = tbl5 j := by
  intro j hj
  have h3 : ca 5 3 = ca 5 (-2) := ca_congr ⟨1, by norm_num⟩
  have h4 : ca 5 4 = ca 5 (-1) := ca_congr ⟨1, by norm_num⟩
  rw [ca_neg] at h3 h4
  interval_cases j
  · simp [tbl5]
  · simp [tbl5, ca]
  · simp [tbl5, ca]
  · simpa [tbl5] using h3
  · simpa [tbl5] using h4

theorem butterfly5_dht : ComputesDht (butterfly5 ℝ) := by
  refine butterfly5_implements.congr fun x hx => ?_
  have hx : x.length = 5 := hx
  obtain ⟨a, b, c, d, e, rfl⟩ := list5 hx
  refine dht_of_table tbl5_ok rfl rfl fun k hk => ?_
  have key : bflyFn contiguous5 [a, b, c, d, e] =
      let u := computeDftTwiddleInverse ℝ 1 5
      let v := computeDftTwiddleInverse ℝ 2 5
      [a + (b + e) + (c + d),
       a + ((b + e) * u.re + (c + d) * v.re) + ((b - e) * u.im + (c - d) * v.im),
       a + ((b + e) * v.re + (c + d) * u.re) + ((b - e) * v.im - (c - d) * u.im),
       a + ((b + e) * v.re + (c + d) * u.re) - ((b - e) * v.im - (c - d) * u.im),
       a + ((b + e) * u.re + (c + d) * v.re) - ((b - e) * u.im + (c - d) * v.im)] := rfl
  rw [key]
  simp only [inverse_re, inverse_im]
  interval_cases k <;> simp [nth, sum_range_succ, tbl5] <;> ring

/-- Table for length 6. -/
noncomputable def tbl6 : ℕ → ℝ
  | 0 => 1
  | 1 => -cs 3 1 + sn 3 1
  | 2 => cs 3 1 + sn 3 1
  | 3 => -1
  | 4 => cs 3 1 - sn 3 1
  | _ => -cs 3 1 - sn 3 1

theorem tbl6_ok : ∀ j < 6, ca 6 (j : ℕ) = tbl6 j := by
  intro j hj
  have h0 := ca_half 3 (by omega) 0
  have h1 := ca_half 3 (by omega) (-2)
  have h2 := ca_mul (n := 3) (m := 2) (by omega) 1
  have h4 := ca_mul (n := 3) (m := 2) (by omega) 2
  have h2' := ca_mul (n := 3) (m := 2) (by omega) (-1)
  have h42 : ca 3 2 = ca 3 (-1) := ca_congr ⟨1, by norm_num⟩
  have h5 := ca_half 3 (by omega) 2
  norm_num at h0 h1 h2 h4 h2' h5
  rw [ca_neg 3 1] at h2' h42
  rw [h2'] at h1
  rw [h42] at h4
  rw [h2] at h5
  interval_cases j
  · simp [tbl6]
  · norm_num [tbl6]; rw [h1]; ring
  · norm_num [tbl6]; rw [h2, ca]
  · norm_num [tbl6]; rw [h0]
  · norm_num [tbl6]; rw [h4]
  · norm_num [tbl6]; rw [h5, ca]; ring

theorem butterfly6_dht : ComputesDht (butterfly6 ℝ) := by
  refine butterfly6_implements.congr fun x hx => ?_
  have hx : x.length = 6 := hx
  obtain ⟨a, b, c, d, e, f, rfl⟩ := list6 hx
  refine dht_of_table tbl6_ok rfl rfl fun k hk => ?_
  have key : bflyFn contiguous6 [a, b, c, d, e, f] =
      let t := computeDftTwiddleInverse ℝ 1 3
      let a1 := (c + e) * t.re + a + (c - e) * t.im
      let a2 := (c + e) * t.re + a - (c - e) * t.im
      let g1 := (d + f) * t.re + b + (d - f) * t.im
      let g2 := (d + f) * t.re + b - (d - f) * t.im
      let b1 := t.im * g2 - t.re * g1
      let b2 := -t.re * g2 - t.im * g1
      [a + (c + e) + (b + (d + f)), a1 + b1, a2 - b2, a + (c + e) - (b + (d + f)), a1 - b1, a2 + b2] := rfl
  rw [key]
  simp only [inverse_re, inverse_im]
  have h := cs_sq_add 3 1
  have h2 : cs 3 1 = -1 / 2 := by
    rw [cs, show (2 : ℝ) * Real.pi * ((1 : ℤ) : ℝ) / ((3 : ℕ) : ℝ) = Real.pi - Real.pi / 3 by push_cast; ring,
      Real.cos_pi_sub, Real.cos_pi_div_three]; norm_num
  have h3 : sn 3 1 ^ 2 = 3 / 4 := by rw [h2] at h; linarith
  interval_cases k <;> simp [nth, sum_range_succ, tbl6, h2]
  all_goals first | ring1 | linear_combination (d - f) * h3 | linear_combination (f - d) * h3

end RustDHT
