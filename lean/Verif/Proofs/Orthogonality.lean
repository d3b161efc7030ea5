import Verif.Proofs.Hartley

/-! # Orthogonality of the kernel, inversion and Parseval -/

namespace RustDHT

open Finset

theorem cs_eq_one_iff {n : ℕ} (hn : 0 < n) (j : ℤ) : cs n j = 1 ↔ (n : ℤ) ∣ j := by
  have hn' : (n : ℝ) ≠ 0 := by positivity
  rw [cs, Real.cos_eq_one_iff]
  constructor
  · rintro ⟨m, hm⟩
    refine ⟨m, ?_⟩
    have hpi := Real.pi_ne_zero
    field_simp at hm
    have h2 : (j : ℝ) = ((n * m : ℤ) : ℝ) := by push_cast; linarith
    exact_mod_cast h2
  · rintro ⟨m, rfl⟩
    refine ⟨m, ?_⟩
    push_cast; field_simp

/-- A sum over a full period may be shifted. -/
theorem sum_shift {n : ℕ} (f : ℤ → ℝ) (hf : ∀ k, f (k + n) = f k) :
    ∑ k ∈ range n, f ((k : ℤ) + 1) = ∑ k ∈ range n, f k := by
  have h1 := sum_range_succ (fun k : ℕ => f k) n
  have h2 := sum_range_succ' (fun k : ℕ => f k) n
  rw [h1] at h2
  have h3 := hf 0
  rw [zero_add] at h3
  push_cast at h2
  linarith

theorem sum_cs_sn {n : ℕ} (hn : 0 < n) (j : ℤ) :
    (∑ k ∈ range n, cs n (j * k) = if (n : ℤ) ∣ j then (n : ℝ) else 0) ∧ ∑ k ∈ range n, sn n (j * k) = 0 := by
  split
  · next h =>
    have h1 : ∀ k : ℕ, cs n (j * k) = 1 := fun k => (cs_eq_one_iff hn _).2 (h.mul_right _)
    have h2 : ∀ k : ℕ, sn n (j * k) = 0 := fun k => by
      obtain ⟨m, rfl⟩ := h
      rw [mul_assoc, sn_period]
    simp [h1, h2]
  · next h =>
    have hc : cs n j ≠ 1 := fun he => h ((cs_eq_one_iff hn j).1 he)
    have e1 := sum_shift (n := n) (fun k => cs n (j * k)) (fun k => by
      apply cs_congr; exact ⟨j, by ring⟩)
    have e2 := sum_shift (n := n) (fun k => sn n (j * k)) (fun k => by
      apply sn_congr; exact ⟨j, by ring⟩)
    simp only [mul_add, mul_one, cs_add, sn_add, sum_sub_distrib, sum_add_distrib, ← sum_mul] at e1 e2
    set C := ∑ k ∈ range n, cs n (j * k)
    set S := ∑ k ∈ range n, sn n (j * k)
    have hsq := cs_sq_add n j
    have hne : 2 * (1 - cs n j) ≠ 0 := by
      intro h0; apply hc; linarith
    constructor
    · have : 2 * (1 - cs n j) * C = 0 := by
        linear_combination (-(1 - cs n j)) * e1 + sn n j * e2 - C * hsq
      exact (mul_eq_zero.1 this).resolve_left hne
    · have : 2 * (1 - cs n j) * S = 0 := by
        linear_combination (-(1 - cs n j)) * e2 - sn n j * e1 - S * hsq
      exact (mul_eq_zero.1 this).resolve_left hne

theorem sum_ca_mul {n : ℕ} (hn : 0 < n) (i j : ℤ) :
    ∑ k ∈ range n, ca n (i * k) * ca n (j * k) = if (n : ℤ) ∣ i - j then (n : ℝ) else 0 := by
  have h : ∀ k : ℕ, ca n (i * k) * ca n (j * k) = cs n ((i - j) * k) + sn n ((i + j) * k) := by
    intro k
    rw [sub_mul, add_mul, cs_sub, sn_add, ca, ca]; ring
  simp only [h, sum_add_distrib]
  rw [(sum_cs_sn hn _).1, (sum_cs_sn hn _).2, add_zero]

theorem dvd_sub_iff {n i j : ℕ} (hi : i < n) (hj : j < n) : (n : ℤ) ∣ (i : ℤ) - j ↔ i = j := by
  constructor
  · intro h
    have := Int.eq_zero_of_abs_lt_dvd h (by rw [abs_lt]; omega)
    omega
  · rintro rfl; simp

/-- Inversion: the transform of the transform. -/
theorem hart_hart {n : ℕ} (f : ℕ → ℝ) {j : ℕ} (hj : j < n) : hart n (fun k => hart n f k) j = n * f j := by
  have hn : 0 < n := by omega
  unfold hart
  simp only [sum_mul]
  rw [sum_comm]
  have : ∀ i ∈ range n, ∑ k ∈ range n, f i * ca n (i * k) * ca n (k * j) = if i = j then n * f j else 0 := by
    intro i hi
    have hi := mem_range.1 hi
    have := sum_ca_mul hn (i : ℤ) (j : ℤ)
    simp only [mul_assoc, ← mul_sum]
    rw [sum_congr rfl fun k _ => by rw [mul_comm (k : ℤ) j], this]
    by_cases h : i = j
    · rw [if_pos ((dvd_sub_iff hi hj).2 h), if_pos h, h, mul_comm]
    · rw [if_neg fun h' => h ((dvd_sub_iff hi hj).1 h'), if_neg h, mul_zero]
  rw [sum_congr rfl this, sum_ite_eq' (range n) j, if_pos (mem_range.2 hj)]

theorem dht_dht (x : List ℝ) : dht (dht x) = x.map fun v : ℝ => (x.length : ℝ) * v := by
  rw [dht_eq x, dht_tab]
  symm
  refine eq_tab (by simp) fun i hi => ?_
  rw [hart_hart _ hi]
  simp [nth, hi]

theorem dht_injective {x y : List ℝ} (hl : x.length = y.length) (h : dht x = dht y) : x = y := by
  have h2 : dht (dht x) = dht (dht y) := by rw [h]
  rw [dht_dht, dht_dht, hl] at h2
  refine list_ext_nth hl fun i hi => ?_
  have h3 : nth (x.map fun v => (y.length : ℝ) * v) i = nth (y.map fun v => (y.length : ℝ) * v) i := by rw [h2]
  have hy : i < y.length := by omega
  have hpos : (y.length : ℝ) ≠ 0 := by
    have : 0 < y.length := by omega
    positivity
  rw [nth_eq_getElem (by simpa using hi), nth_eq_getElem (by simpa using hy)] at h3
  simp only [List.getElem_map] at h3
  rw [nth_eq_getElem hi, nth_eq_getElem hy]
  exact mul_left_cancel₀ hpos h3

/-- Parseval. -/
theorem hart_parseval (n : ℕ) (f g : ℕ → ℝ) :
    ∑ k ∈ range n, hart n f k * hart n g k = n * ∑ i ∈ range n, f i * g i := by
  have h : ∀ k ∈ range n, hart n f k * hart n g k = ∑ i ∈ range n, g i * (hart n f k * ca n (k * i)) := by
    intro k _
    conv_lhs => rw [hart.eq_def n g, mul_sum]
    refine sum_congr rfl fun i _ => ?_
    rw [mul_comm (i : ℤ)]; ring
  rw [sum_congr rfl h, sum_comm, mul_sum]
  refine sum_congr rfl fun i hi => ?_
  rw [← mul_sum]
  have := hart_hart f (mem_range.1 hi)
  rw [hart] at this
  rw [this]; ring

end RustDHT
