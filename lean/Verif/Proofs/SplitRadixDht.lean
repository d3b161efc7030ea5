import Verif.Proofs.SplitRadix
import Verif.Proofs.MixedRadixDht

/-! # `SplitRadix` computes the DHT -/

namespace RustDHT

open Finset

theorem quarter_cs {q : ℕ} (hq : 0 < q) (z : ℤ) : cs (4 * q) (z + q) = -sn (4 * q) z := by
  have h : (q : ℝ) ≠ 0 := by positivity
  have e : (2 : ℝ) * Real.pi * (((q : ℤ)) : ℝ) / ((4 * q : ℕ) : ℝ) = Real.pi / 2 := by push_cast; field_simp; ring
  rw [cs_add, cs, cs, sn, sn, e]; simp
theorem quarter_sn {q : ℕ} (hq : 0 < q) (z : ℤ) : sn (4 * q) (z + q) = cs (4 * q) z := by
  have h : (q : ℝ) ≠ 0 := by positivity
  have e : (2 : ℝ) * Real.pi * (((q : ℤ)) : ℝ) / ((4 * q : ℕ) : ℝ) = Real.pi / 2 := by push_cast; field_simp; ring
  rw [sn_add, cs, cs, sn, sn, e]; simp
theorem quarter1 {q : ℕ} (hq : 0 < q) (z : ℤ) : ca (4 * q) (z + q) = ca (4 * q) (-z) := by
  rw [ca_neg, ca, quarter_cs hq, quarter_sn hq]; ring
theorem quarter2 {q : ℕ} (hq : 0 < q) (z : ℤ) : ca (4 * q) (z + 2 * q) = -ca (4 * q) z := by
  rw [show z + 2 * (q : ℤ) = z + q + q by ring, quarter1 hq, ca_neg, quarter_cs hq, quarter_sn hq, ca]; ring
theorem quarter3 {q : ℕ} (hq : 0 < q) (z : ℤ) : ca (4 * q) (z + 3 * q) = -ca (4 * q) (-z) := by
  rw [show z + 3 * (q : ℤ) = (z + q) + 2 * q by ring, quarter2 hq, quarter1 hq]

/-- Moving the mirrored half of a sum. -/
theorem sum_mirror {q : ℕ} (hq : 0 < q) (a b : ℕ → ℝ) (m : ℤ) :
    ∑ i ∈ range q, (a i * ca q (i * m) + b i * ca q (-(i * m))) = hart q (fun i => a i + b ((q - i) % q)) m := by
  rw [hart, sum_add_distrib]
  simp only [add_mul]
  rw [sum_add_distrib]
  congr 1
  refine sum_bij' (fun r _ => (q - r) % q) (fun r _ => (q - r) % q) ?_ ?_ ?_ ?_ ?_
  · intro r hr; exact mem_range.2 (Nat.mod_lt _ hq)
  · intro r hr; exact mem_range.2 (Nat.mod_lt _ hq)
  · intro r hr
    have hr := mem_range.1 hr
    rcases Nat.eq_zero_or_pos r with rfl | hr0
    · simp
    · rw [Nat.mod_eq_of_lt (show q - r < q by omega), Nat.mod_eq_of_lt (by omega)]; omega
  · intro r hr
    have hr := mem_range.1 hr
    rcases Nat.eq_zero_or_pos r with rfl | hr0
    · simp
    · rw [Nat.mod_eq_of_lt (show q - r < q by omega), Nat.mod_eq_of_lt (by omega)]; omega
  · intro r hr
    have hr := mem_range.1 hr
    rcases Nat.eq_zero_or_pos r with rfl | hr0
    · simp
    · rw [Nat.mod_eq_of_lt (show q - r < q by omega), Nat.mod_eq_of_lt (show q - (q - r) < q by omega),
        show q - (q - r) = r by omega]
      congr 1
      apply ca_congr
      rw [Nat.cast_sub (by omega)]
      exact ⟨-m, by ring⟩

theorem sum_quarters (f : ℕ → ℝ) (q : ℕ) :
    ∑ i ∈ range (4 * q), f i = ∑ i ∈ range q, (f i + f (q + i) + f (2 * q + i) + f (3 * q + i)) := by
  rw [sum_range_mul]
  simp only [sum_range_succ, range_zero, sum_empty, zero_add, sum_add_distrib]
  simp

theorem hart_even {q : ℕ} (f : ℕ → ℝ) (m : ℤ) :
    hart (4 * q) f (2 * m) = hart (2 * q) (fun i => f i + f (2 * q + i)) m := by
  have h4 : 4 * q = 2 * (2 * q) := by omega
  have h4' : 4 * q = 2 * q * 2 := by omega
  rw [hart, h4, sum_range_mul, ← h4, h4', hart]
  simp only [sum_range_succ, range_zero, sum_empty, zero_add, ← sum_add_distrib]
  refine sum_congr rfl fun i _ => ?_
  have e1 : ca (2 * q * 2) (((0 * (2 * q) + i : ℕ) : ℤ) * (2 * m)) = ca (2 * q) (i * m) := by
    rw [← ca_mul (n := 2 * q) (m := 2) (by omega)]
    congr 1; push_cast; ring
  have e2 : ca (2 * q * 2) (((1 * (2 * q) + i : ℕ) : ℤ) * (2 * m)) = ca (2 * q) (i * m) := by
    rw [← ca_mul (n := 2 * q) (m := 2) (by omega)]
    apply ca_congr
    exact ⟨m, by push_cast; ring⟩
  rw [e1, e2, Nat.zero_mul, Nat.zero_add, Nat.one_mul]; ring

/-- `x[i] - x[2q+i]` -/
def srD0 (q : ℕ) (f : ℕ → ℝ) (i : ℕ) : ℝ := f i - f (2 * q + i)
/-- `x[q+i] - x[3q+i]` -/
def srD1 (q : ℕ) (f : ℕ → ℝ) (i : ℕ) : ℝ := f (q + i) - f (3 * q + i)

theorem hart_one {q : ℕ} (hq : 0 < q) (f : ℕ → ℝ) (m : ℤ) :
    hart (4 * q) f (4 * m + 1) = ∑ i ∈ range q,
      (srD0 q f i * ca (4 * q) (i * (4 * m + 1)) + srD1 q f i * ca (4 * q) (-(i * (4 * m + 1)))) := by
  rw [hart, sum_quarters]
  refine sum_congr rfl fun i _ => ?_
  have e1 : ca (4 * q) (((q + i : ℕ) : ℤ) * (4 * m + 1)) = ca (4 * q) (-(i * (4 * m + 1))) := by
    rw [← quarter1 hq]; apply ca_congr; exact ⟨m, by push_cast; ring⟩
  have e2 : ca (4 * q) (((2 * q + i : ℕ) : ℤ) * (4 * m + 1)) = -ca (4 * q) (i * (4 * m + 1)) := by
    rw [← quarter2 hq]; apply ca_congr; exact ⟨2 * m, by push_cast; ring⟩
  have e3 : ca (4 * q) (((3 * q + i : ℕ) : ℤ) * (4 * m + 1)) = -ca (4 * q) (-(i * (4 * m + 1))) := by
    rw [← quarter3 hq]; apply ca_congr; exact ⟨3 * m, by push_cast; ring⟩
  rw [e1, e2, e3, srD0, srD1]; ring

theorem hart_three {q : ℕ} (hq : 0 < q) (f : ℕ → ℝ) (m : ℤ) :
    hart (4 * q) f (4 * m + 3) = ∑ i ∈ range q,
      (srD0 q f i * ca (4 * q) (i * (4 * m + 3)) - srD1 q f i * ca (4 * q) (-(i * (4 * m + 3)))) := by
  rw [hart, sum_quarters]
  refine sum_congr rfl fun i _ => ?_
  have e1 : ca (4 * q) (((q + i : ℕ) : ℤ) * (4 * m + 3)) = -ca (4 * q) (-(i * (4 * m + 3))) := by
    rw [← quarter3 hq]; apply ca_congr; exact ⟨m, by push_cast; ring⟩
  have e2 : ca (4 * q) (((2 * q + i : ℕ) : ℤ) * (4 * m + 3)) = -ca (4 * q) (i * (4 * m + 3)) := by
    rw [← quarter2 hq]; apply ca_congr; exact ⟨2 * m + 1, by push_cast; ring⟩
  have e3 : ca (4 * q) (((3 * q + i : ℕ) : ℤ) * (4 * m + 3)) = ca (4 * q) (-(i * (4 * m + 3))) := by
    rw [← quarter1 hq]; apply ca_congr; exact ⟨3 * m + 2, by push_cast; ring⟩
  rw [e1, e2, e3, srD0, srD1]; ring

theorem ca_split {q : ℕ} (i : ℕ) (m e : ℤ) :
    ca (4 * q) (i * (4 * m + e)) = cs (4 * q) (i * e) * ca q (i * m) + sn (4 * q) (i * e) * ca q (-(i * m)) := by
  rw [show (i : ℤ) * (4 * m + e) = i * m * (4 : ℕ) + i * e by push_cast; ring, ca_add, ← neg_mul,
    Nat.mul_comm 4 q, ca_mul (by omega), ca_mul (by omega)]
theorem ca_split_neg {q : ℕ} (i : ℕ) (m e : ℤ) :
    ca (4 * q) (-(i * (4 * m + e))) = cs (4 * q) (i * e) * ca q (-(i * m)) - sn (4 * q) (i * e) * ca q (i * m) := by
  rw [show -((i : ℤ) * (4 * m + e)) = -(i * m) * (4 : ℕ) + -(i * e) by push_cast; ring, ca_add, ← neg_mul (-(i * m : ℤ)), neg_neg,
    Nat.mul_comm 4 q, ca_mul (by omega), ca_mul (by omega), cs_neg, sn_neg]; ring

/-- `cos` and `sin` at the mirrored column. -/
theorem mirror1 {q c : ℕ} (hq : 0 < q) (hc : c ≤ q) :
    cs (4 * q) (q - c : ℕ) = sn (4 * q) c ∧ sn (4 * q) (q - c : ℕ) = cs (4 * q) c := by
  have e : ((q - c : ℕ) : ℤ) = -c + q := by omega
  rw [e, quarter_cs hq, quarter_sn hq, sn_neg, cs_neg]; simp
theorem mirror3 {q c : ℕ} (hq : 0 < q) (hc : c ≤ q) :
    cs (4 * q) ((q - c : ℕ) * 3) = -sn (4 * q) (c * 3) ∧ sn (4 * q) ((q - c : ℕ) * 3) = -cs (4 * q) (c * 3) := by
  have e : ((q - c : ℕ) : ℤ) * 3 = -(c * 3) + q + q + q := by omega
  rw [e, quarter_cs hq, quarter_sn hq, quarter_cs hq, quarter_sn hq, quarter_cs hq, quarter_sn hq, sn_neg, cs_neg]; simp

theorem srQ1_eq {q : ℕ} (x : List ℝ) {c : ℕ} (hc : c < q) : srQ1 q x c =
    (srD0 q (nth x) c * cs (4 * q) c - srD1 q (nth x) c * sn (4 * q) c)
      + (srD0 q (nth x) ((q - c) % q) * sn (4 * q) ((q - c) % q : ℕ)
        + srD1 q (nth x) ((q - c) % q) * cs (4 * q) ((q - c) % q : ℕ)) := by
  unfold srQ1
  simp only [inverse_re, inverse_im, Nat.mul_one]
  by_cases h0 : c = 0
  · subst h0; rw [if_pos rfl]; simp [srD0, srD1]
  rw [if_neg h0, Nat.mod_eq_of_lt (show q - c < q by omega)]
  obtain ⟨e1, e2⟩ := mirror1 (c := c) (show 0 < q by omega) (by omega)
  rw [e1, e2]
  have e3 : q - (q - c) = c := by omega
  unfold srD0 srD1
  split
  · ring
  · rw [e3]; ring

theorem srQ3_eq {q : ℕ} (x : List ℝ) {c : ℕ} (hc : c < q) : srQ3 q x c =
    (srD0 q (nth x) c * cs (4 * q) (c * 3) + srD1 q (nth x) c * sn (4 * q) (c * 3))
      + (srD0 q (nth x) ((q - c) % q) * sn (4 * q) (((q - c) % q : ℕ) * 3)
        - srD1 q (nth x) ((q - c) % q) * cs (4 * q) (((q - c) % q : ℕ) * 3)) := by
  unfold srQ3
  simp only [inverse_re, inverse_im, Nat.cast_mul, Nat.cast_ofNat]
  by_cases h0 : c = 0
  · subst h0; rw [if_pos rfl]; simp [srD0, srD1]; ring
  rw [if_neg h0, Nat.mod_eq_of_lt (show q - c < q by omega)]
  obtain ⟨e1, e2⟩ := mirror3 (c := c) (show 0 < q by omega) (by omega)
  rw [e1, e2]
  have e3 : q - (q - c) = c := by omega
  unfold srD0 srD1
  split
  · ring
  · rw [e3]; ring

theorem srFn_dht {q : ℕ} {x : List ℝ} (hx : x.length = 4 * q) : srFn q dht dht x = dht x := by
  rw [srFn, dht_eq' hx]
  refine tab_congr fun p hp => ?_
  have hq : 0 < q := by omega
  have hp2 := Nat.div_add_mod p 2
  have hp4 := Nat.div_add_mod p 4
  by_cases h2 : p % 2 = 0
  · rw [if_pos h2, dht_tab, nth_tab (by omega), show (p : ℤ) = 2 * (p / 2 : ℕ) by omega, hart_even]
    rfl
  rw [if_neg h2]
  by_cases h1 : p % 4 = 1
  · rw [if_pos h1, dht_tab, nth_tab (by omega), show (p : ℤ) = 4 * (p / 4 : ℕ) + 1 by omega, hart_one hq]
    simp only [ca_split, ca_split_neg, mul_one]
    rw [hart_congr (fun i hi => srQ1_eq x hi), ← sum_mirror hq
      (fun c => srD0 q (nth x) c * cs (4 * q) c - srD1 q (nth x) c * sn (4 * q) c)
      (fun c => srD0 q (nth x) c * sn (4 * q) c + srD1 q (nth x) c * cs (4 * q) c)]
    refine sum_congr rfl fun i _ => ?_
    ring
  · rw [if_neg h1, dht_tab, nth_tab (by omega), show (p : ℤ) = 4 * (p / 4 : ℕ) + 3 by omega, hart_three hq]
    simp only [ca_split, ca_split_neg]
    rw [hart_congr (fun i hi => srQ3_eq x hi), ← sum_mirror hq
      (fun c => srD0 q (nth x) c * cs (4 * q) (c * 3) + srD1 q (nth x) c * sn (4 * q) (c * 3))
      (fun c => srD0 q (nth x) c * sn (4 * q) (c * 3) - srD1 q (nth x) c * cs (4 * q) (c * 3))]
    refine sum_congr rfl fun i _ => ?_
    ring

theorem splitRadix_dht {qd hd d : Dht ℝ} (iq : ComputesDht qd) (ih : ComputesDht hd) (hd' : splitRadix qd hd = .ok d)
    (hs : 0 < qd.len → qd.oopScratchLen = 0 ∧ qd.inplaceScratchLen ≤ 4 * qd.len ∧
      hd.inplaceScratchLen ≤ 2 * qd.len) : ComputesDht d := by
  have hi := splitRadix_implements iq ih hd' hs
  refine hi.congr fun x hx => srFn_dht ?_
  obtain ⟨_, rfl⟩ := splitRadix_eq hd'
  exact hx

end RustDHT
