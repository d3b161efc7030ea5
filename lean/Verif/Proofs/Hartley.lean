import Verif.Spec.Dht
import Verif.Proofs.Boilerplate
import Mathlib.Algebra.BigOperators.Intervals
import Mathlib.Tactic.LinearCombination
import Mathlib.Tactic.FieldSimp
import Mathlib.Tactic.Push

/-! # The Hartley transform over integer indices -/

namespace RustDHT

open Finset

/-- `cos (2 pi k / n)` -/
noncomputable def cs (n : ℕ) (k : ℤ) : ℝ := Real.cos (2 * Real.pi * k / n)
/-- `sin (2 pi k / n)` -/
noncomputable def sn (n : ℕ) (k : ℤ) : ℝ := Real.sin (2 * Real.pi * k / n)
/-- `cas (2 pi k / n)` -/
noncomputable def ca (n : ℕ) (k : ℤ) : ℝ := cs n k + sn n k

@[simp] theorem cs_zero (n : ℕ) : cs n 0 = 1 := by simp [cs]
@[simp] theorem sn_zero (n : ℕ) : sn n 0 = 0 := by simp [sn]
@[simp] theorem ca_zero (n : ℕ) : ca n 0 = 1 := by simp [ca]

theorem cs_neg (n : ℕ) (k : ℤ) : cs n (-k) = cs n k := by
  rw [cs, cs, ← Real.cos_neg]; congr 1; push_cast; ring
theorem sn_neg (n : ℕ) (k : ℤ) : sn n (-k) = - sn n k := by
  rw [sn, sn, ← Real.sin_neg]; congr 1; push_cast; ring

theorem cs_add (n : ℕ) (a b : ℤ) : cs n (a + b) = cs n a * cs n b - sn n a * sn n b := by
  rw [cs, cs, cs, sn, sn, ← Real.cos_add]; congr 1; push_cast; ring
theorem sn_add (n : ℕ) (a b : ℤ) : sn n (a + b) = sn n a * cs n b + cs n a * sn n b := by
  rw [cs, cs, sn, sn, sn, ← Real.sin_add]; congr 1; push_cast; ring
theorem cs_sub (n : ℕ) (a b : ℤ) : cs n (a - b) = cs n a * cs n b + sn n a * sn n b := by
  rw [sub_eq_add_neg, cs_add, cs_neg, sn_neg]; ring
theorem sn_sub (n : ℕ) (a b : ℤ) : sn n (a - b) = sn n a * cs n b - cs n a * sn n b := by
  rw [sub_eq_add_neg, sn_add, cs_neg, sn_neg]; ring
theorem ca_neg (n : ℕ) (k : ℤ) : ca n (-k) = cs n k - sn n k := by
  rw [ca, cs_neg, sn_neg]; ring
theorem ca_add (n : ℕ) (a b : ℤ) : ca n (a + b) = cs n b * ca n a + sn n b * ca n (-a) := by
  rw [ca, ca_neg, cs_add, sn_add, ca]; ring

theorem cs_sq_add (n : ℕ) (k : ℤ) : cs n k ^ 2 + sn n k ^ 2 = 1 := Real.cos_sq_add_sin_sq _

@[simp] theorem cs_period (n : ℕ) (j : ℤ) : cs n (n * j) = 1 := by
  rcases Nat.eq_zero_or_pos n with rfl | hn
  · simp
  · have : (n : ℝ) ≠ 0 := by positivity
    rw [cs, show 2 * Real.pi * ((n * j : ℤ) : ℝ) / n = j * (2 * Real.pi) by push_cast; field_simp]
    exact Real.cos_int_mul_two_pi j
@[simp] theorem sn_period (n : ℕ) (j : ℤ) : sn n (n * j) = 0 := by
  rcases Nat.eq_zero_or_pos n with rfl | hn
  · simp
  · have : (n : ℝ) ≠ 0 := by positivity
    rw [sn, show 2 * Real.pi * ((n * j : ℤ) : ℝ) / n = ((2 * j : ℤ) : ℝ) * Real.pi by push_cast; field_simp]
    exact Real.sin_int_mul_pi _
theorem cs_add_period (n : ℕ) (k j : ℤ) : cs n (k + n * j) = cs n k := by rw [cs_add]; simp
theorem sn_add_period (n : ℕ) (k j : ℤ) : sn n (k + n * j) = sn n k := by rw [sn_add]; simp
theorem ca_add_period (n : ℕ) (k j : ℤ) : ca n (k + n * j) = ca n k := by
  rw [ca, cs_add_period, sn_add_period, ca]

theorem cs_congr {n : ℕ} {a b : ℤ} (h : (n : ℤ) ∣ a - b) : cs n a = cs n b := by
  obtain ⟨j, hj⟩ := h
  rw [show a = b + n * j by omega, cs_add_period]
theorem sn_congr {n : ℕ} {a b : ℤ} (h : (n : ℤ) ∣ a - b) : sn n a = sn n b := by
  obtain ⟨j, hj⟩ := h
  rw [show a = b + n * j by omega, sn_add_period]
theorem ca_congr {n : ℕ} {a b : ℤ} (h : (n : ℤ) ∣ a - b) : ca n a = ca n b := by
  rw [ca, ca, cs_congr h, sn_congr h]

theorem cs_mul {n m : ℕ} (hm : 0 < m) (k : ℤ) : cs (n * m) (k * m) = cs n k := by
  have : (m : ℝ) ≠ 0 := by positivity
  rw [cs, cs]; congr 1; push_cast; rw [← mul_assoc, mul_div_mul_right _ _ this]
theorem sn_mul {n m : ℕ} (hm : 0 < m) (k : ℤ) : sn (n * m) (k * m) = sn n k := by
  have : (m : ℝ) ≠ 0 := by positivity
  rw [sn, sn]; congr 1; push_cast; rw [← mul_assoc, mul_div_mul_right _ _ this]
theorem ca_mul {n m : ℕ} (hm : 0 < m) (k : ℤ) : ca (n * m) (k * m) = ca n k := by
  rw [ca, ca, cs_mul hm, sn_mul hm]

/-- The DHT of the sequence `f 0, ..., f (n-1)` at an integer index. -/
noncomputable def hart (n : ℕ) (f : ℕ → ℝ) (k : ℤ) : ℝ := ∑ i ∈ range n, f i * ca n (i * k)

theorem dhtCoeff_eq (x : List ℝ) (k : ℕ) : dhtCoeff x k = hart x.length (nth x) k := by
  unfold dhtCoeff hart
  apply sum_congr rfl
  intro i _
  rw [List.getD_eq_getElem?_getD]
  congr 1
  rw [cas, ca, cs, sn]
  push_cast
  rw [mul_assoc (2 * Real.pi)]

@[simp] theorem length_dht (x : List ℝ) : (dht x).length = x.length := by simp [dht]

theorem dht_eq (x : List ℝ) : dht x = tab x.length fun k => hart x.length (nth x) k := by
  unfold dht tab
  apply List.map_congr_left
  intro k _
  exact dhtCoeff_eq x k

theorem dht_eq' {x : List ℝ} {n : ℕ} (h : x.length = n) : dht x = tab n fun k => hart n (nth x) k := by
  subst h; exact dht_eq x

theorem nth_dht {x : List ℝ} {n k : ℕ} (hx : x.length = n) (hk : k < n) : nth (dht x) k = hart n (nth x) k := by
  rw [dht_eq' hx, nth_tab hk]

theorem hart_congr {n : ℕ} {f g : ℕ → ℝ} (h : ∀ i < n, f i = g i) (k : ℤ) : hart n f k = hart n g k := by
  unfold hart
  exact sum_congr rfl fun i hi => by rw [h i (mem_range.1 hi)]

theorem hart_mod {n : ℕ} (f : ℕ → ℝ) {k l : ℤ} (h : (n : ℤ) ∣ k - l) : hart n f k = hart n f l := by
  unfold hart
  refine sum_congr rfl fun i _ => ?_
  rw [ca_congr]
  rw [← mul_sub]
  exact Dvd.dvd.mul_left h _

theorem nth_dht_rev {x : List ℝ} {n k : ℕ} (hx : x.length = n) (hk : k < n) (hk0 : 0 < k) :
    nth (dht x) (n - k) = hart n (nth x) (-k) := by
  rw [nth_dht hx (by omega)]
  apply hart_mod
  rw [Nat.cast_sub (by omega)]
  exact ⟨1, by ring⟩

theorem dht_tab (n : ℕ) (f : ℕ → ℝ) : dht (tab n f) = tab n fun k => hart n f k := by
  rw [dht_eq' (length_tab n f)]
  exact tab_congr fun k _ => hart_congr (fun i hi => nth_tab hi) _

/-- Reversal of the input. -/
theorem hart_reverse (n : ℕ) (f : ℕ → ℝ) (k : ℤ) :
    hart n (fun i => f (n - 1 - i)) k = cs n k * hart n f (-k) - sn n k * hart n f k := by
  unfold hart
  rw [← sum_range_reflect, mul_sum, mul_sum, ← sum_sub_distrib]
  refine sum_congr rfl fun i hi => ?_
  have hi := mem_range.1 hi
  simp only
  rw [show n - 1 - (n - 1 - i) = i by omega]
  rw [ca_congr (b := (i : ℤ) * -k + -k) (by
    rw [Nat.sub_sub, Nat.cast_sub (by omega)]
    refine ⟨k, ?_⟩
    push_cast; ring), ca_add, cs_neg, sn_neg, show -((i : ℤ) * -k) = i * k by ring]
  ring

theorem sum_range_mul (f : ℕ → ℝ) (h w : ℕ) :
    ∑ i ∈ range (h * w), f i = ∑ m ∈ range h, ∑ r ∈ range w, f (m * w + r) := by
  induction h with
  | zero => simp
  | succ h ih => rw [Nat.succ_mul, sum_range_add, ih, sum_range_succ]

/-- Decimation in time: `w` interleaved sequences of length `h`. -/
theorem hart_split {w h : ℕ} (hw : 0 < w) (f : ℕ → ℝ) (k j : ℤ) :
    hart (w * h) f (k + h * j) = ∑ r ∈ range w,
      (cs (w * h) (r * (k + h * j)) * hart h (fun m => f (m * w + r)) k
        + sn (w * h) (r * (k + h * j)) * hart h (fun m => f (m * w + r)) (-k)) := by
  unfold hart
  rw [show w * h = h * w from Nat.mul_comm w h, sum_range_mul, sum_comm]
  refine sum_congr rfl fun r _ => ?_
  rw [mul_sum, mul_sum, ← sum_add_distrib]
  refine sum_congr rfl fun m _ => ?_
  have e : ca (h * w) (((m * w + r : ℕ) : ℤ) * (k + h * j))
      = ca (h * w) ((m * k : ℤ) * w + r * (k + h * j)) := by
    apply ca_congr
    refine ⟨m * j, ?_⟩
    push_cast; ring
  rw [e, ca_add, ← neg_mul, ca_mul hw, ca_mul hw, mul_neg]
  ring

end RustDHT
