import Verif.Proofs.DhtLaws
import Verif.Spec.Conv

/-! # Rotation and circular convolution -/

namespace RustDHT

open Finset

theorem sum_rot_one {n : ℕ} (h : ℕ → ℝ) : ∑ m ∈ range n, h ((m + 1) % n) = ∑ m ∈ range n, h m := by
  rcases Nat.eq_zero_or_pos n with rfl | hn
  · simp
  obtain ⟨k, rfl⟩ : ∃ k, n = k + 1 := ⟨n - 1, by omega⟩
  rw [sum_range_succ, sum_range_succ']
  congr 1
  · refine sum_congr rfl fun i hi => ?_
    have := mem_range.1 hi
    rw [Nat.mod_eq_of_lt (by omega)]
  · rw [Nat.mod_self]

theorem sum_rot {n : ℕ} (s : ℕ) (h : ℕ → ℝ) : ∑ m ∈ range n, h ((m + s) % n) = ∑ m ∈ range n, h m := by
  induction s generalizing h with
  | zero => exact sum_congr rfl fun m hm => by rw [Nat.add_zero, Nat.mod_eq_of_lt (mem_range.1 hm)]
  | succ s ih =>
    rw [← sum_rot_one h, ← ih (fun j => h ((j + 1) % n))]
    exact sum_congr rfl fun m _ => by rw [Nat.mod_add_mod, Nat.add_assoc]

/-- Rotating the input by `s`. -/
theorem hart_rot {n : ℕ} (s : ℕ) (f : ℕ → ℝ) (k : ℤ) :
    hart n (fun m => f ((m + s) % n)) k = cs n (s * k) * hart n f k - sn n (s * k) * hart n f (-k) := by
  have key : hart n (fun m => f ((m + s) % n)) k = ∑ m ∈ range n, f m * ca n (((m : ℤ) - s) * k) := by
    rw [← sum_rot s fun m : ℕ => f m * ca n (((m : ℤ) - s) * k)]
    unfold hart
    refine sum_congr rfl fun m _ => ?_
    congr 1
    apply ca_congr
    push_cast
    rw [Int.emod_def]
    exact ⟨(((m : ℤ) + s) / n) * k, by ring⟩
  rw [key]
  unfold hart
  rw [mul_sum, mul_sum, ← sum_sub_distrib]
  refine sum_congr rfl fun m _ => ?_
  rw [show ((m : ℤ) - s) * k = m * k + -(s * k) by ring, ca_add, cs_neg, sn_neg, show (m : ℤ) * -k = -(m * k) by ring]
  ring

theorem mirrored_dht {x : List ℝ} {n k : ℕ} (hx : x.length = n) (hk : k < n) : mirrored (dht x) k = hart n (nth x) (-k) := by
  unfold mirrored
  rw [length_dht, hx]
  show nth (dht x) _ = _
  rw [nth_dht hx (Nat.mod_lt _ (by omega))]
  apply hart_mod
  push_cast [Nat.cast_sub hk.le]
  rw [Int.emod_def]
  exact ⟨1 - ((n : ℤ) - k) / n, by ring⟩

theorem nth_range_map {n k : ℕ} (hk : k < n) (f : ℕ → ℝ) : nth ((List.range n).map f) k = f k := by
  simp [nth, hk]

theorem dht_rotate (x : List ℝ) (s : ℕ) : dht (x.rotate s) = turn s (dht x) := by
  obtain ⟨n, hn⟩ : ∃ n, x.length = n := ⟨_, rfl⟩
  refine Eq.trans (dht_eq' (n := n) (by rw [List.length_rotate, hn])) (Eq.symm ?_)
  refine eq_tab (by simp [turn, hn]) fun k hk => ?_
  have e : ∀ i < n, nth (x.rotate s) i = nth x ((i + s) % n) := fun i hi => by
    rw [nth_eq_getElem (by rw [List.length_rotate, hn]; exact hi), List.getElem_rotate, nth_eq_getElem (by
      rw [hn]; exact Nat.mod_lt _ (by omega))]
    simp only [hn]
  rw [hart_congr e, hart_rot, turn, length_dht, hn, nth_range_map hk, mirrored_dht hn hk]
  have : (dht x).getD k 0 = nth (dht x) k := rfl
  rw [this, nth_dht hn hk]
  unfold cs sn
  push_cast
  rw [show 2 * Real.pi * ((s : ℝ) * k) / n = 2 * Real.pi * k * s / n by ring]

theorem hart_circConv {n : ℕ} (f g : ℕ → ℝ) (k : ℤ) :
    hart n (fun m => ∑ i ∈ range n, f i * g ((m + (n - i)) % n)) k
      = (hart n f k * (hart n g k + hart n g (-k)) + hart n f (-k) * (hart n g k - hart n g (-k))) / 2 := by
  have e1 : hart n (fun m => ∑ i ∈ range n, f i * g ((m + (n - i)) % n)) k
      = ∑ i ∈ range n, f i * hart n (fun m => g ((m + (n - i)) % n)) k := by
    unfold hart
    simp only [sum_mul, mul_sum]
    rw [sum_comm]
    exact sum_congr rfl fun i _ => sum_congr rfl fun m _ => by ring
  have e2 : ∀ i ∈ range n, f i * hart n (fun m => g ((m + (n - i)) % n)) k
      = f i * ca n (i * k) * ((hart n g k + hart n g (-k)) / 2) + f i * ca n (i * -k) * ((hart n g k - hart n g (-k)) / 2) := by
    intro i hi
    have hi := mem_range.1 hi
    rw [hart_rot, Nat.cast_sub hi.le, show ((n : ℤ) - i) * k = -(i * k) + n * k by ring, cs_add_period, sn_add_period, cs_neg, sn_neg,
      show (i : ℤ) * -k = -(i * k) by ring, ca_neg, ca]
    ring
  rw [e1, sum_congr rfl e2, sum_add_distrib, ← sum_mul, ← sum_mul]
  show hart n f k * _ + hart n f (-k) * _ = _
  ring

@[simp] theorem length_circConv (x y : List ℝ) : (circConv x y).length = x.length := by simp [circConv]

@[simp] theorem length_hartleyMul (x y : List ℝ) : (hartleyMul x y).length = x.length := by simp [hartleyMul]

theorem dht_circConv {x y : List ℝ} (hl : x.length = y.length) : dht (circConv x y) = hartleyMul (dht x) (dht y) := by
  obtain ⟨n, hn⟩ : ∃ n, x.length = n := ⟨_, rfl⟩
  have hy : y.length = n := by omega
  refine Eq.trans (dht_eq' (n := n) (by rw [length_circConv, hn])) (Eq.symm ?_)
  refine eq_tab (by simp [hartleyMul, hn]) fun k hk => ?_
  have e : ∀ m < n, nth (circConv x y) m = ∑ i ∈ range n, nth x i * nth y ((m + (n - i)) % n) := fun m hm => by
    rw [circConv, hn, nth_range_map hm]; rfl
  rw [hart_congr e, hart_circConv, hartleyMul, length_dht, hn, nth_range_map hk, mirrored_dht hn hk, mirrored_dht hy hk]
  have e1 : ∀ z : List ℝ, z.length = n → (dht z).getD k 0 = hart n (nth z) k := fun z hz => nth_dht hz hk
  rw [e1 x hn, e1 y hy]

theorem dht_hartleyMul {x y : List ℝ} (hl : x.length = y.length) :
    dht (hartleyMul (dht x) (dht y)) = (circConv x y).map fun v : ℝ => (x.length : ℝ) * v := by
  rw [← dht_circConv hl, dht_dht, length_circConv]

end RustDHT
