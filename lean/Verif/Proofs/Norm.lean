import Verif.Proofs.Orthogonality
import Mathlib.Analysis.InnerProductSpace.PiL2

/-! # Euclidean norms of the first `n` terms of a sequence -/

namespace RustDHT

open Finset

/-- The Euclidean norm of `f 0, ..., f (n-1)`. -/
noncomputable def nrm (n : ℕ) (f : ℕ → ℝ) : ℝ := √(∑ i ∈ range n, f i ^ 2)

theorem nrm_nonneg (n : ℕ) (f : ℕ → ℝ) : 0 ≤ nrm n f := Real.sqrt_nonneg _

theorem sum_sq_nonneg (n : ℕ) (f : ℕ → ℝ) : 0 ≤ ∑ i ∈ range n, f i ^ 2 := sum_nonneg fun _ _ => sq_nonneg _

theorem nrm_sq (n : ℕ) (f : ℕ → ℝ) : nrm n f ^ 2 = ∑ i ∈ range n, f i ^ 2 := Real.sq_sqrt (sum_sq_nonneg n f)

theorem nrm_congr {n : ℕ} {f g : ℕ → ℝ} (h : ∀ i < n, f i = g i) : nrm n f = nrm n g := by
  unfold nrm
  rw [sum_congr rfl fun i hi => by rw [h i (mem_range.1 hi)]]

theorem nrm_eq_norm (n : ℕ) (f : ℕ → ℝ) : nrm n f = ‖(WithLp.toLp 2 fun i : Fin n => f i : EuclideanSpace ℝ (Fin n))‖ := by
  rw [EuclideanSpace.norm_eq, nrm, Finset.sum_range]
  simp

theorem nrm_add_le (n : ℕ) (f g : ℕ → ℝ) : nrm n (fun i => f i + g i) ≤ nrm n f + nrm n g := by
  rw [nrm_eq_norm, nrm_eq_norm, nrm_eq_norm]
  exact norm_add_le (WithLp.toLp 2 fun i : Fin n => f i : EuclideanSpace ℝ (Fin n)) (WithLp.toLp 2 fun i : Fin n => g i)

theorem nrm_sub_le (n : ℕ) (f g h : ℕ → ℝ) : nrm n (fun i => f i - h i) ≤ nrm n (fun i => f i - g i) + nrm n (fun i => g i - h i) := by
  refine le_trans (le_of_eq (nrm_congr fun i _ => ?_)) (nrm_add_le n _ _)
  ring

theorem nrm_mul (n : ℕ) {c : ℝ} (hc : 0 ≤ c) (f : ℕ → ℝ) : nrm n (fun i => c * f i) = c * nrm n f := by
  unfold nrm
  simp only [mul_pow]
  rw [← mul_sum, Real.sqrt_mul (sq_nonneg c), Real.sqrt_sq hc]

theorem nrm_mono {n : ℕ} {f g : ℕ → ℝ} (h : ∀ i < n, |f i| ≤ g i) : nrm n f ≤ nrm n g := by
  refine Real.sqrt_le_sqrt (sum_le_sum fun i hi => ?_)
  have := h i (mem_range.1 hi)
  rw [← sq_abs]
  exact pow_le_pow_left₀ (abs_nonneg _) this 2

theorem nrm_const (n : ℕ) {c : ℝ} (hc : 0 ≤ c) : nrm n (fun _ => c) = √n * c := by
  unfold nrm
  rw [sum_const, card_range, nsmul_eq_mul, Real.sqrt_mul (Nat.cast_nonneg n), Real.sqrt_sq hc]

theorem abs_le_nrm {n i : ℕ} (hi : i < n) (f : ℕ → ℝ) : |f i| ≤ nrm n f := by
  rw [← Real.sqrt_sq_eq_abs]
  exact Real.sqrt_le_sqrt (single_le_sum (f := fun i => f i ^ 2) (fun _ _ => sq_nonneg _) (mem_range.2 hi))

theorem nrm_zero (n : ℕ) : nrm n (fun _ => 0) = 0 := by rw [nrm_const n le_rfl, mul_zero]

/-- Rearranging. -/
theorem nrm_perm_le {m n : ℕ} {σ : ℕ → ℕ} (h : ∀ i < m, σ i < n) (hi : ∀ i < m, ∀ j < m, σ i = σ j → i = j) (f : ℕ → ℝ) :
    nrm m (fun i => f (σ i)) ≤ nrm n f := by
  refine Real.sqrt_le_sqrt ?_
  rw [← sum_image (s := range m) (f := fun j => f j ^ 2) (g := σ)
    fun i h1 j h2 e => hi i (mem_range.1 (mem_coe.1 h1)) j (mem_range.1 (mem_coe.1 h2)) e]
  refine sum_le_sum_of_subset_of_nonneg (fun j hj => ?_) fun _ _ _ => sq_nonneg _
  obtain ⟨i, hi', rfl⟩ := mem_image.1 hj
  exact mem_range.2 (h i (mem_range.1 hi'))

theorem nrm_perm {n : ℕ} {σ : ℕ → ℕ} (h : ∀ i < n, σ i < n) (hi : ∀ i < n, ∀ j < n, σ i = σ j → i = j) (f : ℕ → ℝ) :
    nrm n (fun i => f (σ i)) = nrm n f := by
  unfold nrm
  congr 1
  have himg : (range n).image σ = range n := by
    refine eq_of_subset_of_card_le (fun j hj => ?_) ?_
    · obtain ⟨i, hi', rfl⟩ := mem_image.1 hj
      exact mem_range.2 (h i (mem_range.1 hi'))
    · rw [card_image_of_injOn fun i h1 j h2 e => hi i (mem_range.1 (mem_coe.1 h1)) j (mem_range.1 (mem_coe.1 h2)) e]
  rw [← sum_image (s := range n) (f := fun j => f j ^ 2) (g := σ)
    fun i h1 j h2 e => hi i (mem_range.1 (mem_coe.1 h1)) j (mem_range.1 (mem_coe.1 h2)) e, himg]

/-- Norms of blocks. -/
theorem nrm_blocks (k h : ℕ) (f : ℕ → ℝ) : nrm (k * h) f = nrm k (fun r => nrm h fun c => f (r * h + c)) := by
  rw [nrm, nrm, sum_range_mul]
  congr 1
  exact sum_congr rfl fun r _ => (nrm_sq _ _).symm

/-- When every term occurs at most once in each of `b` rearrangements. -/
theorem nrm_gather {k n b : ℕ} {σ : ℕ → ℕ → ℕ} (h : ∀ m < b, ∀ i < k, σ m i < n)
    (hi : ∀ m < b, ∀ i < k, ∀ j < k, σ m i = σ m j → i = j) (f : ℕ → ℝ) :
    nrm k (fun i => nrm b fun m => f (σ m i)) ≤ √b * nrm n f := by
  have h0 : nrm k (fun i => nrm b fun m => f (σ m i)) = nrm b (fun m => nrm k fun i => f (σ m i)) := by
    unfold nrm
    congr 1
    simp only [Real.sq_sqrt (sum_sq_nonneg _ _)]
    exact sum_comm
  rw [h0, ← nrm_const b (nrm_nonneg n f)]
  refine nrm_mono fun m hm => ?_
  rw [abs_of_nonneg (nrm_nonneg _ _)]
  exact nrm_perm_le (h m hm) (hi m hm) f

/-- Parseval for the transform of a list. -/
theorem nrm_dht {n : ℕ} {x : List ℝ} (hx : x.length = n) : nrm n (nth (dht x)) = √n * nrm n (nth x) := by
  have h := hart_parseval n (nth x) (nth x)
  unfold nrm
  rw [← Real.sqrt_mul (Nat.cast_nonneg n)]
  congr 1
  simp only [pow_two]
  rw [← h]
  refine sum_congr rfl fun k hk => ?_
  rw [nth_dht hx (mem_range.1 hk)]

theorem hart_sub (n : ℕ) (f g : ℕ → ℝ) (k : ℤ) : hart n (fun i => f i - g i) k = hart n f k - hart n g k := by
  unfold hart
  rw [← sum_sub_distrib]
  exact sum_congr rfl fun i _ => by ring

/-- The transform multiplies distances by the square root of the length. -/
theorem nrm_dht_sub {n : ℕ} {x y : List ℝ} (hx : x.length = n) (hy : y.length = n) :
    nrm n (fun i => nth (dht x) i - nth (dht y) i) = √n * nrm n (fun i => nth x i - nth y i) := by
  have h := hart_parseval n (fun i => nth x i - nth y i) (fun i => nth x i - nth y i)
  unfold nrm
  rw [← Real.sqrt_mul (Nat.cast_nonneg n)]
  congr 1
  simp only [pow_two]
  rw [← h]
  refine sum_congr rfl fun k hk => ?_
  rw [nth_dht hx (mem_range.1 hk), nth_dht hy (mem_range.1 hk), hart_sub]

end RustDHT
