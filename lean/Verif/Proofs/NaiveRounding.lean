import Verif.Proofs.Rounding
import Verif.Proofs.LeavesDht

/-! # Rounding errors of `DhtNaive` -/

set_option linter.unusedSectionVars false
set_option linter.style.haveILetI false

namespace RustDHT

open Finset

variable {T : Type} [Zero T] [Add T] [Sub T] [Mul T] [Neg T] [FftNum T]
variable {fin : T → Prop} {val : T → ℝ} {u η Ω : ℝ} {t s : ℕ}

/-- Summing from left to right. -/
theorem FloatModel.foldl_sum (hm : FloatModel fin val u η Ω t s) {f : ℕ → T} {e m : ℕ → ℝ} {d : ℕ} (hm0 : ∀ i, 0 ≤ m i) (j : ℕ)
    (h : ∀ i < j, fin (f i) ∧ |e i| ≤ m i ∧ |val (f i) - e i| ≤ (1 + u) ^ d * (m i + η) - m i)
    (hO : (1 + u) ^ (d + j) * ∑ i ∈ range j, (m i + η) ≤ Ω) :
    fin ((List.range j).foldl (fun acc i => acc + f i) 0) ∧ |∑ i ∈ range j, e i| ≤ ∑ i ∈ range j, m i ∧
    |val ((List.range j).foldl (fun acc i => acc + f i) 0) - ∑ i ∈ range j, e i|
      ≤ (1 + u) ^ (d + j) * ∑ i ∈ range j, (m i + η) - ∑ i ∈ range j, m i := by
  have hη := hm.η_nonneg
  have hw : ∀ j, 0 ≤ ∑ i ∈ range j, (m i + η) := fun j => sum_nonneg fun i _ => by linarith [hm0 i]
  induction j with
  | zero => simp [hm.zero.1, hm.zero.2]
  | succ j ih =>
    obtain ⟨f1, m1, e1⟩ := ih (fun i hi => h i (by omega)) (by
      refine le_trans (mul_le_mul (hm.pow_le (by omega)) ?_ (hw _) (hm.pow_pos _).le) hO
      rw [sum_range_succ]; linarith [hm0 j])
    obtain ⟨f2, m2, e2⟩ := h j (by omega)
    have hd : max (d + j) d + 1 = d + (j + 1) := by omega
    have hwj : 0 ≤ m j + η := by linarith [hm0 j]
    rw [List.range_succ, List.foldl_append, List.foldl_cons, List.foldl_nil, sum_range_succ, sum_range_succ, sum_range_succ]
    rw [sum_range_succ] at hO
    obtain ⟨f3, e3⟩ := hm.add _ _ f1 f2 (hm.sum_size m1 m2 e1 e2 (hw j) hwj le_rfl le_rfl (by rw [hd]; exact hO))
    refine ⟨f3, (abs_add_le _ _).trans (add_le_add m1 m2), ?_⟩
    have := hm.sum_bound m1 m2 (hw j) hwj e1 e2 e3
    rwa [hd] at this

theorem FloatModel.naiveFn (hm : FloatModel fin val u η Ω t s) {n : ℕ} {x : List T} (hx : x.length = n) (hf : ∀ a ∈ x, fin a)
    {S : ℝ} (hS : S = (x.map fun a => |val a|).sum) (hO : (1 + u) ^ (n + t + 3) * (2 * max S 1 + n * η) ≤ Ω) {k : ℕ} (hk : k < n) :
    fin (nth (naiveFn T n x) k) ∧ |val (nth (naiveFn T n x) k) - nth (dht (x.map val)) k|
      ≤ (1 + u) ^ (n + t + 3) * (2 * S + n * η) - 2 * S := by
  have hη := hm.η_nonneg
  have hsum : S = ∑ i ∈ range n, |val (nth x i)| := by
    rw [hS, ← hx]
    clear hS hO hf hx
    induction x with
    | nil => simp
    | cons a x ih => rw [List.map_cons, List.sum_cons, ih, List.length_cons, sum_range_succ']; simp [nth, add_comm]
  have hle : ∀ i < n, |val (nth x i)| ≤ S := fun i hi => by
    rw [hsum]
    exact single_le_sum (f := fun i => |val (nth x i)|) (fun _ _ => abs_nonneg _) (mem_range.2 hi)
  have key : ∀ i < n, fin (nth (naiveTwiddles T n) (i * k % n) * nth x i) ∧
      |ca n ((i : ℤ) * k) * val (nth x i)| ≤ 2 * |val (nth x i)| ∧
      |val (nth (naiveTwiddles T n) (i * k % n) * nth x i) - ca n ((i : ℤ) * k) * val (nth x i)|
        ≤ (1 + u) ^ (t + 3) * (2 * |val (nth x i)| + η) - 2 * |val (nth x i)| := by
    intro i hi
    have hmod : i * k % n < n := Nat.mod_lt _ (by omega)
    letI := pairCost t s
    have htw := (floatModel_respects hm le_rfl).dht (i := i * k % n) hmod
    have hxi : FR fin val u η Ω |val (nth x i)| (nth x i) (val (nth x i), ⟨1, 0, 0⟩) := by
      intro _
      refine ⟨hf _ ?_, by simp, by simp⟩
      rw [nth, List.getElem?_eq_getElem (by omega), Option.getD_some]
      exact List.getElem_mem _
    have := (hm.cmulR (abs_nonneg _) htw hxi).1
    have hnt : nth (naiveTwiddles T n) (i * k % n) = computeDhtTwiddle T (i * k % n) n := by
      rw [show naiveTwiddles T n = tab n fun i => computeDhtTwiddle T i n from rfl, nth_tab hmod]
    have hc : computeDhtTwiddle (ℝ × Cost3) (i * k % n) n = (ca n ((i : ℤ) * k), ⟨2, 0, t + 1⟩) := by
      rw [ca_mod, ← dht_twiddle]
      show (_, (⟨_, _, max t t + 1⟩ : Cost3)) = _
      rw [max_self]
      rfl
    rw [hnt]
    rw [hc] at this
    have g := this (by
      show (1 + u) ^ (t + 1 + 0 + 2) * (((2 * 1 : ℕ) : ℝ) * max _ 1 + η * ((2 * 0 + 0 * 1 + 1 : ℕ) : ℝ)) ≤ Ω
      refine le_trans (mul_le_mul (hm.pow_le (by omega : _ ≤ n + t + 3)) ?_ (by positivity) (hm.pow_pos _).le) hO
      have h1 : max |val (nth x i)| 1 ≤ max S 1 := max_le_max_right _ (hle i hi)
      have h2 : η * 1 ≤ n * η := by
        rw [mul_comm (n : ℝ)]
        exact mul_le_mul_of_nonneg_left (by exact_mod_cast (by omega : 1 ≤ n)) hη
      push_cast
      linarith)
    refine ⟨g.1, ?_, ?_⟩
    · have := g.2.1
      simpa [Cost3.mul_def] using this
    · have := g.2.2
      simpa [Cost3.mul_def] using this
  have hs2 : ∑ i ∈ range n, (2 * |val (nth x i)| + η) = 2 * S + n * η := by
    rw [sum_add_distrib, ← mul_sum, ← hsum]; simp
  have hd : t + 3 + n = n + t + 3 := by omega
  have := hm.foldl_sum (fun i => by positivity) n key (by
    rw [hs2, hd]
    refine le_trans (mul_le_mul_of_nonneg_left ?_ (hm.pow_pos _).le) hO
    have := le_max_left S 1
    linarith)
  rw [hs2, hd, ← mul_sum, ← hsum] at this
  have hy : nth (RustDHT.naiveFn T n x) k
      = (List.range n).foldl (fun acc i => acc + nth (naiveTwiddles T n) (i * k % n) * nth x i) 0 := by
    rw [RustDHT.naiveFn, nth_tab hk, naiveVal, hx, length_naiveTwiddles]
  have hX : nth (dht (x.map val)) k = ∑ i ∈ range n, ca n ((i : ℤ) * k) * val (nth x i) := by
    rw [dht_eq' (n := n) (by simpa using hx), nth_tab hk, hart]
    refine sum_congr rfl fun i hi => ?_
    have : nth (x.map val) i = val (nth x i) := by
      have hi := mem_range.1 hi
      simp [nth, List.getElem?_eq_getElem (show i < x.length by omega)]
    rw [this, mul_comm]
  rw [hy, hX]
  exact ⟨this.1, this.2.2⟩

end RustDHT
