import Verif.Proofs.CheckFloat

/-! # The numbers in the unit-test checker -/

set_option linter.unusedSectionVars false

namespace RustDHT

open Finset

section
variable {T : Type} [Zero T] [Add T] [Sub T] [Mul T] [Neg T] [FftNum T] [TestNum T]
variable {fin : T → Prop} {val : T → ℝ} {u η Ω : ℝ} {t s : ℕ}

/-- The error that `compare_real_vectors` adds up, for two results near the same third list. -/
theorem FloatModel.compare_near (hm : FloatModel fin val u η Ω t s) (hu1 : u ≤ 1)
    (habs : ∀ a : T, fin a → fin (TestNum.abs a) ∧ val (TestNum.abs a) = |val a|) {n : ℕ} {x y : List T} {z : List ℝ}
    (hx : x.length = n) (hy : y.length = n) (hz : z.length = n) (fx : ∀ k < n, fin (x.getD k 0)) (fy : ∀ a ∈ y, fin a) {e1 e2 : ℝ}
    (h1 : ∀ k < n, |val (x.getD k 0) - z.getD k 0| ≤ e1)
    (h2 : norm2 (List.zipWith (· - ·) (y.map val) z) ≤ √n * e2)
    (hO : (1 + u) ^ (n + 1) * (n * (e1 + e2)) ≤ Ω) :
    ∃ r, compareRealVectors x y = .ok (TestNum.meanBelow r n) ∧ fin r ∧ 0 ≤ val r ∧ val r ≤ (1 + u) ^ (n + 1) * (n * (e1 + e2)) := by
  have hu0 := hm.u_nonneg
  have hsum : ((x.zip y).map fun p => |val p.1 - val p.2|).sum ≤ n * (e1 + e2) := by
    rw [sum_zip_nth x y (by omega), hx]
    rw [norm2_sub (n := n) (by simp [hy]) hz] at h2
    simp only [hm.nth_map] at h2
    have c := sum_abs_le_nrm n fun i => val (nth y i) - nth z i
    have c2 := mul_le_mul_of_nonneg_left h2 (Real.sqrt_nonneg (n : ℝ))
    rw [← mul_assoc, Real.mul_self_sqrt (Nat.cast_nonneg n)] at c2
    have d : ∑ i ∈ range n, |val (nth x i) - nth z i| ≤ n * e1 := by
      have := sum_le_sum (s := range n) (f := fun i => |val (nth x i) - nth z i|) (g := fun _ => e1)
        fun i hi => by
          have := h1 i (mem_range.1 hi)
          simpa [nth, List.getD_eq_getElem?_getD] using this
      simpa using this
    have tri : ∑ i ∈ range n, |val (nth x i) - val (nth y i)|
        ≤ ∑ i ∈ range n, |val (nth x i) - nth z i| + ∑ i ∈ range n, |val (nth y i) - nth z i| := by
      rw [← sum_add_distrib]
      refine sum_le_sum fun i _ => ?_
      have := abs_sub_le (val (nth x i)) (nth z i) (val (nth y i))
      rwa [abs_sub_comm (nth z i)] at this
    linarith
  have hlen : (x.zip y).length = n := by simp [hx, hy]
  have hbound : (1 + u) ^ (x.zip y).length * (val 0 + (1 + u) * ((x.zip y).map fun p => |val p.1 - val p.2|).sum)
      ≤ (1 + u) ^ (n + 1) * (n * (e1 + e2)) := by
    rw [hlen, hm.zero.2, zero_add, pow_succ, mul_assoc]
    exact mul_le_mul_of_nonneg_left (mul_le_mul_of_nonneg_left hsum (by linarith)) (by positivity)
  obtain ⟨k1, k0, k2⟩ := hm.error_sum hu1 habs (x.zip y) 0 hm.zero.1 hm.zero.2.ge (fun p hp => by
    obtain ⟨p1, p2⟩ := p
    have m1 := List.of_mem_zip hp
    refine ⟨?_, fy _ m1.2⟩
    obtain ⟨i, hi, e⟩ := List.getElem_of_mem m1.1
    have := fx i (by omega)
    rw [List.getD_eq_getElem?_getD, List.getElem?_eq_getElem hi] at this
    rw [← e]
    exact this) (hbound.trans hO)
  refine ⟨_, ?_, k1, k0, k2.trans hbound⟩
  unfold compareRealVectors
  rw [beq_iff_eq.2 (by omega : x.length = y.length), assert_true, ok_bind, hx]

end

theorem pow_small {u : ℝ} (hu0 : 0 ≤ u) {K : ℕ} (h : K * u ≤ 0.0045) : (1 + u) ^ K ≤ 1 + 1.005 * (K * u) := by
  have h0 : 0 ≤ K * u := by positivity
  calc (1 + u) ^ K ≤ Real.exp u ^ K := pow_le_pow_left₀ (by linarith) (by rw [add_comm]; exact Real.add_one_le_exp u) _
    _ = Real.exp (K * u) := by rw [← Real.exp_nat_mul]
    _ ≤ 1 / (1 - K * u) := Real.exp_bound_div_one_sub_of_interval h0 (by norm_num at h; linarith)
    _ ≤ _ := by
      generalize (K : ℝ) * u = y at *
      norm_num at h ⊢
      rw [inv_le_iff_one_le_mul₀ (by linarith)]
      nlinarith

namespace Flt

variable {F : Fmt}

theorem abs_spec (a : Flt F) (ha : a.fin) : (TestNum.abs a).fin ∧ (TestNum.abs a).val = |a.val| := by
  match a, ha with
  | num s m hm, _ =>
    refine ⟨trivial, ?_⟩
    show (num false m hm : Flt F).val = _
    have h0 : (0 : ℝ) ≤ m := by exact_mod_cast rep_nonneg hm
    rw [abs_val, abs_val]
    cases s <;> simp [withSign, abs_of_nonneg h0]

theorem lt_of_val {a b : Flt F} (ha : a.fin) (hb : b.fin) (h : a.val < b.val) : lt a b = true := by
  match a, b, ha, hb with
  | num s m hm, num s' m' hm', _, _ =>
    show decide (_ < _) = true
    rw [decide_eq_true_eq]
    unfold val at h
    exact_mod_cast h

/-- An error of at most 0.092 on average passes the comparison with 0.1. -/
theorem meanBelow_of {r : Flt F} (hr : r.fin) {n : ℕ} (hn : 0 < n) (hn64 : n ≤ 2 ^ 60) (h0 : 0 ≤ r.val) (h : r.val ≤ 0.092 * n) :
    TestNum.meanBelow r n = true := by
  have hu0 := u64_pos
  have hu := u64_le
  have hh := h64_le
  have hh0 := h64_pos
  have hN1 : (1 : ℝ) ≤ n := by exact_mod_cast hn
  have hN : (n : ℝ) ≤ 2 ^ 60 := by exact_mod_cast hn64
  have hrb : |r.val| ≤ 2 ^ 64 := by
    rw [abs_of_nonneg h0]
    have h1 : (2 : ℝ) ^ 60 ≤ 2 ^ 64 := by norm_num
    norm_num at h
    linarith
  obtain ⟨c1, c2⟩ := convert_spec (F := binary64) (by decide) r hr (big64 hrb)
  change |(convert binary64 r).val - r.val| ≤ u64 * |r.val| + h64 at c2
  obtain ⟨w1, w2⟩ := ofNat_spec (F := binary64) (by decide) (by decide) n (big64 (hN.trans (by norm_num)))
  change |(ofNat binary64 n).val - n| ≤ u64 * n at w2
  rw [abs_le] at w2
  rw [abs_of_nonneg h0] at c2
  have c3 := abs_le.1 c2
  have hc : |(convert binary64 r).val| ≤ 0.0921 * n := by
    rw [abs_le]
    norm_num at h hu ⊢
    constructor <;> nlinarith
  have hw : 0.9999 * n ≤ (ofNat binary64 n).val := by
    norm_num at hu ⊢
    nlinarith
  have hwpos : 0 < (ofNat binary64 n).val := by
    norm_num at hw
    linarith
  have hq : |(convert binary64 r).val / (ofNat binary64 n).val| ≤ 0.0922 := by
    rw [abs_div, abs_of_pos hwpos, div_le_iff₀ hwpos]
    norm_num at hc hw ⊢
    linarith
  obtain ⟨d1, d2⟩ := div_spec (F := binary64) (by decide) _ _ c1 w1 hwpos.ne' (big64 (hq.trans (by norm_num)))
  change |(convert binary64 r / ofNat binary64 n).val - (convert binary64 r).val / (ofNat binary64 n).val|
    ≤ u64 * |(convert binary64 r).val / (ofNat binary64 n).val| + h64 at d2
  have e10 : |((1 / 10 : ℚ) : ℝ)| = 1 / 10 := by push_cast; exact abs_of_pos (by norm_num)
  obtain ⟨t1, t2, -⟩ := round_rat (F := binary64) (by decide) false (1 / 10 : ℚ) (big64 (by rw [e10]; norm_num))
  rw [e10] at t2
  change |(round binary64 false (1 / 10 : ℚ)).val - 1 / 10| ≤ u64 * (1 / 10) + h64 at t2
  refine lt_of_val d1 t1 ?_
  rw [abs_le] at d2 t2
  have hq2 := (abs_le.1 hq).2
  have hm := mul_le_mul_of_nonneg_left hq hu0.le
  norm_num at hq hq2 hm hu
  linarith [d2.2, t2.1]

end Flt

end RustDHT
