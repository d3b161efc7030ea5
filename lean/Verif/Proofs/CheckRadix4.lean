import Verif.Proofs.CheckDetects
import Verif.Proofs.Radix4Defect
import Verif.Proofs.Pairs

/-! # What a passed check of `Radix4` says about the signal -/

set_option linter.unusedSectionVars false

namespace RustDHT

open Finset

theorem nrm_le_sum (n : ℕ) (f : ℕ → ℝ) : nrm n f ≤ ∑ i ∈ range n, |f i| := by
  rw [nrm, Real.sqrt_le_iff]
  refine ⟨sum_nonneg fun _ _ => abs_nonneg _, ?_⟩
  have := sum_sq_le_sq_sum_of_nonneg (s := range n) (f := fun i => |f i|) fun _ _ => abs_nonneg _
  simpa [sq_abs] using this

variable [MathLib] {F : Fmt} {u η Ω : ℝ} {t s : ℕ}

theorem radix4_detects (hm : FloatModel (T := Flt F) Flt.fin Flt.val u η Ω t s) (hu' : u = 2⁻¹ ^ F.prec) (hu : 2⁻¹ ^ 53 ≤ u)
    (hu24 : u ≤ 1 / 10 ^ 7) (hη : η * 2 ^ 40 ≤ u) (hΩ : 2 ^ 60 ≤ Ω * u ^ 2) {m n : ℕ} (hn : n = 2 ^ m) (d : Dht (Flt F))
    (hd : radix4 (Flt F) n = .ok d) {C : ℕ}
    (hC : C = 20 * n * (n + t + 3) + 10 * (Nat.sqrt n + 1) * ((Plan.radix4 n).stability t s).depth)
    (hc : C * u ≤ 0.09) (signal : List (Flt F)) (hs : signal.length = n) (hx : ∀ a ∈ signal, a.fin ∧ |a.val| ≤ 10)
    (h : checkDhtAlgorithm signal d n = .ok ()) :
    ∑ i ∈ range n, (nth (signal.map Flt.val) (r4Sigma (r4BaseLen m) (r4Levels m) i) - nth (signal.map Flt.val) i) ^ 2
      ≤ n * (0.1007 + 1.005 * (C * u)) ^ 2 := by
  have hu0 : 0 < u := lt_of_lt_of_le (by positivity) hu
  have hpos : 0 < n := by rw [hn]; positivity
  have hdl : d.len = n := by subst hn; rw [radix4_eq] at hd; cases hd; rfl
  obtain ⟨f, dr, fr, hf, hdr, hfr, hlr, h1⟩ := C46_plan_stability (.radix4 n) trivial hm d hd
  obtain ⟨hU, hB⟩ := stability_le t s (.radix4 n)
  generalize hab : (Plan.radix4 n).stability t s = ab at *
  rw [hdl] at h1
  have hS0 : 0 ≤ (signal.map fun a => |a.val|).sum := List.sum_nonneg (by simp)
  have hN0 : 0 ≤ norm2 (signal.map Flt.val) := Real.sqrt_nonneg _
  have hN : norm2 (signal.map Flt.val) ≤ 10 * √n := by
    rw [norm2_eq (n := n) (by simp [hs])]
    have := nrm_mono (n := n) (f := nth (signal.map Flt.val)) (g := fun _ => 10) (fun i hi => by
      rw [hm.nth_map, nth_eq_getElem (by omega)]
      exact (hx _ (List.getElem_mem _)).2)
    rw [nrm_const n (by norm_num)] at this
    linarith
  have hn1 : (1 : ℝ) ≤ n := by exact_mod_cast hpos
  have hw1 : 1 ≤ √(n : ℝ) := by rw [← Real.sqrt_one]; exact Real.sqrt_le_sqrt hn1
  have hww : √(n : ℝ) * √n = n := Real.mul_self_sqrt (Nat.cast_nonneg n)
  have hwq : √(n : ℝ) ≤ (Nat.sqrt n + 1 : ℕ) := by
    rw [Real.sqrt_le_iff]
    refine ⟨Nat.cast_nonneg _, ?_⟩
    have := (Nat.lt_succ_sqrt' n).le
    exact_mod_cast this
  have hq2 : (2 : ℝ) ≤ (Nat.sqrt n + 1 : ℕ) := by
    have : 0 < Nat.sqrt n := Nat.sqrt_pos.2 hpos
    exact_mod_cast (by omega : 2 ≤ Nat.sqrt n + 1)
  have hCr : (C : ℝ) = 20 * n * (n + t + 3 : ℕ) + 10 * (Nat.sqrt n + 1 : ℕ) * ab.depth := by rw [hC]; push_cast; ring
  obtain ⟨k0, -, k2, -, -⟩ := check_estimates (n := n) (w := √n) (q := (Nat.sqrt n + 1 : ℕ)) (K := (n + t + 3 : ℕ))
    (D := ab.depth) (U := ab.under) (B := ab.big) (u := u) (η := η) (S := 0)
    (N := norm2 (signal.map Flt.val)) (P1 := 1) (P2 := (1 + u) ^ ab.depth) (Ω := Ω)
    (m := (1 + u) ^ (n + 1)) hn1 hw1 hww hwq hq2 (by push_cast; linarith [Nat.cast_nonneg (α := ℝ) t]) (Nat.cast_nonneg _)
    (Nat.cast_nonneg _) (by exact_mod_cast hU) (Nat.cast_nonneg _) (by exact_mod_cast hB) hu0 hu24 hm.η_nonneg hη hΩ
    (by rw [← hCr]; exact hc) le_rfl (by positivity) hN0 hN (fun h => le_add_of_nonneg_right (by positivity))
    (fun h => pow_small hu0.le h) le_rfl (one_le_pow₀ (by linarith))
    (fun h => by have := pow_small hu0.le (K := n + 1) (by push_cast; exact h); push_cast at this; exact this) (by positivity)
  obtain ⟨f1, f2⟩ := h1 signal hs (fun a ha => (hx a ha).1) _ rfl _ rfl k2
  have hnK0 : 0 ≤ (n : ℝ) * (n + t + 3 : ℕ) * u := by positivity
  have hqD0 : 0 ≤ ((Nat.sqrt n + 1 : ℕ) : ℝ) * (ab.depth * u) := by positivity
  have hCu : C * u = 20 * (n * (n + t + 3 : ℕ) * u) + 10 * ((Nat.sqrt n + 1 : ℕ) * (ab.depth * u)) := by rw [hCr]; ring
  obtain ⟨X, Y, s2, i, out, Z, s3, e1, -, -, -, -, -, e5⟩ := check_detects hm hu' hu hu24 hη hΩ d hpos (by
    have : ((20 * n * (n + t + 3) : ℕ) : ℝ) * u = 20 * (n * (n + t + 3 : ℕ) * u) := by push_cast; ring
    rw [this]
    linarith) signal hs hx h
  obtain ⟨g1, g2, g3⟩ := e5 X (.inl rfl)
  have eX : X = f signal := by
    rw [process_single hf (by rw [hs, hdl])] at e1
    exact (Except.ok.inj e1).symm
  subst eX
  have hxv : (signal.map Flt.val).length = n := by simp [hs]
  have hfrn : fr (signal.map Flt.val) = dht (tab n fun i => nth (signal.map Flt.val) (r4Sigma (r4BaseLen m) (r4Levels m) i)) := by
    subst hn
    rw [← radix4Fn_dht]
    have hdr' : radix4 ℝ (2 ^ m) = .ok dr := hdr
    exact hfr.unique (radix4_implements hdr') (by rw [hxv, hlr, hdl]) (by rw [hlr, hdl]; exact hpos)
  rw [hfrn] at f2
  set sx := tab n fun i => nth (signal.map Flt.val) (r4Sigma (r4BaseLen m) (r4Levels m) i) with hsx
  have lsx : sx.length = n := length_tab _ _
  have ld : (dht sx).length = n := by rw [length_dht, lsx]
  have ld' : (dht (signal.map Flt.val)).length = n := by rw [length_dht, hxv]
  have ly : ((f signal).map Flt.val).length = n := by simp [g1]
  rw [norm2_sub ly ld] at f2
  rw [absError_eq_sum ly ld'] at g3
  -- the rounding errors of `Radix4`
  have hE : (1 + u) ^ ab.depth * (norm2 (signal.map Flt.val) + ab.under * η * √n) - norm2 (signal.map Flt.val)
      ≤ 1.005 * (10 * ((Nat.sqrt n + 1 : ℕ) * (ab.depth * u))) + 1 / 100000 := by
    have hDu : ab.depth * u ≤ 0.0045 := by
      have : 2 * (ab.depth * u) ≤ ((Nat.sqrt n + 1 : ℕ) : ℝ) * (ab.depth * u) := mul_le_mul_of_nonneg_right hq2 (by positivity)
      norm_num at hc ⊢
      linarith
    have p2 := pow_small hu0.le hDu
    have hP20 : 1 ≤ (1 + u) ^ ab.depth := one_le_pow₀ (by linarith)
    have hη0 := hm.η_nonneg
    have hUη0 : 0 ≤ ab.under * η * √(n : ℝ) := by positivity
    have hUη : ab.under * η * √(n : ℝ) ≤ 1 / 10 ^ 6 := by
      have h1 : ab.under * η * √(n : ℝ) ≤ ab.depth * η * (Nat.sqrt n + 1 : ℕ) := by
        have : (ab.under : ℝ) ≤ ab.depth := by exact_mod_cast hU
        gcongr
      have h2 := mul_le_mul_of_nonneg_left hη (by positivity : 0 ≤ (ab.depth : ℝ) * (Nat.sqrt n + 1 : ℕ))
      norm_num at h2 hc ⊢
      nlinarith
    generalize (1 + u) ^ ab.depth = P at *
    have e1 : (P - 1) * norm2 (signal.map Flt.val) ≤ (1.005 * (ab.depth * u)) * (10 * (Nat.sqrt n + 1 : ℕ)) := by
      refine mul_le_mul (by linarith) (by linarith) hN0 (by positivity)
    have e2 : P * (ab.under * η * √(n : ℝ)) ≤ 2 * (1 / 10 ^ 6) :=
      mul_le_mul (by norm_num at p2 hDu ⊢; linarith) hUη hUη0 (by norm_num)
    have e3 : 1.005 * (ab.depth * u) * (10 * (Nat.sqrt n + 1 : ℕ)) = 1.005 * (10 * ((Nat.sqrt n + 1 : ℕ) * (ab.depth * u))) := by ring
    rw [e3] at e1
    norm_num at e1 e2 ⊢
    linarith
  set E := (1 + u) ^ ab.depth * (norm2 (signal.map Flt.val) + ab.under * η * √n) - norm2 (signal.map Flt.val) with hEdef
  have c1 := (sum_abs_le_nrm n fun i => nth ((f signal).map Flt.val) i - nth (dht sx) i).trans
    (mul_le_mul_of_nonneg_left f2 (Real.sqrt_nonneg _))
  rw [← mul_assoc, hww] at c1
  have tri : ∑ i ∈ range n, |nth (dht sx) i - nth (dht (signal.map Flt.val)) i|
      ≤ ∑ i ∈ range n, |nth ((f signal).map Flt.val) i - nth (dht sx) i|
        + ∑ i ∈ range n, |nth ((f signal).map Flt.val) i - nth (dht (signal.map Flt.val)) i| := by
    rw [← sum_add_distrib]
    refine sum_le_sum fun i _ => ?_
    have := abs_sub_le (nth (dht sx) i) (nth ((f signal).map Flt.val) i) (nth (dht (signal.map Flt.val)) i)
    rwa [abs_sub_comm (nth (dht sx) i) (nth ((f signal).map Flt.val) i)] at this
  have hl2 := (nrm_le_sum n fun i => nth (dht sx) i - nth (dht (signal.map Flt.val)) i).trans tri
  rw [nrm_dht_sub lsx hxv] at hl2
  have hM : n * E + (0.1006 + 20.1 * (n * (n + t + 3 : ℕ) * u)) * n ≤ n * (0.1007 + 1.005 * (C * u)) := by
    have : E + (0.1006 + 20.1 * (n * (n + t + 3 : ℕ) * u)) ≤ 0.1007 + 1.005 * (C * u) := by
      rw [hCu]
      norm_num at hE ⊢
      linarith
    calc n * E + (0.1006 + 20.1 * (n * (n + t + 3 : ℕ) * u)) * n = n * (E + (0.1006 + 20.1 * (n * (n + t + 3 : ℕ) * u))) := by ring
      _ ≤ _ := mul_le_mul_of_nonneg_left this (by positivity)
  have hfin : nrm n (fun i => nth sx i - nth (signal.map Flt.val) i) ≤ √n * (0.1007 + 1.005 * (C * u)) := by
    have h6 : √n * nrm n (fun i => nth sx i - nth (signal.map Flt.val) i) ≤ √n * (√n * (0.1007 + 1.005 * (C * u))) := by
      rw [← mul_assoc, hww]
      linarith
    exact le_of_mul_le_mul_left h6 (by linarith)
  have h7 := pow_le_pow_left₀ (nrm_nonneg _ _) hfin 2
  rw [mul_pow, Real.sq_sqrt (Nat.cast_nonneg n), nrm, Real.sq_sqrt (sum_nonneg fun _ _ => sq_nonneg _)] at h7
  refine Eq.trans_le (sum_congr rfl fun i hi => ?_) h7
  rw [hsx, nth_tab (mem_range.1 hi)]

theorem radix4_detects_fin (hm : FloatModel (T := Flt F) Flt.fin Flt.val u η Ω t s) (hu' : u = 2⁻¹ ^ F.prec) (hu : 2⁻¹ ^ 53 ≤ u)
    (hu24 : u ≤ 1 / 10 ^ 7) (hη : η * 2 ^ 40 ≤ u) (hΩ : 2 ^ 60 ≤ Ω * u ^ 2) (m : ℕ) (d : Dht (Flt F))
    (hd : radix4 (Flt F) (2 ^ m) = .ok d) {C : ℕ}
    (hC : C = 20 * 2 ^ m * (2 ^ m + t + 3) + 10 * (Nat.sqrt (2 ^ m) + 1) * ((Plan.radix4 (2 ^ m)).stability t s).depth)
    (hc : C * u ≤ 0.09) (x : Fin (2 ^ m) → Flt F) (hx : ∀ i, (x i).fin ∧ |(x i).val| ≤ 10)
    (h : checkDhtAlgorithm (List.ofFn x) d (2 ^ m) = .ok ()) :
    ∑ i, ((x (r4SigmaPerm m i)).val - (x i).val) ^ 2 ≤ 2 ^ m * (0.1007 + 1.005 * (C * u)) ^ 2 := by
  have h1 := radix4_detects hm hu' hu hu24 hη hΩ rfl d hd hC hc (List.ofFn x) (by simp) (fun a ha => by
    obtain ⟨i, rfl⟩ := (List.mem_ofFn' x a).1 ha
    exact hx i) h
  push_cast at h1
  refine Eq.trans_le ?_ h1
  rw [← Fin.sum_univ_eq_sum_range]
  refine sum_congr rfl fun i _ => ?_
  have e : ∀ j : Fin (2 ^ m), nth ((List.ofFn x).map Flt.val) j = (x j).val := fun j => by
    rw [nth_eq_getElem (by simp), List.getElem_map, List.getElem_ofFn]
  rw [e i, ← r4SigmaPerm_val, e]

/-- The rearrangement for length 128. -/
theorem pairs128 : (∀ i : Fin (2 ^ 7), r4SigmaPerm 7 (r4SigmaPerm 7 i) = i) ∧
    (univ.filter fun i : Fin (2 ^ 7) => i < r4SigmaPerm 7 i).card = 16 := by
  have e : ∀ i : Fin (2 ^ 7), r4SigmaPerm 7 i = ⟨r4Sigma 8 2 i, r4Sigma_lt (by decide) i.2⟩ := fun i => rfl
  simp only [e]
  exact ⟨by decide +kernel, by decide +kernel⟩

/-- The signals of length 128 that the rearrangement changes by little. -/
theorem close128 {ι : Type} [Fintype ι] {v : ι → ℝ} {D B : ℝ} (hD : 0 ≤ D) (hB : B < 2 * D ^ 2) {q : ℕ}
    (hv : ∀ c, q * {a | |v a - v c| < D}.ncard ≤ Fintype.card ι) {P : (Fin (2 ^ 7) → ι) → Prop}
    (hP : ∀ x, P x → ∑ i, (v (x (r4SigmaPerm 7 i)) - v (x i)) ^ 2 ≤ B) :
    q ^ 16 * {x | P x}.ncard ≤ Fintype.card ι ^ 128 := by
  classical
  obtain ⟨inv, h16⟩ := pairs128
  have h := card_pairs (univ.filter fun i : Fin (2 ^ 7) => i < r4SigmaPerm 7 i) (r4SigmaPerm 7) (fun a ha hb => by
    rw [mem_filter] at ha hb
    rw [inv] at hb
    exact lt_asymm ha.2 hb.2) (R := fun c d => |v d - v c| < D) (q := q) (fun c => by
      have e : {a | |v a - v c| < D} = (univ.filter fun d => |v d - v c| < D : Finset ι) := by ext; simp
      have := hv c
      rw [e, Set.ncard_coe_finset] at this
      convert this)
  rw [h16, Fintype.card_fin] at h
  refine le_trans (Nat.mul_le_mul_left _ ?_) h
  rw [← Set.ncard_coe_finset]
  refine Set.ncard_le_ncard (fun x hx => ?_) (Set.toFinite _)
  simp only [coe_filter, mem_univ, true_and, mem_filter, Set.mem_ofPred_eq] at hx ⊢
  intro a ha
  have hne : a ≠ r4SigmaPerm 7 a := ha.ne
  have h2 : (v (x (r4SigmaPerm 7 a)) - v (x a)) ^ 2 + (v (x (r4SigmaPerm 7 (r4SigmaPerm 7 a))) - v (x (r4SigmaPerm 7 a))) ^ 2
      ≤ ∑ i, (v (x (r4SigmaPerm 7 i)) - v (x i)) ^ 2 := by
    rw [← sum_pair (f := fun i => (v (x (r4SigmaPerm 7 i)) - v (x i)) ^ 2) hne]
    exact sum_le_sum_of_subset_of_nonneg (subset_univ _) fun _ _ _ => sq_nonneg _
  rw [inv] at h2
  have h3 := hP x hx
  refine abs_lt_of_sq_lt_sq ?_ hD
  nlinarith

end RustDHT
