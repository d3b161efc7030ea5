import Verif.Proofs.CheckNumbers
import Verif.Props.Stability

/-! # The unit-test checker applied to a composition in floating point -/

set_option linter.unusedSectionVars false

namespace RustDHT

/-- Elementary estimates. -/
theorem check_estimates {n w q K D U B u η S N P1 P2 Ω m : ℝ} (hn : 1 ≤ n) (hw : 1 ≤ w) (hww : w * w = n) (hwq : w ≤ q) (hq : 2 ≤ q)
    (hK : n + 3 ≤ K) (hD : 0 ≤ D) (hU0 : 0 ≤ U) (hU : U ≤ D) (hB0 : 0 ≤ B) (hB : B ≤ D + 7) (hu : 0 < u) (hu24 : u ≤ 1 / 10 ^ 7)
    (hη0 : 0 ≤ η) (hη : η * 2 ^ 40 ≤ u) (hΩ : 2 ^ 60 ≤ Ω * u ^ 2)
    (hc : (20 * n * K + 10 * q * D) * u ≤ 0.09) (hS0 : 0 ≤ S) (hS : S ≤ 10 * n) (hN0 : 0 ≤ N) (hN : N ≤ 10 * w)
    (hP1 : K * u ≤ 0.0045 → P1 ≤ 1 + 1.005 * (K * u)) (hP2 : D * u ≤ 0.0045 → P2 ≤ 1 + 1.005 * (D * u)) (hP10 : 1 ≤ P1)
    (hP20 : 1 ≤ P2) (hm : (n + 1) * u ≤ 0.0045 → m ≤ 1 + 1.005 * ((n + 1) * u)) (hm0 : 0 ≤ m) :
    n * u ≤ 0.0045 ∧ P1 * (2 * max S 1 + n * η) ≤ Ω ∧ B * (w * (P2 * (max N 1 + U * η * w))) ≤ Ω ∧
    m * (n * ((P1 * (2 * S + n * η) - 2 * S) + (P2 * (N + U * η * w) - N))) ≤ 0.092 * n ∧ 0.092 * n ≤ Ω := by
  have hKu0 : 0 ≤ K * u := mul_nonneg (by linarith) hu.le
  have hDu0 : 0 ≤ D * u := mul_nonneg hD hu.le
  have hnK : 0 ≤ n * (K * u) := mul_nonneg (by linarith) hKu0
  have hqD : 0 ≤ q * (D * u) := mul_nonneg (by linarith) hDu0
  have hc' : 20 * (n * (K * u)) + 10 * (q * (D * u)) ≤ 0.09 := by
    have : (20 * n * K + 10 * q * D) * u = 20 * (n * (K * u)) + 10 * (q * (D * u)) := by ring
    rwa [this] at hc
  have hKu : K * u ≤ 0.0045 := by
    have : K * u ≤ n * (K * u) := le_mul_of_one_le_left hKu0 hn
    norm_num at hc' ⊢
    linarith
  have hDu : D * u ≤ 0.0045 := by
    have : 2 * (D * u) ≤ q * (D * u) := mul_le_mul_of_nonneg_right hq hDu0
    norm_num at hc' ⊢
    linarith
  have hn1u : (n + 1) * u ≤ 0.0045 := le_trans (mul_le_mul_of_nonneg_right (by linarith) hu.le) hKu
  have hnu : n * u ≤ 0.0045 := le_trans (mul_le_mul_of_nonneg_right (by linarith) hu.le) hKu
  have p1 := hP1 hKu
  have p2 := hP2 hDu
  have pm := hm hn1u
  have hnη : n * η ≤ 1 / 10 ^ 6 := by
    have h1 := mul_le_mul_of_nonneg_left hη (by linarith : 0 ≤ n)
    norm_num at h1 hnu ⊢
    linarith
  have hnη0 : 0 ≤ n * η := mul_nonneg (by linarith) hη0
  have hUη0 : 0 ≤ U * η * w := mul_nonneg (mul_nonneg hU0 hη0) (by linarith)
  have hUη : U * η * w ≤ 1 / 10 ^ 6 := by
    have h1 : U * η * w ≤ D * η * q := by gcongr
    have h2 := mul_le_mul_of_nonneg_left hη (mul_nonneg hD (by linarith : 0 ≤ q))
    norm_num at h2 hc' ⊢
    nlinarith
  have big : ∀ z, z * u ^ 2 ≤ 2 ^ 60 → z ≤ Ω := fun z hz => by
    have : z * u ^ 2 ≤ Ω * u ^ 2 := hz.trans hΩ
    exact le_of_mul_le_mul_right this (by positivity)
  have hu2 : u ≤ 1 := hu24.trans (by norm_num)
  have nb : ∀ c, 0 ≤ c → c ≤ 100 → c * n ≤ Ω := fun c hc0 hc1 => big _ (by
    have e : c * n * u ^ 2 = c * (n * u) * u := by ring
    rw [e]
    have h1 : c * (n * u) * u ≤ 100 * 0.0045 * 1 := by
      have : 0 ≤ n * u := mul_nonneg (by linarith) hu.le
      gcongr
    norm_num at h1 ⊢
    linarith)
  norm_num at hc' hKu hDu hn1u hnu p1 p2 pm hnη hUη
  refine ⟨by norm_num; linarith, ?_, ?_, ?_, nb _ (by norm_num) (by norm_num)⟩
  · refine le_trans ?_ (nb 22 (by norm_num) (by norm_num))
    have h1 : max S 1 ≤ 10 * n := max_le hS (by linarith)
    have h0 : 0 ≤ max S 1 := le_max_of_le_left hS0
    have : P1 * (2 * max S 1 + n * η) ≤ 1.01 * (20 * n + 1 / 1000000) := by
      refine mul_le_mul ?_ (by linarith) (by linarith) (by norm_num)
      norm_num
      linarith
    norm_num at this
    linarith
  · have h1 : max N 1 ≤ 10 * w := max_le hN (by linarith)
    have h0 : 0 ≤ max N 1 := le_max_of_le_left hN0
    have hP : P2 ≤ 1.01 := by norm_num; linarith
    have h2 : B * (w * (P2 * (max N 1 + U * η * w))) ≤ (D + 7) * (w * (1.01 * (11 * w))) := by
      have : max N 1 + U * η * w ≤ 11 * w := by linarith
      gcongr
    refine h2.trans (big _ ?_)
    have e : (D + 7) * (w * (1.01 * (11 * w))) * u ^ 2 = 11.11 * ((D * u + 7 * u) * (n * u)) := by
      rw [← hww]; ring
    rw [e]
    have h3 : (D * u + 7 * u) * (n * u) ≤ 1 * 1 := by
      refine mul_le_mul ?_ ?_ (mul_nonneg (by linarith) hu.le) (by norm_num)
      · norm_num at hu24; linarith
      · linarith
    norm_num
    linarith
  · have a1 : P1 * (2 * S + n * η) - 2 * S ≤ 1.005 * (20 * (n * (K * u))) + 1 / 100000 := by
      have e1 : (P1 - 1) * (2 * S) ≤ (1.005 * (K * u)) * (20 * n) := by
        refine mul_le_mul (by norm_num; linarith) (by linarith) (by linarith) (by positivity)
      have e2 : P1 * (n * η) ≤ 2 * (1 / 1000000) := mul_le_mul (by linarith) hnη hnη0 (by norm_num)
      have e3 : 1.005 * (K * u) * (20 * n) = 1.005 * (20 * (n * (K * u))) := by ring
      rw [e3] at e1
      norm_num at e1 ⊢
      linarith
    have a2 : P2 * (N + U * η * w) - N ≤ 1.005 * (10 * (q * (D * u))) + 1 / 100000 := by
      have e1 : (P2 - 1) * N ≤ (1.005 * (D * u)) * (10 * q) := by
        refine mul_le_mul (by norm_num; linarith) (by linarith) hN0 (by positivity)
      have e2 : P2 * (U * η * w) ≤ 2 * (1 / 1000000) := mul_le_mul (by linarith) hUη hUη0 (by norm_num)
      have e3 : 1.005 * (D * u) * (10 * q) = 1.005 * (10 * (q * (D * u))) := by ring
      rw [e3] at e1
      norm_num at e1 ⊢
      linarith
    have a3 : (P1 * (2 * S + n * η) - 2 * S) + (P2 * (N + U * η * w) - N) ≤ 0.0906 := by
      norm_num at a1 a2 ⊢
      linarith
    have a4 : m ≤ 1.005 := by norm_num; linarith
    calc m * (n * ((P1 * (2 * S + n * η) - 2 * S) + (P2 * (N + U * η * w) - N)))
        ≤ m * (n * 0.0906) := by gcongr
      _ ≤ 1.005 * (n * 0.0906) := by gcongr
      _ ≤ 0.092 * n := by norm_num; linarith

variable [MathLib] {F : Fmt} {u η Ω : ℝ} {t s : ℕ}

theorem check_float (hm : FloatModel (T := Flt F) Flt.fin Flt.val u η Ω t s) (hu : 2⁻¹ ^ 53 ≤ u) (hu24 : u ≤ 1 / 10 ^ 7)
    (hη : η * 2 ^ 40 ≤ u) (hΩ : 2 ^ 60 ≤ Ω * u ^ 2) (p : Plan) (hr : p.SmallRadix4) (d : Dht (Flt F))
    (hd : p.build (Flt F) = .ok d) (hpos : 0 < d.len)
    (hc : (20 * d.len * (d.len + t + 3) + 10 * (Nat.sqrt d.len + 1) * (p.stability t s).depth : ℕ) * u ≤ 0.09)
    (signal : List (Flt F)) (hs : signal.length = d.len) (hx : ∀ a ∈ signal, a.fin ∧ |a.val| ≤ 10) :
    checkDhtAlgorithm signal d d.len = .ok () := by
  have hu0 : 0 < u := lt_of_lt_of_le (by positivity) hu
  obtain ⟨f, hf, h1⟩ := C46_plan_dht p hr hm d hd
  obtain ⟨g, hg, h2⟩ := C35_naive_rounding hm d.len
  have hl : (dhtNaive (Flt F) d.len).len = d.len := dhtNaive_len _
  obtain ⟨hU, hB⟩ := stability_le t s p
  generalize hab : p.stability t s = ab at *
  generalize hnn : d.len = n at *
  have hS0 : 0 ≤ (signal.map fun a => |a.val|).sum := List.sum_nonneg (by simp)
  have hS : (signal.map fun a => |a.val|).sum ≤ 10 * n := by
    have := List.sum_le_card_nsmul (signal.map fun a => |a.val|) 10 (by
      intro b hb
      obtain ⟨a, ha, rfl⟩ := List.mem_map.1 hb
      exact (hx a ha).2)
    rw [List.length_map, hs, nsmul_eq_mul] at this
    linarith
  have hN0 : 0 ≤ norm2 (signal.map Flt.val) := Real.sqrt_nonneg _
  have hN : norm2 (signal.map Flt.val) ≤ 10 * √n := by
    rw [norm2_eq (n := n) (by simp [hs])]
    have := nrm_mono (n := n) (f := nth (signal.map Flt.val)) (g := fun _ => 10) (fun i hi => by
      rw [hm.nth_map, nth_eq_getElem (by omega)]
      exact (hx _ (List.getElem_mem _)).2)
    rw [nrm_const n (by norm_num)] at this
    linarith
  have hn1 : (1 : ℝ) ≤ n := by exact_mod_cast hpos
  have hw1 : 1 ≤ √(n : ℝ) := by rw [← Real.sqrt_one]; exact Real.sqrt_le_sqrt hn1
  have hww : √(n : ℝ) * √n = n := Real.mul_self_sqrt (Nat.cast_nonneg n)
  have hwq : √(n : ℝ) ≤ (Nat.sqrt n + 1 : ℕ) := by
    rw [Real.sqrt_le_iff]
    refine ⟨Nat.cast_nonneg _, ?_⟩
    have := (Nat.lt_succ_sqrt' n).le
    exact_mod_cast this
  have hq2 : (2 : ℝ) ≤ (Nat.sqrt n + 1 : ℕ) := by
    have : 0 < Nat.sqrt n := Nat.sqrt_pos.2 hpos
    exact_mod_cast (by omega : 2 ≤ Nat.sqrt n + 1)
  obtain ⟨k0, k1, k2, k3, k4⟩ := check_estimates (n := n) (w := √n) (q := (Nat.sqrt n + 1 : ℕ)) (K := (n + t + 3 : ℕ))
    (D := ab.depth) (U := ab.under) (B := ab.big) (u := u) (η := η) (S := (signal.map fun a => |a.val|).sum)
    (N := norm2 (signal.map Flt.val)) (P1 := (1 + u) ^ (n + t + 3)) (P2 := (1 + u) ^ ab.depth) (Ω := Ω)
    (m := (1 + u) ^ (n + 1)) hn1 hw1 hww hwq hq2 (by push_cast; linarith [Nat.cast_nonneg (α := ℝ) t]) (Nat.cast_nonneg _)
    (Nat.cast_nonneg _) (by exact_mod_cast hU) (Nat.cast_nonneg _) (by exact_mod_cast hB) hu0 hu24 hm.η_nonneg hη hΩ
    (by push_cast at hc ⊢; exact hc) hS0 hS hN0 hN (fun h => pow_small hu0.le h) (fun h => pow_small hu0.le h)
    (one_le_pow₀ (by linarith)) (one_le_pow₀ (by linarith))
    (fun h => by have := pow_small hu0.le (K := n + 1) (by push_cast; exact h); push_cast at this; exact this) (by positivity)
  obtain ⟨f1, f2⟩ := h1 signal hs (fun a ha => (hx a ha).1) _ rfl _ rfl k2
  have g1 := h2 signal hs (fun a ha => (hx a ha).1) _ rfl k1
  obtain ⟨r, c, r1, r0, r2⟩ := hm.compare_near (hu24.trans (by norm_num)) Flt.abs_spec (n := n) (x := g signal) (y := f signal)
    (z := dht (signal.map Flt.val)) (by rw [hg.length _ (by rw [hs, hl]), hl]) (by rw [hf.length _ (by rw [hs, hnn]), hnn])
    (by simp [dht, hs]) (fun k hk => (g1 k hk).1) f1 (fun k hk => (g1 k hk).2) f2 (k3.trans k4)
  have hn60 : n ≤ 2 ^ 60 := by
    have h3 : (n : ℝ) * 2⁻¹ ^ 53 ≤ 1 := (mul_le_mul_of_nonneg_left hu (by positivity)).trans (k0.trans (by norm_num))
    have h4 : (n : ℝ) ≤ 2 ^ 53 := by
      rw [inv_pow, ← div_eq_mul_inv, div_le_one (by positivity)] at h3; exact h3
    have h5 : n ≤ 2 ^ 53 := by exact_mod_cast h4
    exact h5.trans (Nat.pow_le_pow_right (by norm_num) (by norm_num))
  rw [Flt.meanBelow_of r1 hpos hn60 r0 (r2.trans k3)] at c
  subst hnn
  exact check_of_compare hf hg hpos hs c

end RustDHT
