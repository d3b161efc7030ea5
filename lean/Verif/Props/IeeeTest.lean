import Verif.Proofs.CheckPlan
import Verif.Proofs.Raders
import Verif.Props.Contract
import Verif.Props.Ieee

/-! # C49: the unit tests in `f32` and `f64` -/

namespace RustDHT

variable [MathLib]

/-- `check_dht_algorithm::<f32>` raises no false alarm, for any signal with entries of absolute value at most 10 and any
composition whose length and number of roundings are moderate. -/
theorem C49_check_f32 (hl : MathLib.Accurate) (p : Plan) (hr : p.SmallRadix4) (d : Dht (Flt binary32))
    (hd : p.build (Flt binary32) = .ok d) (hpos : 0 < d.len)
    (hc : 20 * d.len * (d.len + 5) + 10 * (Nat.sqrt d.len + 1) * (p.stability 2 2).depth ≤ 1500000)
    (signal : List (Flt binary32)) (hs : signal.length = d.len) (hx : ∀ a ∈ signal, a.fin ∧ |a.val| ≤ 10) :
    checkDhtAlgorithm signal d d.len = .ok () := by
  refine check_float (C48_f32 hl) (by norm_num) (by norm_num) (by norm_num) (by norm_num) p hr d hd hpos ?_ signal hs hx
  have : ((20 * d.len * (d.len + 2 + 3) + 10 * (Nat.sqrt d.len + 1) * (p.stability 2 2).depth : ℕ) : ℝ) ≤ 1500000 := by
    exact_mod_cast hc
  refine (mul_le_mul_of_nonneg_right this (by positivity)).trans (by norm_num)

/-- The same for `f64`, where the lengths can be much larger. -/
theorem C49_check_f64 (hl : MathLib.Accurate) (p : Plan) (hr : p.SmallRadix4) (d : Dht (Flt binary64))
    (hd : p.build (Flt binary64) = .ok d) (hpos : 0 < d.len)
    (hc : 20 * d.len * (d.len + 72) + 10 * (Nat.sqrt d.len + 1) * (p.stability 69 (2 ^ 29)).depth ≤ 800000000000000)
    (signal : List (Flt binary64)) (hs : signal.length = d.len) (hx : ∀ a ∈ signal, a.fin ∧ |a.val| ≤ 10) :
    checkDhtAlgorithm signal d d.len = .ok () := by
  refine check_float (C48_f64 hl) le_rfl (by norm_num) ?_ ?_ p hr d hd hpos ?_ signal hs hx
  · rw [show 1075 = 53 + 1022 from rfl, pow_add, mul_assoc]
    refine mul_le_of_le_one_right (by positivity) ?_
    rw [show 1022 = 40 + 982 from rfl, pow_add, mul_right_comm, ← mul_pow, inv_mul_cancel₀ two_ne_zero, one_pow, one_mul]
    exact pow_le_one₀ (by norm_num) (by norm_num)
  · rw [← pow_mul, show 1023 = 60 + (857 + 106) from rfl, pow_add, pow_add, mul_assoc, mul_assoc, ← mul_pow,
      mul_inv_cancel₀ two_ne_zero, one_pow, mul_one]
    exact le_mul_of_one_le_right (by positivity) (one_le_pow₀ (by norm_num))
  · have : ((20 * d.len * (d.len + 69 + 3) + 10 * (Nat.sqrt d.len + 1) * (p.stability 69 (2 ^ 29)).depth : ℕ) : ℝ)
        ≤ 800000000000000 := by exact_mod_cast hc
    refine (mul_le_mul_of_nonneg_right this (by positivity)).trans (by norm_num)

private theorem passes32 (hl : MathLib.Accurate) {p : Plan} {n : ℕ} (hr : p.SmallRadix4)
    (hb : ∃ d, p.build (Flt binary32) = .ok d) (hn : p.expectedLen = n) (hpos : 0 < n) (h120 : n ≤ 120)
    (hc : 20 * n * (n + 5) + 110 * (p.stability 2 2).depth ≤ 1500000) : PassesUnitTest binary32 p n := by
  obtain ⟨d, hd⟩ := hb
  have e : d.len = n := (plan_len p d hd).trans hn
  subst e
  refine ⟨d, hd, fun signal hs hx => C49_check_f32 hl p hr d hd hpos (le_trans ?_ hc) signal hs hx⟩
  have : Nat.sqrt d.len < 11 := Nat.sqrt_lt.2 (by omega)
  exact Nat.add_le_add_left (Nat.mul_le_mul_right _ (by omega)) _

private theorem passes64 (hl : MathLib.Accurate) {p : Plan} {n : ℕ} (hr : p.SmallRadix4)
    (hb : ∃ d, p.build (Flt binary64) = .ok d) (hn : p.expectedLen = n) (hpos : 0 < n) (h120 : n ≤ 120)
    (hc : 20 * n * (n + 72) + 110 * (p.stability 69 (2 ^ 29)).depth ≤ 800000000000000) : PassesUnitTest binary64 p n := by
  obtain ⟨d, hd⟩ := hb
  have e : d.len = n := (plan_len p d hd).trans hn
  subst e
  refine ⟨d, hd, fun signal hs hx => C49_check_f64 hl p hr d hd hpos (le_trans ?_ hc) signal hs hx⟩
  have : Nat.sqrt d.len < 11 := Nat.sqrt_lt.2 (by omega)
  exact Nat.add_le_add_left (Nat.mul_le_mul_right _ (by omega)) _

/-- Every unit test of the crate that calls `check_dht_algorithm::<f32>` passes, whatever signal of the documented range the
random number generator delivers. -/
theorem C49_unit_tests_f32 (hl : MathLib.Accurate) : ∀ t ∈ unitTests32, PassesUnitTest binary32 t.1 t.2 := by
  intro t ht
  simp only [unitTests32, List.mem_append, List.mem_map, List.mem_flatMap, List.mem_filter, List.mem_range'_1,
    decide_eq_true_eq] at ht
  rcases ht with (((((((((⟨h, ⟨h1, h2⟩, rfl⟩ | ⟨h, ⟨h1, h2⟩, rfl⟩) | ⟨h, ⟨h1, h2⟩, rfl⟩) | ⟨h, ⟨h1, h2⟩, rfl⟩) |
    ⟨h, ⟨h1, h2⟩, rfl⟩) | ⟨h, ⟨h1, h2⟩, rfl⟩) | ⟨h, ⟨h1, h2⟩, rfl⟩) | ⟨w, ⟨w1, w2⟩, h, ⟨h1, h2⟩, rfl⟩) | ⟨h, ⟨h1, h2⟩, rfl⟩) |
    ⟨h, ⟨⟨h1, h2⟩, hp⟩, rfl⟩) | ht
  iterate 5 interval_cases h <;> exact passes32 hl (by trivial) ⟨_, rfl⟩ rfl (by decide) (by decide) (by decide)
  · interval_cases h <;> exact passes32 hl (by trivial) ⟨_, rfl⟩ rfl (by decide) (by decide) (by decide)
  · interval_cases h <;>
      exact passes32 hl (by show _ ≤ 64; norm_num) ((C25_radix4_new _).1.2 ⟨_, rfl⟩) rfl (by decide) (by decide) (by decide)
  · interval_cases w <;> interval_cases h <;>
      exact passes32 hl ⟨trivial, trivial⟩ ⟨_, rfl⟩ rfl (by decide) (by decide) (by decide)
  · have hb : ∃ d, Plan.build (Flt binary32) (.splitRadix (.naive h) (.naive (h * 2))) = .ok d := by
      refine (C25_splitRadix_new (dhtNaive (Flt binary32) h) (dhtNaive _ (h * 2))).1.2 ?_
      rw [plan_len (T := Flt binary32) (.naive h) _ rfl, plan_len (T := Flt binary32) (.naive (h * 2)) _ rfl]
      exact Nat.mul_comm h 2
    interval_cases h <;> exact passes32 hl ⟨trivial, trivial⟩ hb rfl (by decide) (by decide) (by decide)
  · have e : h - 1 + 1 = h := by omega
    have hb : ∃ d, Plan.build (Flt binary32) (.raders (.naive (h - 1))) = .ok d := by
      have en : (dhtNaive (Flt binary32) (h - 1)).len + 1 = h := by
        rw [plan_len (T := Flt binary32) (.naive (h - 1)) _ rfl]
        exact e
      obtain ⟨f, hf⟩ := (plan_ok (T := Flt binary32) (.naive (h - 1)) _ rfl).implements
      refine (C25_raders_new_partial (dhtNaive (Flt binary32) (h - 1)) hf.accepts ?_).1.2 ?_ <;> rw [en]
      · omega
      · exact ⟨hp, by omega⟩
    refine passes32 hl trivial hb e (by omega) (show h ≤ 120 by omega) ?_
    have hs : Nat.sqrt (h - 1 + 1) + 1 ≤ 4 := by
      have : Nat.sqrt (h - 1 + 1) < 4 := Nat.sqrt_lt.2 (by omega)
      omega
    refine (Nat.add_le_add_left (Nat.mul_le_mul_left 110 (Nat.add_le_add_right (Nat.add_le_add_left
      (Nat.mul_le_mul_right _ (Nat.mul_le_mul_left 13 hs)) _) _)) _).trans ?_
    have h8 : h ≤ 7 := by
      by_contra hh
      interval_cases h
      · exact absurd hp (by norm_num)
      · exact absurd hp (by norm_num)
    clear hb hp hs e
    interval_cases h <;> decide
  · fin_cases ht <;> exact passes32 hl trivial ⟨_, rfl⟩ rfl (by decide) (by decide) (by decide)

/-- The same for the tests that call `check_dht_algorithm::<f64>`. -/
theorem C49_unit_tests_f64 (hl : MathLib.Accurate) : ∀ t ∈ unitTests64, PassesUnitTest binary64 t.1 t.2 := by
  intro t ht
  rw [unitTests64] at ht
  fin_cases ht <;> exact passes64 hl trivial ⟨_, rfl⟩ rfl (by decide) (by decide) (by decide)

/-- The hypotheses hold beyond the lengths of the unit tests: length 144. -/
example (hl : MathLib.Accurate) :
    checkDhtAlgorithm (List.replicate 144 (Flt.ofNat binary32 7)) (mixedRadix (butterfly16 _) (butterfly9 _)) 144 = .ok () := by
  have h7 : (Flt.ofNat binary32 7).fin ∧ |(Flt.ofNat binary32 7).val| ≤ 10 := by
    obtain ⟨h1, h2⟩ := Flt.ofNat_spec (F := binary32) (by decide) (by decide) 7
      (by show _ ≤ (2 : ℝ) ^ (127 : ℤ); norm_num)
    refine ⟨h1, ?_⟩
    have h3 : (2⁻¹ : ℝ) ^ binary32.prec * (7 : ℕ) ≤ 1 := by show (2⁻¹ : ℝ) ^ 24 * (7 : ℕ) ≤ 1; norm_num
    have := abs_le.1 (h2.trans h3)
    push_cast at this
    exact abs_le.2 ⟨by linarith [this.1], by linarith [this.2]⟩
  refine C49_check_f32 hl (.mixedRadix .b16 .b9) ⟨trivial, trivial⟩ (mixedRadix (butterfly16 _) (butterfly9 _)) rfl
    (show 0 < 144 by decide) ?_ _ (List.length_replicate ..) fun a ha => ?_
  · show 20 * 144 * (144 + 5) + 10 * (Nat.sqrt 144 + 1) * 890 ≤ 1500000
    rw [(Nat.eq_sqrt'.2 ⟨by norm_num, by norm_num⟩ : 12 = Nat.sqrt 144).symm]
    decide
  · rw [List.eq_of_mem_replicate ha]
    exact h7

end RustDHT
