import Verif.Proofs.Modest
import Verif.Props.Circuit

/-! # C92: no circuit with small factors needs much less

A lower bound for the number of operations, for all circuits whose factors are at most 2 in absolute value, and what it says
about the compositions of the crate. -/

set_option linter.unusedSectionVars false

namespace RustDHT

open Circ

/-- Whatever the circuit, if it computes the transform of length `n` with factors of absolute value at most 2, it has at
least `n/2 log₂ n` operations. -/
theorem C92_lower (n : ℕ) (y : List (Circ ℝ)) (hm : ∀ t ∈ y, t.Modest n) (hc : Computes n y) (N : ℕ) (hN : Size y N) :
    (n : ℝ) / 2 * Real.logb 2 n ≤ N := by
  have h := size_of_computes hm hc hN
  rcases Nat.eq_zero_or_pos n with rfl | hn
  · simp
  have hn' : (0 : ℝ) < n := by exact_mod_cast hn
  have h2 := Real.logb_le_logb_of_le (b := 2) (by norm_num) (by positivity) h
  rw [Real.logb_pow, Real.logb_pow, show (4 : ℝ) = 2 ^ (2 : ℕ) by norm_num, Real.logb_pow, Real.logb_self_eq_one (by norm_num)] at h2
  push_cast at h2
  linarith

/-- The factors in the circuit of a composition are at most 2, also those that `RadersAlgorithm::new` computes, however
many chunks the buffer has. -/
theorem C92_factors (p : Plan) (hr : p.SmallRadix4) (c : Dht (Circ ℝ)) (hc : p.build (Circ ℝ) = .ok c) (n : ℕ) (y : List (Circ ℝ))
    (hy : c.process (buffer ℝ n) = .ok y) : ∀ t ∈ y, t.Modest n := plan_modest p hr c hc n y hy

/-- The circuit of a composition computes the transform. -/
theorem C92_computes (p : Plan) (hr : p.SmallRadix4) (c : Dht (Circ ℝ)) (hc : p.build (Circ ℝ) = .ok c) (y : List (Circ ℝ))
    (hy : c.process (buffer ℝ c.len) = .ok y) : Computes c.len y := by
  intro x
  have hbr : ResRel _ (p.build (Circ ℝ)) (p.build ℝ) := plan_rel p (eval_respects fun _ => 0)
  obtain ⟨d, hd⟩ : ∃ d, p.build ℝ = .ok d := by
    rcases e : p.build ℝ with er | d
    · rw [hc, e] at hbr; cases hbr
    · exact ⟨d, rfl⟩
  obtain ⟨c', hc', hl, hv⟩ := C65_circuit p d hd
  rw [hc] at hc'
  cases hc'
  have h1 := hv c.len x
  rw [hy, process_single (plan_dht p hr d hd) (by simp [hl])] at h1
  exact (Except.ok.inj h1).symm

/-- So no composition has fewer than `n/2 log₂ n` operations. -/
theorem C92_plan (p : Plan) (hr : p.SmallRadix4) (c : Dht (Circ ℝ)) (hc : p.build (Circ ℝ) = .ok c) (y : List (Circ ℝ))
    (hy : c.process (buffer ℝ c.len) = .ok y) (N : ℕ) (hN : Size y N) : (c.len : ℝ) / 2 * Real.logb 2 c.len ≤ N :=
  C92_lower _ y (plan_modest p hr c hc _ y hy) (C92_computes p hr c hc y hy) N hN

/-- A composition without `RadersAlgorithm` and without long `DhtNaive` has at most `4L + 16` times as many operations as any
circuit with small factors for the same length. -/
theorem C92_optimal (L : ℕ) (p : Plan) (hp : p.Fast L) (c : Dht (Circ ℝ)) (hc : p.build (Circ ℝ) = .ok c) (h2 : 2 ≤ c.len)
    (y : List (Circ ℝ)) (hy : c.process (buffer ℝ c.len) = .ok y)
    (z : List (Circ ℝ)) (hm : ∀ t ∈ z, t.Modest c.len) (hz : Computes c.len z) (M : ℕ) (hM : Size z M) :
    ∃ N : ℕ, Size y N ∧ N ≤ (4 * L + 16) * M := by
  obtain ⟨N, h1, h3⟩ := C65_fast L p hp c hc h2 y hy
  refine ⟨N, h1, ?_⟩
  have h4 := mul_le_mul_of_nonneg_left (C92_lower _ z hm hz M hM) (show (0 : ℝ) ≤ 4 * L + 16 by positivity)
  have : (N : ℝ) ≤ (4 * L + 16) * M := by
    refine h3.trans (le_trans (le_of_eq ?_) h4)
    ring
  exact_mod_cast this

/-- `RadersAlgorithm`, for a prime length, around such a composition: at most `8L + 32` times as many. -/
theorem C92_optimal_prime (L : ℕ) (i : Plan) (hp : i.Fast L) (c : Dht (Circ ℝ)) (hc : (Plan.raders i).build (Circ ℝ) = .ok c)
    (y : List (Circ ℝ)) (hy : c.process (buffer ℝ c.len) = .ok y)
    (z : List (Circ ℝ)) (hm : ∀ t ∈ z, t.Modest c.len) (hz : Computes c.len z) (M : ℕ) (hM : Size z M) :
    ∃ N : ℕ, Size y N ∧ N ≤ (8 * L + 32) * M := by
  obtain ⟨N, h1, h3⟩ := C65_prime L i hp c hc y hy
  refine ⟨N, h1, ?_⟩
  have h4 := mul_le_mul_of_nonneg_left (C92_lower _ z hm hz M hM) (show (0 : ℝ) ≤ 8 * L + 32 by positivity)
  have : (N : ℝ) ≤ (8 * L + 32) * M := by
    refine h3.trans (le_trans (le_of_eq ?_) h4)
    ring
  exact_mod_cast this

/-! ## Instances -/

/-- Length 1024: at least 5120 operations, whatever the circuit. -/
example (y : List (Circ ℝ)) (hm : ∀ t ∈ y, t.Modest 1024) (hc : Computes 1024 y) (N : ℕ) (hN : Size y N) : 5120 ≤ N := by
  have h := C92_lower 1024 y hm hc N hN
  rw [show ((1024 : ℕ) : ℝ) = 2 ^ (10 : ℕ) by norm_num, Real.logb_pow, Real.logb_self_eq_one (by norm_num)] at h
  have : (5120 : ℝ) ≤ N := by
    refine le_trans (le_of_eq ?_) h
    norm_num
  exact_mod_cast this

/-- The sum and the difference of two entries: a circuit as above for length 2. -/
example : (∀ t ∈ [Circ.add (.inp 0) (.inp 1), .sub (.inp 0) (.inp 1)], t.Modest 2) ∧
    Computes 2 [.add (.inp 0) (.inp 1), .sub (.inp 0) (.inp 1)] := by
  have e := (butterfly2_implements (T := Circ ℝ)).process (b := buffer ℝ 2) (by decide) (by decide)
  rw [show (butterfly2 (Circ ℝ)).len = 2 from rfl, mapChunks_single (by omega) (by decide)] at e
  exact ⟨C92_factors .b2 trivial _ rfl 2 _ e, C92_computes .b2 trivial (butterfly2 (Circ ℝ)) rfl _ e⟩

/-- The bound on the factors is needed and met: `2 x` has factor 2, `3 x` is out of bounds. -/
example : (Circ.mul (.num 2) (.inp 0)).Modest 1 ∧ ¬ (Circ.mul (.num 3) (.inp 0)).Modest 1 := by
  refine ⟨.cmul rfl (by simp [eval]) (.inp (by omega)), fun h => ?_⟩
  cases h with
  | cmul _ hb _ => norm_num [eval] at hb
  | mulc _ hu _ => cases hu

/-- A composition for length 64 and one for the prime 17, to which the bounds apply. -/
example : (Plan.mr4 .b16).SmallRadix4 ∧ (Plan.mr4 .b16).Fast 1 ∧ (Plan.raders .b16).SmallRadix4 ∧ Plan.b16.Fast 1 :=
  ⟨trivial, trivial, trivial, trivial⟩

end RustDHT
