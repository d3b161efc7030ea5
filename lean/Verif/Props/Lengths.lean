import Verif.Proofs.Lengths
import Verif.Props.Exact
import Verif.Props.Circuit
import Mathlib.Analysis.Complex.ExponentialBounds

/-! # C66: which lengths can be had, and with what -/

namespace RustDHT

/-- Every length with prime factors below `2^32`, out of `Butterfly1`, `Butterfly2`, `MixedRadix` and `RadersAlgorithm`. -/
theorem compose_any (n : ℕ) (h0 : 0 < n) (h : ∀ q, q.Prime → q ∣ n → q < 2 ^ 32) : ∃ p : Plan, p.NoNaive ∧ p.NoRadix4 ∧ p.Builds n := by
  have key : ∀ q : ℕ, q.Prime → q < 2 ^ 32 → ∃ p : Plan, (p.NoNaive ∧ p.NoRadix4) ∧ p.Builds q := by
    intro q
    induction q using Nat.strong_induction_on with
    | _ q ih =>
      intro hq hl
      have hq2 := hq.two_le
      rcases Nat.lt_or_ge 2 q with h3 | h3
      · obtain ⟨i, i1, i2⟩ := compose (P := fun p => p.NoNaive ∧ p.NoRadix4) ⟨trivial, trivial⟩
          (fun _ _ _ _ _ _ _ _ a b => ⟨⟨a.1, b.1⟩, a.2, b.2⟩) (q - 1) (by omega) fun r hr hd =>
            ih r (by have := Nat.le_of_dvd (by omega) hd; omega) hr (by have := Nat.le_of_dvd (by omega) hd; omega)
        have e : q - 1 + 1 = q := by omega
        have := i2.rad (by rwa [e]) (by omega) (by omega)
        exact ⟨.raders i, i1, by rwa [e] at this⟩
      · obtain rfl : q = 2 := by omega
        exact ⟨.b2, ⟨trivial, trivial⟩, fun T _ _ _ _ _ _ => ⟨butterfly2 T, rfl, rfl⟩⟩
  obtain ⟨p, p1, p2⟩ := compose (P := fun p => p.NoNaive ∧ p.NoRadix4) ⟨trivial, trivial⟩
    (fun _ _ _ _ _ _ _ _ a b => ⟨⟨a.1, b.1⟩, a.2, b.2⟩) n h0 fun q hq hd => key q hq (h q hq hd)
  exact ⟨p, p1.1, p1.2, p2⟩

section
variable (T : Type) [Add T] [Sub T] [Mul T] [Neg T] [Zero T] [FftNum T]

/-- Without `DhtNaive` exactly the lengths can be composed whose prime factors are below `2^32`. -/
theorem C66_without_naive (n : ℕ) :
    (∃ p : Plan, p.NoNaive ∧ ∃ d : Dht T, p.build T = .ok d ∧ d.len = n) ↔ 0 < n ∧ ∀ q, q.Prime → q ∣ n → q < 2 ^ 32 := by
  constructor
  · rintro ⟨p, hp, d, e, rfl⟩
    have := plan_factors (b := 2 ^ 32 - 1) (by norm_num) p hp (.inr (by norm_num)) d e
    rw [plan_len p d e]
    exact ⟨this.1, fun q hq hd => by have := this.2 q hq hd; omega⟩
  · rintro ⟨h0, h⟩
    obtain ⟨p, p1, -, p2⟩ := compose_any n h0 h
    exact ⟨p, p1, p2 T⟩

/-- Without `DhtNaive` and `RadersAlgorithm` exactly the lengths `2^a * 3^b * 5^c` can be composed. -/
theorem C66_without_raders (n : ℕ) :
    (∃ p : Plan, p.NoNaive ∧ p.NoRaders ∧ ∃ d : Dht T, p.build T = .ok d ∧ d.len = n) ↔
      0 < n ∧ ∀ q, q.Prime → q ∣ n → q = 2 ∨ q = 3 ∨ q = 5 := by
  constructor
  · rintro ⟨p, hp, hr, d, e, rfl⟩
    have := plan_factors (b := 5) le_rfl p hp (.inl hr) d e
    rw [plan_len p d e]
    refine ⟨this.1, fun q hq hd => ?_⟩
    have h5 := this.2 q hq hd
    have := hq.two_le
    have : q ≠ 4 := by rintro rfl; norm_num at hq
    omega
  · rintro ⟨h0, h⟩
    obtain ⟨p, p1, p2⟩ := compose (P := fun p => p.NoNaive ∧ p.NoRaders) ⟨trivial, trivial⟩
      (fun _ _ _ _ _ _ _ _ a b => ⟨⟨a.1, b.1⟩, a.2, b.2⟩) n h0 fun q hq hd => by
        rcases h q hq hd with rfl | rfl | rfl
        · exact ⟨.b2, ⟨trivial, trivial⟩, fun T _ _ _ _ _ _ => ⟨butterfly2 T, rfl, rfl⟩⟩
        · exact ⟨.b3, ⟨trivial, trivial⟩, fun T _ _ _ _ _ _ => ⟨butterfly3 T, rfl, rfl⟩⟩
        · exact ⟨.b5, ⟨trivial, trivial⟩, fun T _ _ _ _ _ _ => ⟨butterfly5 T, rfl, rfl⟩⟩
    exact ⟨p, p1.1, p1.2, p2 T⟩

end

theorem noRadix4_small (p : Plan) : p.NoRadix4 → p.SmallRadix4 := by
  induction p with
  | mixedRadix w h ihw ihh | splitRadix w h ihw ihh => exact fun h => ⟨ihw h.1, ihh h.2⟩
  | mr2 h ih | mr3 h ih | mr4 h ih | mr5 h ih | mr6 h ih | raders h ih => exact ih
  | radix4 n => intro h; cases h
  | _ => exact fun _ => trivial

/-- Every length whose prime factors are at most `L` has a composition that computes the DHT with at most `(2L + 8) n log₂ n`
operations. -/
theorem C66_fast (L n : ℕ) (h2 : 2 ≤ n) (h : ∀ q, q.Prime → q ∣ n → q ≤ L) :
    ∃ p : Plan, p.Fast L ∧ p.NoRaders ∧ p.NoRadix4 ∧
      (∃ d : Dht ℝ, p.build ℝ = .ok d ∧ d.len = n ∧ ComputesDht d ∧ ProcessesDht d) ∧
      ∃ c : Dht (Circ ℝ), p.build (Circ ℝ) = .ok c ∧ c.len = n ∧ ∃ y, c.process (Circ.buffer ℝ n) = .ok y ∧
        ∃ N : ℕ, Circ.Size y N ∧ (N : ℝ) ≤ (2 * L + 8) * n * Real.logb 2 n := by
  obtain ⟨p, ⟨p1, p2, p3⟩, hb⟩ := compose (P := fun p => p.Fast L ∧ p.NoRaders ∧ p.NoRadix4) ⟨trivial, trivial, trivial⟩
    (fun w h m n hm hn hw hh a b => ⟨⟨a.1, b.1, by rwa [hw.expectedLen ℝ], by rwa [hh.expectedLen ℝ]⟩, ⟨a.2.1, b.2.1⟩, a.2.2, b.2.2⟩)
    n (by omega) fun q hq hd =>
      ⟨.naive q, ⟨h q hq hd, trivial, trivial⟩, fun T _ _ _ _ _ _ => ⟨dhtNaive T q, rfl, dhtNaive_len q⟩⟩
  refine ⟨p, p1, p2, p3, ?_, ?_⟩
  · obtain ⟨d, e, l⟩ := hb ℝ
    exact ⟨d, e, l, C12_plan_dht p (noRadix4_small p p3) d e⟩
  · obtain ⟨c, e, l⟩ := hb (Circ ℝ)
    obtain ⟨f, hf⟩ := (plan_ok p c e).implements
    have hl : (Circ.buffer ℝ n).length = c.len := by simp [Circ.buffer, l]
    have hy := hf.process (b := Circ.buffer ℝ n) hl.ge hl.symm.dvd
    refine ⟨c, e, l, _, hy, ?_⟩
    have := C65_fast L p p1 c e (by omega) _ ((congrArg (fun k => c.process (Circ.buffer ℝ k)) l).trans hy)
    obtain ⟨N, hN, hb⟩ := this
    rw [l] at hb
    exact ⟨N, hN, hb⟩

/-- So it has fewer operations than `DhtNaive`, unless the length is short in comparison with its prime factors. -/
theorem C66_faster (L n : ℕ) (h2 : 2 ≤ n) (h : ∀ q, q.Prime → q ∣ n → q ≤ L) (hn : (2 * L + 8) * Real.logb 2 n < n - 1) :
    ∃ p : Plan, (∃ d : Dht ℝ, p.build ℝ = .ok d ∧ d.len = n ∧ ComputesDht d ∧ ProcessesDht d) ∧
      ∃ c : Dht (Circ ℝ), p.build (Circ ℝ) = .ok c ∧ ∃ y, c.process (Circ.buffer ℝ n) = .ok y ∧ ∃ N : ℕ, Circ.Size y N ∧
        ∀ y' N', (dhtNaive (Circ ℝ) n).process (Circ.buffer ℝ n) = .ok y' → Circ.Size y' N' → N < N' := by
  obtain ⟨p, -, -, -, hd, c, e, -, y, hy, N, hN, hb⟩ := C66_fast L n h2 h
  refine ⟨p, hd, c, e, y, hy, N, hN, fun y' N' hy' hN' => ?_⟩
  have h1 := C65_naive_quadratic n (by omega) y' hy' N' hN'
  have h0 : (0 : ℝ) < n := by positivity
  have h3 : (N : ℝ) < n * (n - 1) := by
    refine hb.trans_lt ?_
    rw [show (2 * L + 8) * n * Real.logb 2 n = n * ((2 * L + 8) * Real.logb 2 n) by ring]
    exact mul_lt_mul_of_pos_left hn h0
  have h4 : ((n * (n - 1) : ℕ) : ℝ) = n * (n - 1) := by
    push_cast [Nat.cast_sub (show 1 ≤ n by omega)]
    ring
  rw [← h4] at h3
  exact (Nat.cast_lt.1 h3).trans_le h1

/-- For the lengths `2^a * 3^b * 5^c` that is so from 128 on. -/
theorem C66_faster_from_128 (n : ℕ) (hn : 128 ≤ n) (h : ∀ q, q.Prime → q ∣ n → q = 2 ∨ q = 3 ∨ q = 5) :
    ∃ p : Plan, (∃ d : Dht ℝ, p.build ℝ = .ok d ∧ d.len = n ∧ ComputesDht d ∧ ProcessesDht d) ∧
      ∃ c : Dht (Circ ℝ), p.build (Circ ℝ) = .ok c ∧ ∃ y, c.process (Circ.buffer ℝ n) = .ok y ∧ ∃ N : ℕ, Circ.Size y N ∧
        ∀ y' N', (dhtNaive (Circ ℝ) n).process (Circ.buffer ℝ n) = .ok y' → Circ.Size y' N' → N < N' := by
  refine C66_faster 5 n (by omega) (fun q hq hd => by have := h q hq hd; omega) ?_
  have hr : (128 : ℝ) ≤ n := by exact_mod_cast hn
  have hl := Real.log_two_gt_d9
  have h1 : Real.log n = 7 * Real.log 2 + Real.log (n / 128) := by
    rw [Real.log_div (by positivity) (by norm_num), show (128 : ℝ) = 2 ^ 7 by norm_num, Real.log_pow]
    push_cast
    ring
  have h2 := Real.log_le_sub_one_of_pos (show (0 : ℝ) < n / 128 by positivity)
  rw [Real.logb, h1, add_div, mul_div_assoc, div_self (by positivity)]
  have h3 : Real.log (n / 128) / Real.log 2 ≤ 2 * (n / 128 - 1) := by
    rw [div_le_iff₀ (by positivity)]
    have : (0 : ℝ) ≤ n / 128 - 1 := by linarith
    nlinarith
  push_cast
  linarith

/-- And every length below `2^32` is composed without `DhtNaive` so that the DHT is computed. -/
theorem C66_any (n : ℕ) (h0 : 0 < n) (h : n < 2 ^ 32) :
    ∃ p : Plan, p.NoNaive ∧ ∃ d : Dht ℝ, p.build ℝ = .ok d ∧ d.len = n ∧ ComputesDht d ∧ ProcessesDht d := by
  obtain ⟨p, p1, p2, p3⟩ := compose_any n h0 fun _ _ hd => (Nat.le_of_dvd h0 hd).trans_lt h
  obtain ⟨d, e, l⟩ := p3 ℝ
  exact ⟨p, p1, d, e, l, C12_plan_dht p (noRadix4_small p p2) d e⟩

/-! ## Instances -/

/-- 1009 is prime, 1008 = 2^4 * 3^2 * 7: so without `RadersAlgorithm` neither is within reach. -/
example : (∃ p : Plan, p.NoNaive ∧ ∃ d : Dht ℝ, p.build ℝ = .ok d ∧ d.len = 1009) ∧
    (¬ ∃ p : Plan, p.NoNaive ∧ p.NoRaders ∧ ∃ d : Dht ℝ, p.build ℝ = .ok d ∧ d.len = 1008) ∧
    ∃ p : Plan, p.NoNaive ∧ p.NoRaders ∧ ∃ d : Dht ℝ, p.build ℝ = .ok d ∧ d.len = 30 := by
  refine ⟨?_, ?_, ?_⟩
  · obtain ⟨p, h, d, e, l, -⟩ := C66_any 1009 (by norm_num) (by norm_num)
    exact ⟨p, h, d, e, l⟩
  · rw [C66_without_raders]
    intro h
    have := h.2 7 (by norm_num) (by norm_num)
    omega
  · exact ⟨.mr6 .b5, trivial, trivial, _, rfl, rfl⟩

/-- A prime above `2^32` cannot be composed without `DhtNaive`, and there are such primes. -/
example : ∃ n, 2 ^ 32 ≤ n ∧ n.Prime ∧ ¬ ∃ p : Plan, p.NoNaive ∧ ∃ d : Dht ℝ, p.build ℝ = .ok d ∧ d.len = n := by
  obtain ⟨n, h1, h2⟩ := Nat.exists_infinite_primes (2 ^ 32)
  refine ⟨n, h1, h2, ?_⟩
  rw [C66_without_naive]
  intro h
  have := h.2 n h2 dvd_rfl
  omega

/-- The hypothesis of `C66_fast` for 1008 and `L = 7`. -/
example : ∃ p : Plan, p.Fast 7 ∧ p.NoRaders ∧ ∃ d : Dht ℝ, p.build ℝ = .ok d ∧ d.len = 1008 := by
  obtain ⟨p, h1, h2, -, ⟨d, e, l, -⟩, -⟩ := C66_fast 7 1008 (by norm_num) (fun q hq hd => by
    have : q ∣ 2 ^ 4 * (3 ^ 2 * 7) := by norm_num; exact hd
    rcases hq.dvd_mul.1 this with h | h
    · have := Nat.le_of_dvd (by norm_num) (hq.dvd_of_dvd_pow h); omega
    · rcases hq.dvd_mul.1 h with h | h
      · have := Nat.le_of_dvd (by norm_num) (hq.dvd_of_dvd_pow h); omega
      · exact Nat.le_of_dvd (by norm_num) h)
  exact ⟨p, h1, h2, d, e, l⟩

/-- The hypothesis of `C66_faster_from_128`. -/
example : ∃ p : Plan, ∃ d : Dht ℝ, p.build ℝ = .ok d ∧ d.len = 128 ∧ ComputesDht d := by
  obtain ⟨p, ⟨d, e, l, h, -⟩, -⟩ := C66_faster_from_128 128 le_rfl fun q hq hd =>
    .inl ((Nat.prime_dvd_prime_iff_eq hq Nat.prime_two).1 (hq.dvd_of_dvd_pow (show q ∣ 2 ^ 7 from hd)))
  exact ⟨p, d, e, l, h⟩

end RustDHT
