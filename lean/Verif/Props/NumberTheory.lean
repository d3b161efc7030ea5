import Verif.Proofs.PrimitiveRoot
import Mathlib.Tactic.NormNum.Prime

/-! # C26: the number theory behind `RadersAlgorithm` -/

namespace RustDHT

/-- `primitive_root(p)` returns the least generator of the multiplicative group mod `p`: an element of order `p - 1`. -/
theorem C26_primitive_root (p : ℕ) (hp : p.Prime) (h2 : p ≠ 2) (h32 : p < 2 ^ 32) :
    ∃ g, primitiveRoot p = .ok (some g) ∧ IsLeast {g : ℕ | 0 < g ∧ orderOf (g : ZMod p) = p - 1} g ∧ g < p := by
  obtain ⟨g, e, h1, hlt, ho, hmin⟩ := primitiveRoot_ok hp h2 h32
  refine ⟨g, e, ⟨⟨by omega, ho⟩, fun h hh => ?_⟩, hlt⟩
  by_contra hc
  exact hmin h hh.1 (by omega) hh.2

/-- `distinct_prime_factors(n)` lists every prime factor of `n` once, in ascending order, although the bound of the trial
division is a square root rounded to `f32`.  The bound is sharp: `C26_distinct_prime_factors_fails`. -/
theorem C26_distinct_prime_factors (n : ℕ) (hn : 0 < n) (hB : n < 16777259 ^ 2) :
    ∃ l, distinctPrimeFactors n = .ok l ∧ (∀ q, q ∈ l ↔ q.Prime ∧ q ∣ n) ∧ l.Pairwise (· < ·) :=
  distinctPrimeFactors_ok hn hB

/-- The rounded root is too small for the square of 16777259, the least prime above `2^24`: the function lists the square
itself, which is not prime, and misses its prime factor. -/
theorem C26_distinct_prime_factors_fails :
    IsLeast {p : ℕ | p.Prime ∧ 2 ^ 24 < p} 16777259 ∧
      ∃ l, distinctPrimeFactors (16777259 ^ 2) = .ok l ∧ (∃ q ∈ l, ¬ q.Prime) ∧ 16777259 ∉ l := by
  refine ⟨⟨⟨prime_16777259, by norm_num⟩, fun p hp => ?_⟩, _, distinctPrimeFactors_wrong, ?_, by norm_num⟩
  · by_contra hc
    have := prime_gap hp.1 (by omega)
    exact absurd hp.2 (by omega)
  · exact ⟨_, List.mem_singleton_self _, Nat.Prime.not_prime_pow (le_refl 2)⟩

/-- `modular_exponent` is exponentiation mod `m`; no product overflows 64 bits. -/
theorem C26_modular_exponent (b e m : ℕ) (hm : m ≤ 2 ^ 32) (h1 : 1 < m) (hb : b < m) :
    modularExponent b e m = .ok (b ^ e % m) :=
  modularExponent_ok hm h1 hb

/-- The inverse of the root that the constructor computes with `extended_gcd`. -/
theorem C26_root_inverse (g p : ℕ) (hp : p.Prime) (h0 : 0 < g) (hg : g < p) :
    0 < rootInverse g p ∧ rootInverse g p < p ∧ g * rootInverse g p ≡ 1 [MOD p] := by
  obtain ⟨h1, h2, h3⟩ := rootInverse_ok hp h0 hg
  refine ⟨h1, h2, ?_⟩
  rw [← ZMod.natCast_eq_natCast_iff]
  push_cast
  exact h3

/-- Above `2^32` the products overflow 64 bits for every prime. -/
theorem C26_overflow (p : ℕ) (hp : p.Prime) (h32 : 2 ^ 32 < p) : ∃ k, primitiveRoot p = .error (.panic k) :=
  primitiveRoot_overflow hp h32

example : ∃ g, primitiveRoot 65537 = .ok (some g) ∧
    IsLeast {g : ℕ | 0 < g ∧ orderOf (g : ZMod 65537) = 65537 - 1} g ∧ g < 65537 :=
  C26_primitive_root 65537 (by norm_num) (by norm_num) (by norm_num)

/-- The largest prime below `2^32`. -/
example : ∃ l, distinctPrimeFactors (4294967291 - 1) = .ok l ∧ (∀ q, q ∈ l ↔ q.Prime ∧ q ∣ 4294967291 - 1) ∧
    l.Pairwise (· < ·) :=
  C26_distinct_prime_factors _ (by norm_num) (by norm_num)

end RustDHT
