import Verif.Proofs.MathUtilsAll

/-! # C89: `src/math_utils.rs` for all arguments -/

namespace RustDHT

/-- `modular_exponent` for a modulus up to `2^32`: it returns exactly if there is nothing to do, or if the modulus is not zero and
the base is below `2^32`; and what it returns is the power, except that the power of 0 is not reduced. -/
theorem C89_modular_exponent (b e m : ℕ) (hm : m ≤ 2 ^ 32) :
    (e = 0 → modularExponent b e m = .ok 1) ∧
    (0 < e → 0 < m → b < 2 ^ 32 → modularExponent b e m = .ok (b ^ e % m)) ∧
    (0 < e → (m = 0 ∨ 2 ^ 32 ≤ b) → ∃ k, modularExponent b e m = .error (.panic k)) := by
  refine ⟨?_, fun he h0 hb => modularExponent_any h0 hm hb he, modularExponent_panics⟩
  rintro rfl
  rw [modularExponent, modularExponentLoop, if_neg (by omega)]

/-- So there is one modulus for which it is not exponentiation: 1, where the power of 0 should be 0. -/
theorem C89_modulus_one : ∀ m, 0 < m → m ≤ 2 ^ 32 →
    ((∀ b e, b < 2 ^ 32 → modularExponent b e m = .ok (b ^ e % m)) ↔ m ≠ 1) := by
  intro m h0 hm
  constructor
  · rintro h rfl
    have := h 0 0 (by norm_num)
    rw [(C89_modular_exponent 0 0 1 (by norm_num)).1 rfl] at this
    exact absurd this (by simp)
  · intro h1 b e hb
    rcases Nat.eq_zero_or_pos e with rfl | he
    · rw [(C89_modular_exponent b 0 m hm).1 rfl, pow_zero, Nat.mod_eq_of_lt (by omega)]
    · exact (C89_modular_exponent b e m hm).2.1 he h0 hb

/-- `distinct_prime_factors` does not end for 0, and only for 0. -/
theorem C89_factors_end (n : ℕ) (hn : n < 16777259 ^ 2) : distinctPrimeFactors n = .error .diverge ↔ n = 0 := by
  constructor
  · intro h
    by_contra hc
    obtain ⟨l, e, _⟩ := distinctPrimeFactors_ok (n := n) (by omega) hn
    rw [e] at h
    cases h
  · rintro rfl
    exact distinctPrimeFactors_zero

/-- `primitive_root` of a number that is not prime does not return `None`: it returns the least number from 2 on whose powers pass
the test, and that is at most the least prime factor. -/
theorem C89_primitive_root_composite (n : ℕ) (hn : ¬ n.Prime) (h2 : 2 ≤ n) (h32 : n < 2 ^ 32) :
    ∃ g, primitiveRoot n = .ok (some g) ∧
      IsLeast {g : ℕ | 2 ≤ g ∧ ∀ q, q.Prime → q ∣ n - 1 → ¬ g ^ ((n - 1) / q) ≡ 1 [MOD n]} g ∧ g ≤ n.minFac := by
  obtain ⟨g, e, hg2, hgm, hg, hmin⟩ := primitiveRoot_composite hn h2 h32
  have hmod : ∀ h q : ℕ, h ^ ((n - 1) / q) ≡ 1 [MOD n] ↔ h ^ ((n - 1) / q) % n = 1 := by
    intro h q
    rw [Nat.ModEq, Nat.mod_eq_of_lt (show 1 < n by omega)]
  refine ⟨g, e, ⟨⟨hg2, fun q hq hd h => hg q hq hd ((hmod g q).1 h)⟩, ?_⟩, hgm⟩
  intro h hh
  by_contra hc
  obtain ⟨q, hq, hd, h1⟩ := hmin h hh.1 (by omega)
  exact hh.2 q hq hd ((hmod h q).2 h1)

/-- `primitive_root` for all numbers below `2^32`: it overflows for 0, does not end for 1, returns `None` for 2 alone, and something
for all others, whether prime or not.  So `None` does not tell the numbers that are not prime. -/
theorem C89_primitive_root_all (n : ℕ) (h32 : n < 2 ^ 32) :
    (primitiveRoot n = .error (.panic .overflow) ↔ n = 0) ∧ (primitiveRoot n = .error .diverge ↔ n = 1) ∧
    (primitiveRoot n = .ok none ↔ n = 2) ∧ ((∃ g, primitiveRoot n = .ok (some g)) ↔ 3 ≤ n) := by
  have hbig : 3 ≤ n → ∃ g, primitiveRoot n = .ok (some g) := by
    intro h3
    by_cases hp : n.Prime
    · obtain ⟨g, e, _⟩ := primitiveRoot_ok hp (by omega) h32
      exact ⟨g, e⟩
    · obtain ⟨g, e, _⟩ := primitiveRoot_composite hp (by omega) h32
      exact ⟨g, e⟩
  rcases Nat.lt_or_ge n 3 with h | h
  · interval_cases n
    · simp [primitiveRoot, panic]
    · simp [primitiveRoot_one]
    · simp [primitiveRoot_two]
  · obtain ⟨g, e⟩ := hbig h
    rw [e]
    refine ⟨⟨fun h => ?_, by omega⟩, ⟨fun h => ?_, by omega⟩, ⟨fun h => ?_, by omega⟩, fun _ => h, fun _ => ⟨g, rfl⟩⟩ <;> cases h

/-- The cases of the theorems occur: 341 is not prime, and it is a pseudoprime to the base 2. -/
example : ¬ Nat.Prime 341 ∧ 2 ≤ 341 ∧ 341 < 2 ^ 32 ∧ 2 ^ 10 % 341 = 1 ∧ 10 ∣ 341 - 1 := by norm_num
example : (3 : ℕ) ^ 5 % 7 = 5 ∧ modularExponent 3 5 7 = .ok 5 :=
  ⟨by norm_num, (C89_modular_exponent 3 5 7 (by norm_num)).2.1 (by norm_num) (by norm_num) (by norm_num)⟩

end RustDHT
