import Verif.Proofs.MachineWrong
import Verif.Proofs.MachineExact
import Verif.Props.NumberTheory
import Verif.Props.Exact
import Mathlib.NumberTheory.LucasPrimality
import Mathlib.Tactic.ReduceModChar
import Mathlib.Tactic.NormNum.Prime

/-! # C51: Rader's algorithm for primes above `2^32`

`modular_exponent` squares its base in `u64`.  Above `2^32` a debug build panics.  In a release build the sixth square of 2 wraps
to 0, no candidate test sees the value 1, and `primitive_root` answers 2 whether or not 2 is a primitive root. -/

namespace RustDHT

/-- A debug build panics for every prime above `2^32`. -/
theorem C51_debug_panics (p : ℕ) (hp : p.Prime) (h32 : 2 ^ 32 < p) (h61 : p < 2 ^ 61) :
    ∃ k, Machine.primitiveRoot .debug p = .error (.panic k) := by
  rw [Machine.primitiveRoot_eq hp.one_lt h61 (.inl rfl)]
  exact C26_overflow p hp h32

/-- A release build answers 2. -/
theorem C51_release_root (p : ℕ) (hp : p.Prime) (h32 : 2 ^ 32 < p) (h61 : p < 2 ^ 61) (ho : 64 ≤ orderOf (2 : ZMod p)) :
    Machine.primitiveRoot .release p = .ok (some 2) :=
  Machine.primitiveRoot_release hp h32 h61 ho

/-- For half of the primes, 2 is not a primitive root. -/
theorem C51_release_root_wrong (p : ℕ) (hp : p.Prime) (h32 : 2 ^ 32 < p) (h61 : p < 2 ^ 61) (ho : 64 ≤ orderOf (2 : ZMod p))
    (h8 : p % 8 = 1 ∨ p % 8 = 7) :
    ∃ g : ℕ, Machine.primitiveRoot .release p = .ok (some g) ∧ orderOf (g : ZMod p) < p - 1 :=
  ⟨2, C51_release_root p hp h32 h61 ho, by exact_mod_cast Machine.two_not_root hp (by omega) h8⟩

/-- For these primes `RadersAlgorithm::new` of a release build accepts a correct inner object, and the object it returns does not
compute the transform. -/
theorem C51_release_raders_wrong (p : ℕ) (hp : p.Prime) (h32 : 2 ^ 32 < p) (h61 : p < 2 ^ 61) (ho : 64 ≤ orderOf (2 : ZMod p))
    (h8 : p % 8 = 1 ∨ p % 8 = 7) (d : Dht ℝ) (hd : ComputesDht d) (hl : d.len = p - 1) (hs : d.inplaceScratchLen < 2 ^ 63) :
    ∃ r, Machine.raders .release d = .ok r ∧ r.len = p ∧ ¬ ComputesDht r := by
  obtain ⟨r, e, hr⟩ := Machine.raders_release_builds hp h32 h61 ho hd hl hs
  exact ⟨r, e, hr, Machine.raders_release_wrong hp h32 h61 ho h8 hd hl e hs⟩

/-- For every other prime the object of a release build computes the transform exactly if 2 is a primitive root and the products
with its inverse `(p + 1) / 2` do not wrap around. -/
theorem C51_release_raders_iff (p : ℕ) (hp : p.Prime) (h32 : 2 ^ 32 < p) (h61 : p < 2 ^ 61) (ho : 64 ≤ orderOf (2 : ZMod p))
    (d : Dht ℝ) (hd : ComputesDht d) (hl : d.len = p - 1) (hs : d.inplaceScratchLen < 2 ^ 63) :
    ∃ r, Machine.raders .release d = .ok r ∧ r.len = p ∧
      (ComputesDht r ↔ orderOf (2 : ZMod p) = p - 1 ∧ (p - 1) * ((p + 1) / 2) < 2 ^ 64) := by
  obtain ⟨n, rfl⟩ : ∃ n, p = n + 1 := ⟨p - 1, by omega⟩
  rw [Nat.add_sub_cancel] at *
  have hodd : (n + 1) % 2 = 1 := hp.eq_two_or_odd.resolve_left (by omega)
  have hcap : n + 1 < 2 * Machine.Mode.release.cap := by rw [Machine.cap_release]; omega
  have hs' : d.inplaceScratchLen < 8 * Machine.Mode.release.cap := by rw [Machine.cap_release]; omega
  have hb : Machine.Mode.release.bits = 64 := rfl
  have hinv : rootInverse 2 (n + 1) = (n + 1 + 1) / 2 :=
    Machine.rootInverse_unique hp (by omega) (by omega) (by omega) (by
      rw [show 2 * ((n + 1 + 1) / 2) = 1 + (n + 1) by omega, Nat.add_mod_right, Nat.mod_eq_of_lt (by omega)])
  refine ⟨_, Machine.raders_wrap rfl hp (by omega) hcap (C51_release_root _ hp h32 h61 ho) (by omega) (by omega) hd hl hs', rfl,
    fun hc => ?_, fun ⟨h1, h2⟩ => ?_⟩
  · obtain ⟨c1, _, c2⟩ := Machine.raders_wrap_only rfl hp (by omega) hcap (by omega) (by omega) hd hl hc
    rw [hinv, hb] at c2
    exact ⟨by exact_mod_cast c1, c2⟩
  · exact Machine.raders_wrap_if hp (by omega) (by omega) (by omega) hd hl (by exact_mod_cast h1) (by rw [hb]; omega)
      (by rw [hinv, hb]; exact h2)

/-- So it is wrong for all primes above 6074000999. -/
theorem C51_release_raders_large (p : ℕ) (hp : p.Prime) (hlow : 6074000999 < p) (h61 : p < 2 ^ 61)
    (ho : 64 ≤ orderOf (2 : ZMod p)) (d : Dht ℝ) (hd : ComputesDht d) (hl : d.len = p - 1) (hs : d.inplaceScratchLen < 2 ^ 63) :
    ∃ r, Machine.raders .release d = .ok r ∧ r.len = p ∧ ¬ ComputesDht r := by
  obtain ⟨r, e, hr, hiff⟩ := C51_release_raders_iff p hp (by omega) h61 ho d hd hl hs
  refine ⟨r, e, hr, fun hc => ?_⟩
  have h2 := (hiff.1 hc).2
  have hodd : p % 2 = 1 := hp.eq_two_or_odd.resolve_left (by omega)
  have h3 : 6074001000 * 3037000501 ≤ (p - 1) * ((p + 1) / 2) := Nat.mul_le_mul (by omega) (by omega)
  omega

/-- The first prime above `2^32`. -/
theorem prime_4294967311 : Nat.Prime 4294967311 := by
  refine lucas_primality _ 3 (by reduce_mod_char) fun q hq hd => ?_
  have h : q ∣ 2 * 3 ^ 2 * 5 * 131 * 364289 := by simpa using hd
  have hp : Nat.Prime 364289 := by norm_num
  have hp2 : Nat.Prime 131 := by norm_num
  simp only [hq.dvd_mul] at h
  rcases h with (((h | h) | h) | h) | h
  · rw [(Nat.prime_dvd_prime_iff_eq hq Nat.prime_two).1 h]; norm_num; reduce_mod_char; decide
  · rw [(Nat.prime_dvd_prime_iff_eq hq Nat.prime_three).1 (hq.dvd_of_dvd_pow h)]; norm_num; reduce_mod_char; decide
  · rw [(Nat.prime_dvd_prime_iff_eq hq Nat.prime_five).1 h]; norm_num; reduce_mod_char; decide
  · rw [(Nat.prime_dvd_prime_iff_eq hq hp2).1 h]; norm_num; reduce_mod_char; decide
  · rw [(Nat.prime_dvd_prime_iff_eq hq hp).1 h]; norm_num; reduce_mod_char; decide

/-- It has order at least 64: the powers of 2 with smaller exponents are not 1. -/
theorem order_4294967311 : 64 ≤ orderOf (2 : ZMod 4294967311) := by
  have := Fact.mk prime_4294967311
  by_contra h
  push Not at h
  have hpos : 0 < orderOf (2 : ZMod 4294967311) := by
    refine (isOfFinOrder_iff_pow_eq_one.2 ⟨4294967310, by norm_num, ?_⟩).orderOf_pos
    exact ZMod.pow_card_sub_one_eq_one (p := 4294967311) (by
      intro h
      have := (ZMod.natCast_eq_zero_iff 2 4294967311).1 (by exact_mod_cast h)
      norm_num at this)
  have h1 := pow_orderOf_eq_one (2 : ZMod 4294967311)
  generalize orderOf (2 : ZMod 4294967311) = e at h hpos h1
  have h2 : 2 ^ e % 4294967311 = 1 % 4294967311 := by
    have : ((2 ^ e : ℕ) : ZMod 4294967311) = ((1 : ℕ) : ZMod 4294967311) := by exact_mod_cast h1
    exact (ZMod.natCast_eq_natCast_iff' _ _ _).1 this
  interval_cases e <;> simp at h2

/-- `RadersAlgorithm::new` around any correct object of length 4294967310, for instance `DhtNaive`. -/
example : ∃ r, Machine.raders .release (dhtNaive ℝ 4294967310) = .ok r ∧ r.len = 4294967311 ∧ ¬ ComputesDht r :=
  C51_release_raders_wrong _ prime_4294967311 (by norm_num) (by norm_num) order_4294967311 (.inr (by norm_num)) _
    (C01_dhtNaive_dht 4294967310).2.1 (dhtNaive_len _) (by simp [dhtNaive, boilerplateDhtOop, naiveTwiddles])

/-- 2 is a primitive root of the prime 4294967459, so that length comes out right by luck. -/
theorem root_4294967459 : Nat.Prime 4294967459 ∧ orderOf (2 : ZMod 4294967459) = 4294967458 := by
  have h1 : (2 : ZMod 4294967459) ^ 4294967458 = 1 := by reduce_mod_char
  have h2 : ∀ q : ℕ, q.Prime → q ∣ 4294967458 → (2 : ZMod 4294967459) ^ (4294967458 / q) ≠ 1 := by
    intro q hq hd
    have h : q ∣ 2 * 13337 * 161017 := by simpa using hd
    have hp : Nat.Prime 161017 := by norm_num
    have hp2 : Nat.Prime 13337 := by norm_num
    simp only [hq.dvd_mul] at h
    rcases h with (h | h) | h
    · rw [(Nat.prime_dvd_prime_iff_eq hq Nat.prime_two).1 h]; norm_num; reduce_mod_char; decide
    · rw [(Nat.prime_dvd_prime_iff_eq hq hp2).1 h]; norm_num; reduce_mod_char; decide
    · rw [(Nat.prime_dvd_prime_iff_eq hq hp).1 h]; norm_num; reduce_mod_char; decide
  exact ⟨lucas_primality _ 2 h1 h2, orderOf_eq_of_pow_and_pow_div_prime (by norm_num) h1 h2⟩

/-- The right-hand side of `C51_release_raders_iff` can hold. -/
example : ∃ r, Machine.raders .release (dhtNaive ℝ 4294967458) = .ok r ∧ r.len = 4294967459 ∧ ComputesDht r := by
  obtain ⟨r, e, hl, h⟩ := C51_release_raders_iff _ root_4294967459.1 (by norm_num) (by norm_num)
    (by rw [root_4294967459.2]; norm_num) _ (C01_dhtNaive_dht 4294967458).2.1 (dhtNaive_len _)
    (by simp [dhtNaive, boilerplateDhtOop, naiveTwiddles])
  exact ⟨r, e, hl, h.2 ⟨root_4294967459.2, by norm_num⟩⟩

end RustDHT
