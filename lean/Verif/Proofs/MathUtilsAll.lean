import Verif.Proofs.PrimitiveRoot

/-! # `src/math_utils.rs` for the arguments that the crate does not use -/

namespace RustDHT

theorem mulU64_small {a b : Nat} (ha : a < 2 ^ 32) (hb : b < 2 ^ 32) : mulU64 a b = .ok (a * b) :=
  mulU64_ok (mul_lt_of_lt_two_pow (le_refl _) ha hb)

/-- Also with factors that are not reduced, if there is something to do. -/
theorem modularExponentLoop_any {m : Nat} (h0 : 0 < m) (hm : m ≤ 2 ^ 32) (e r b : Nat) (hr : r < 2 ^ 32) (hb : b < 2 ^ 32)
    (he : 0 < e) : modularExponentLoop m r b e = .ok (r * b ^ e % m) := by
  have hlt : ∀ a, a % m < m := fun a => Nat.mod_lt _ h0
  induction e using Nat.strongRecOn generalizing r b with
  | ind e ih =>
    rw [modularExponentLoop, if_pos he]
    by_cases ho : e % 2 = 1
    · rw [if_pos ho, mulU64_small hr hb, ok_bind, remU64_ok h0, ok_bind, mulU64_small hb hb, ok_bind, remU64_ok h0, ok_bind,
        modularExponentLoop_ok hm _ _ _ (hlt _) (hlt _)]
      congr 1
      have : e = 2 * (e / 2) + 1 := by omega
      conv_rhs => rw [this, pow_succ, pow_mul]
      rw [Nat.mul_mod, ← Nat.pow_mod, ← Nat.mul_mod, ← sq b, Nat.mod_mul_mod, Nat.mul_assoc, Nat.mul_comm b]
    · rw [if_neg ho, ok_bind, mulU64_small hb hb, ok_bind, remU64_ok h0, ok_bind,
        ih (e / 2) (by omega) r _ hr (lt_of_lt_of_le (hlt _) hm) (by omega)]
      congr 1
      have : e = 2 * (e / 2) := by omega
      conv_rhs => rw [this, pow_mul]
      rw [Nat.mul_mod, ← Nat.pow_mod, ← Nat.mul_mod, ← sq b]

theorem modularExponent_any {b e m : Nat} (h0 : 0 < m) (hm : m ≤ 2 ^ 32) (hb : b < 2 ^ 32) (he : 0 < e) :
    modularExponent b e m = .ok (b ^ e % m) := by
  rw [modularExponent, modularExponentLoop_any h0 hm e 1 b (by norm_num) hb he, Nat.one_mul]

theorem modularExponent_panics {b e m : Nat} (he : 0 < e) (h : m = 0 ∨ 2 ^ 32 ≤ b) :
    ∃ k, modularExponent b e m = .error (.panic k) := by
  have step : ∀ r : Nat, ∃ k, (do
      let p ← mulU64 b b
      let base ← remU64 p m
      modularExponentLoop m r base (e / 2)) = .error (.panic k) := by
    intro r
    by_cases hb : b * b < 2 ^ 64
    · have : m = 0 := by
        rcases h with h | h
        · exact h
        · exact absurd (Nat.mul_le_mul h h) (by omega)
      subst this
      exact ⟨.divByZero, by rw [mulU64_ok hb, ok_bind]; rfl⟩
    · exact ⟨.overflow, by rw [mulU64, if_neg hb]; rfl⟩
  rw [modularExponent, modularExponentLoop, if_pos he]
  by_cases ho : e % 2 = 1
  · rw [if_pos ho]
    by_cases hb : 1 * b < 2 ^ 64
    · rw [mulU64_ok hb, ok_bind]
      by_cases h0 : m = 0
      · subst h0
        exact ⟨.divByZero, rfl⟩
      · rw [remU64_ok (by omega), ok_bind]
        exact step _
    · exact ⟨.overflow, by rw [mulU64, if_neg hb]; rfl⟩
  · rw [if_neg ho, ok_bind]
    exact step _

theorem distinctPrimeFactors_zero : distinctPrimeFactors 0 = .error .diverge := by
  rw [distinctPrimeFactors, if_pos (by omega), stripFactor]
  simp only [show ¬ (2 = 0) by omega, dite_false]
  rfl

theorem primitiveRoot_one : primitiveRoot 1 = .error .diverge := by
  rw [primitiveRoot, if_neg (by omega), show 1 - 1 = 0 by omega, distinctPrimeFactors_zero]
  rfl

/-- Powers of a number that has a factor in common with `n` are never 1 mod `n`. -/
theorem pow_mod_ne_one_of_dvd {n q e : Nat} (hq : 1 < q) (hqn : q ∣ n) (he : 0 < e) : q ^ e % n ≠ 1 := by
  intro h
  have h1 : q ∣ q ^ e % n := (Nat.dvd_mod_iff hqn).2 (dvd_pow_self q (by omega))
  rw [h] at h1
  exact absurd (Nat.le_of_dvd (by omega) h1) (by omega)

/-- `primitive_root` of a number that is not prime: it finds something. -/
theorem primitiveRoot_composite {n : Nat} (hn : ¬ n.Prime) (h2 : 2 ≤ n) (h32 : n < 2 ^ 32) :
    ∃ g, primitiveRoot n = .ok (some g) ∧ 2 ≤ g ∧ g ≤ n.minFac ∧ (∀ q, q.Prime → q ∣ n - 1 → g ^ ((n - 1) / q) % n ≠ 1) ∧
      ∀ h, 2 ≤ h → h < g → ∃ q, q.Prime ∧ q ∣ n - 1 ∧ h ^ ((n - 1) / q) % n = 1 := by
  obtain ⟨fs, ef, hf, _⟩ := distinctPrimeFactors_ok (n := n - 1) (by omega) (by omega)
  have hmp := Nat.minFac_prime (n := n) (by omega)
  have hml : n.minFac < n := lt_of_le_of_ne (Nat.minFac_le (by omega)) fun h => hn (h ▸ hmp)
  have hm2 := hmp.two_le
  unfold primitiveRoot
  rw [if_neg (by omega), ef, ok_bind]
  simp only
  rw [searchRoot_ok (by omega) (by omega) _ _ (by simp; omega)]
  have hiff : ∀ r, (∃ e ∈ fs.map (fun f => (n - 1) / f), r ^ e % n = 1) ↔ ∃ q, q.Prime ∧ q ∣ n - 1 ∧ r ^ ((n - 1) / q) % n = 1 := by
    intro r
    constructor
    · rintro ⟨e, he, h⟩
      obtain ⟨q, hq, rfl⟩ := List.mem_map.1 he
      exact ⟨q, ((hf q).1 hq).1, ((hf q).1 hq).2, h⟩
    · rintro ⟨q, hq, hd, h⟩
      exact ⟨_, List.mem_map.2 ⟨q, (hf q).2 ⟨hq, hd⟩, rfl⟩, h⟩
  generalize fs.map (fun f => (n - 1) / f) = exps at hiff ⊢
  have hmin0 : ¬ ∃ e ∈ exps, n.minFac ^ e % n = 1 := by
    rw [hiff]
    rintro ⟨q, hq, hd, h⟩
    exact pow_mod_ne_one_of_dvd hmp.one_lt (Nat.minFac_dvd n) (Nat.div_pos (Nat.le_of_dvd (by omega) hd) hq.pos) h
  rcases hfind : (List.range' 2 (n - 2)).find? (fun r => !decide (∃ e ∈ exps, r ^ e % n = 1)) with _ | g
  · exfalso
    rw [List.find?_eq_none] at hfind
    exact hfind n.minFac (by simp; omega) (by simpa using hmin0)
  · rw [List.find?_eq_some_iff_getElem] at hfind
    obtain ⟨hpg, i, hi, hgi, hmin⟩ := hfind
    simp only [List.length_range'] at hi
    simp only [List.getElem_range'] at hgi hmin
    have hgeq : g = 2 + i := by omega
    have below : ∀ h, 2 ≤ h → h < g → ∃ e ∈ exps, h ^ e % n = 1 := by
      intro h h2 hlt
      have := hmin (h - 2) (by omega)
      rw [show 2 + 1 * (h - 2) = h by omega] at this
      simpa using this
    refine ⟨g, rfl, by omega, ?_, ?_, fun h h2 hlt => (hiff h).1 (below h h2 hlt)⟩
    · by_contra hc
      exact hmin0 (below _ hm2 (by omega))
    · intro q hq hd h
      have : ¬ ∃ e ∈ exps, g ^ e % n = 1 := by simpa using hpg
      exact this ((hiff g).2 ⟨q, hq, hd, h⟩)

end RustDHT
