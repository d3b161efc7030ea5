import Verif.Proofs.Orthogonality
import Mathlib.NumberTheory.Cyclotomic.PrimitiveRoots
import Mathlib.RingTheory.Polynomial.Cyclotomic.Roots
import Mathlib.RingTheory.RootsOfUnity.Complex
import Mathlib.FieldTheory.IntermediateField.Adjoin.Basic

/-! # The values of `cas` at the multiples of `1 / p` are independent over the tables of smaller lengths -/

namespace RustDHT

open Finset Polynomial IntermediateField

/-- Powers of a root of unity of prime order are independent over the field of roots of unity of an order without that prime. -/
theorem minpoly_degree {p M : ℕ} (hp : p.Prime) (hM : 0 < M) (hc : p.Coprime M) {ζ ω : ℂ} (hζ : IsPrimitiveRoot ζ p)
    (hω : IsPrimitiveRoot ω M) : p - 1 ≤ (minpoly ℚ⟮ω⟯ ζ).natDegree := by
  have ip : IsIntegral ℚ⟮ω⟯ ζ := (hζ.isIntegral hp.pos).tower_top
  have iω : IsIntegral ℚ ω := (hω.isIntegral hM).tower_top
  have hprim : IsPrimitiveRoot (ζ * ω) (p * M) := by
    have := (Commute.all ζ ω).orderOf_mul_eq_mul_orderOf_of_coprime (by rwa [← hζ.eq_orderOf, ← hω.eq_orderOf])
    rw [← hζ.eq_orderOf, ← hω.eq_orderOf] at this
    rw [← this]
    exact IsPrimitiveRoot.orderOf _
  have iζω : IsIntegral ℚ (ζ * ω) := (hprim.isIntegral (Nat.mul_pos hp.pos hM)).tower_top
  have hdeg : ∀ {n : ℕ} {μ : ℂ}, 0 < n → IsPrimitiveRoot μ n → Module.finrank ℚ ℚ⟮μ⟯ = n.totient := by
    intro n μ hn h
    rw [adjoin.finrank (h.isIntegral hn).tower_top, ← cyclotomic_eq_minpoly_rat h hn, natDegree_cyclotomic]
  have h1 := hdeg hM hω
  have h2 := hdeg (Nat.mul_pos hp.pos hM) hprim
  have h3 : Module.finrank ℚ⟮ω⟯ ℚ⟮ω⟯⟮ζ⟯ = (minpoly ℚ⟮ω⟯ ζ).natDegree := adjoin.finrank ip
  have h4 := Module.finrank_mul_finrank ℚ ℚ⟮ω⟯ ℚ⟮ω⟯⟮ζ⟯
  have f1 : FiniteDimensional ℚ ℚ⟮ω⟯ := adjoin.finiteDimensional iω
  have f2 : FiniteDimensional ℚ⟮ω⟯ ℚ⟮ω⟯⟮ζ⟯ := adjoin.finiteDimensional ip
  have f3 : FiniteDimensional ℚ ℚ⟮ω⟯⟮ζ⟯ := FiniteDimensional.trans ℚ ℚ⟮ω⟯ _
  have hle : ℚ⟮ζ * ω⟯ ≤ ℚ⟮ω⟯⟮ζ⟯.restrictScalars ℚ := by
    rw [adjoin_simple_le_iff]
    refine mul_mem ?_ ?_
    · exact mem_adjoin_simple_self ℚ⟮ω⟯ ζ
    · exact ℚ⟮ω⟯⟮ζ⟯.algebraMap_mem ⟨ω, mem_adjoin_simple_self ℚ ω⟩
  have h5 : Module.finrank ℚ ℚ⟮ζ * ω⟯ ≤ Module.finrank ℚ ℚ⟮ω⟯⟮ζ⟯ := by
    let e := (inclusion hle).toLinearMap
    exact LinearMap.finrank_le_finrank_of_injective (f := e) (inclusion_injective hle)
  rw [h2, ← h4, h1, h3, Nat.totient_mul hc, Nat.totient_prime hp, Nat.mul_comm] at h5
  exact Nat.le_of_mul_le_mul_left h5 (Nat.totient_pos.2 hM)

theorem powers_independent {p M : ℕ} (hp : p.Prime) (hM : 0 < M) (hc : p.Coprime M) {ζ ω : ℂ} (hζ : IsPrimitiveRoot ζ p)
    (hω : IsPrimitiveRoot ω M) {a : ℕ → ℂ} (ha : ∀ j < p - 1, a j ∈ ℚ⟮ω⟯) (h : ∑ j ∈ range (p - 1), a j * ζ ^ j = 0) :
    ∀ j < p - 1, a j = 0 := by
  classical
  let b : ℕ → ℚ⟮ω⟯ := fun j => if hj : j < p - 1 then ⟨a j, ha j hj⟩ else 0
  have hb : ∀ j < p - 1, (b j : ℂ) = a j := fun j hj => by simp [b, hj]
  let P : ℚ⟮ω⟯[X] := ∑ j ∈ range (p - 1), C (b j) * X ^ j
  have hev : aeval ζ P = 0 := by
    simp only [P, map_sum, map_mul, aeval_C, map_pow, aeval_X]
    rw [← h]
    exact Finset.sum_congr rfl fun j hj => by rw [← hb j (mem_range.1 hj)]; rfl
  have hcoef : ∀ j < p - 1, P.coeff j = b j := by
    intro j hj
    simp [P, coeff_C_mul, coeff_X_pow, hj]
  have hP : P = 0 := by
    by_contra hne
    have h1 := minpoly.degree_le_of_ne_zero ℚ⟮ω⟯ ζ hne hev
    have h2 := natDegree_le_natDegree h1
    have h3 := minpoly_degree hp hM hc hζ hω
    have h4 : P.degree < (p - 1 : ℕ) := by
      refine lt_of_le_of_lt (degree_sum_le _ _) ?_
      rw [Finset.sup_lt_iff (by exact WithBot.bot_lt_coe _)]
      intro j hj
      exact lt_of_le_of_lt (degree_C_mul_X_pow_le _ _) (by exact_mod_cast mem_range.1 hj)
    have h5 := (natDegree_lt_iff_degree_lt hne).2 h4
    omega
  intro j hj
  rw [← hb j hj, ← hcoef j hj, hP]
  simp


/-- `exp (2 pi i / n)`. -/
noncomputable def rootOf (n : ℕ) : ℂ := Complex.exp (2 * Real.pi * Complex.I / n)

theorem rootOf_primitive {n : ℕ} (hn : 0 < n) : IsPrimitiveRoot (rootOf n) n := Complex.isPrimitiveRoot_exp n hn.ne'

/-- The real numbers that are rational expressions in a root of unity of order `M`. -/
noncomputable def tableField (M : ℕ) : Subfield ℝ := (ℚ⟮rootOf M⟯).toSubfield.comap Complex.ofRealHom

theorem mem_tableField {M : ℕ} {r : ℝ} : r ∈ tableField M ↔ (r : ℂ) ∈ ℚ⟮rootOf M⟯ := Iff.rfl

theorem rootOf_zpow (n : ℕ) (k : ℤ) : rootOf n ^ k = cs n k + sn n k * Complex.I := by
  rw [rootOf, ← Complex.exp_int_mul, cs, sn, Complex.ofReal_cos, Complex.ofReal_sin, ← Complex.exp_mul_I]
  congr 1
  push_cast
  ring

theorem rootOf_mem {n M : ℕ} (hn : 0 < n) (hM : 0 < M) (h : n ∣ M) : rootOf n ∈ ℚ⟮rootOf M⟯ := by
  obtain ⟨c, rfl⟩ := h
  have hc : 0 < c := Nat.pos_of_mul_pos_left hM
  have : rootOf n = rootOf (n * c) ^ c := by
    rw [rootOf, rootOf, ← Complex.exp_nat_mul]
    congr 1
    have h1 : (n : ℂ) ≠ 0 := by exact_mod_cast hn.ne'
    have h2 : (c : ℂ) ≠ 0 := by exact_mod_cast hc.ne'
    push_cast
    field_simp
  rw [this]
  exact pow_mem (mem_adjoin_simple_self ℚ _) c

theorem I_mem {M : ℕ} (hM : 0 < M) (h : 4 ∣ M) : Complex.I ∈ ℚ⟮rootOf M⟯ := by
  have h4 := rootOf_mem (n := 4) (by norm_num) hM h
  have : rootOf 4 = Complex.I := by
    have := rootOf_zpow 4 1
    rw [zpow_one, cs, sn, show (2 : ℝ) * Real.pi * ((1 : ℤ) : ℝ) / ((4 : ℕ) : ℝ) = Real.pi / 2 by push_cast; ring] at this
    simpa using this
  rwa [this] at h4

theorem cs_sn_mem {n M : ℕ} (hn : 0 < n) (hM : 0 < M) (h : n ∣ M) (h4 : 4 ∣ M) (k : ℤ) :
    cs n k ∈ tableField M ∧ sn n k ∈ tableField M := by
  have hr := rootOf_mem hn hM h
  have hI := I_mem hM h4
  have e1 := rootOf_zpow n k
  have e2 := rootOf_zpow n (-k)
  rw [cs_neg, sn_neg] at e2
  have m1 : rootOf n ^ k ∈ ℚ⟮rootOf M⟯ := zpow_mem hr k
  have m2 : rootOf n ^ (-k) ∈ ℚ⟮rootOf M⟯ := zpow_mem hr (-k)
  have two : (2 : ℂ) ∈ ℚ⟮rootOf M⟯ := ofNat_mem _ 2
  constructor
  · rw [mem_tableField]
    have : (cs n k : ℂ) = (rootOf n ^ k + rootOf n ^ (-k)) / 2 := by rw [e1, e2]; push_cast; ring
    rw [this]
    exact div_mem (add_mem m1 m2) two
  · rw [mem_tableField]
    have : (sn n k : ℂ) = (rootOf n ^ k - rootOf n ^ (-k)) / (2 * Complex.I) := by
      rw [e1, e2, eq_div_iff (by simp)]
      push_cast; ring
    rw [this]
    exact div_mem (sub_mem m1 m2) (mul_mem two hI)

theorem ca_mem {n M : ℕ} (hn : 0 < n) (hM : 0 < M) (h : n ∣ M) (h4 : 4 ∣ M) (k : ℤ) : ca n k ∈ tableField M :=
  add_mem (cs_sn_mem hn hM h h4 k).1 (cs_sn_mem hn hM h h4 k).2

theorem rat_mem (M : ℕ) (q : ℚ) : (q : ℝ) ∈ tableField M := SubfieldClass.ratCast_mem _ q

/-- The values `cas (2 pi q / p)`, `q = 1, ..., p - 1`, are independent over that field, if the prime `p` does not divide `M`. -/
theorem cas_independent {p M : ℕ} (hp : p.Prime) (hM : 0 < M) (h4 : 4 ∣ M) (hc : p.Coprime M) {c : ℕ → ℝ}
    (hm : ∀ q < p - 1, c q ∈ tableField M) (h : ∑ q ∈ range (p - 1), c q * ca p (q + 1) = 0) : ∀ q < p - 1, c q = 0 := by
  have hI := I_mem hM h4
  have hζ := rootOf_primitive hp.pos
  have h2 := hp.two_le
  have hca : ∀ k : ℤ, (ca p k : ℂ) = ((1 - Complex.I) * rootOf p ^ k + (1 + Complex.I) * rootOf p ^ (-k)) / 2 := by
    intro k
    rw [rootOf_zpow, rootOf_zpow, cs_neg, sn_neg, ca]
    push_cast
    linear_combination (sn p k : ℂ) * Complex.I_mul_I
  have hrefl := Finset.sum_range_reflect (fun q => (c q : ℂ) * (1 + Complex.I) * rootOf p ^ (-(q + 1 : ℤ))) (p - 1)
  have hz := congrArg (fun r : ℝ => 2 * (r : ℂ)) h
  simp only [Complex.ofReal_zero, mul_zero, Complex.ofReal_sum, Complex.ofReal_mul, hca] at hz
  have hsum : ∑ q ∈ range (p - 1), ((c q : ℂ) * (1 - Complex.I) + (c (p - 1 - 1 - q) : ℂ) * (1 + Complex.I)) * rootOf p ^ q = 0 := by
    have hne : rootOf p ≠ 0 := Complex.exp_ne_zero _
    have e : rootOf p * ∑ q ∈ range (p - 1), ((c q : ℂ) * (1 - Complex.I) + (c (p - 1 - 1 - q) : ℂ) * (1 + Complex.I)) * rootOf p ^ q
        = 2 * ∑ q ∈ range (p - 1), (c q : ℂ) * (((1 - Complex.I) * rootOf p ^ (q + 1 : ℤ) + (1 + Complex.I) * rootOf p ^ (-(q + 1 : ℤ))) / 2) := by
      simp only [mul_sum]
      have : ∀ q ∈ range (p - 1), 2 * ((c q : ℂ) * (((1 - Complex.I) * rootOf p ^ (q + 1 : ℤ) + (1 + Complex.I) * rootOf p ^ (-(q + 1 : ℤ))) / 2))
          = (c q : ℂ) * (1 - Complex.I) * rootOf p ^ (q + 1 : ℤ) + (c q : ℂ) * (1 + Complex.I) * rootOf p ^ (-(q + 1 : ℤ)) :=
        fun q _ => by ring
      rw [Finset.sum_congr rfl this, sum_add_distrib, ← hrefl, ← sum_add_distrib]
      refine Finset.sum_congr rfl fun q hq => ?_
      have hq := mem_range.1 hq
      have e1 : rootOf p ^ (q + 1 : ℤ) = rootOf p * rootOf p ^ q := by
        rw [show (q + 1 : ℤ) = ((q + 1 : ℕ) : ℤ) by push_cast; ring, zpow_natCast, pow_succ']
      have e2 : rootOf p ^ (-(((p - 1 - 1 - q : ℕ) : ℤ) + 1)) = rootOf p * rootOf p ^ q := by
        rw [show -(((p - 1 - 1 - q : ℕ) : ℤ) + 1) = (q + 1 : ℤ) - p by omega, zpow_sub₀ hne, e1, zpow_natCast, hζ.pow_eq_one, div_one]
      rw [e1, e2]
      ring
    rw [hz] at e
    exact (mul_eq_zero.1 e).resolve_left hne
  have hall := powers_independent hp hM hc hζ (rootOf_primitive hM) (fun j hj => ?_) hsum
  · intro q hq
    have e := hall q hq
    have er := congrArg Complex.re e
    have ei := congrArg Complex.im e
    simp at er ei
    linarith
  · exact add_mem (mul_mem (hm j hj) (sub_mem (one_mem _) hI)) (mul_mem (hm _ (by omega)) (add_mem (one_mem _) hI))

end RustDHT
