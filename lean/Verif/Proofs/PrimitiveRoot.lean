import Verif.Proofs.MathUtils
import Verif.Model.Raders
import Mathlib.FieldTheory.Finite.Basic
import Mathlib.GroupTheory.OrderOfElement
import Mathlib.RingTheory.IntegralDomain

/-! # `primitive_root` and the inverse of the root -/

namespace RustDHT

theorem rejectRoot_ok {p r : Nat} (hp : p ≤ 2 ^ 32) (h1 : 1 < p) (hr : r < p) (exps : List Nat) :
    rejectRoot p r exps = .ok (decide (∃ e ∈ exps, r ^ e % p = 1)) := by
  induction exps with
  | nil => simp [rejectRoot]
  | cons e es ih =>
    rw [rejectRoot, modularExponent_ok hp h1 hr, ok_bind]
    by_cases h : r ^ e % p = 1
    · rw [if_pos h]; simp [h]
    · rw [if_neg h, ih]; simp [h]

theorem searchRoot_ok {p : Nat} (hp : p ≤ 2 ^ 32) (h1 : 1 < p) (exps cs : List Nat) (hc : ∀ r ∈ cs, r < p) :
    searchRoot p exps cs = .ok (cs.find? fun r => !decide (∃ e ∈ exps, r ^ e % p = 1)) := by
  induction cs with
  | nil => simp [searchRoot]
  | cons r rs ih =>
    rw [searchRoot, rejectRoot_ok hp h1 (hc r (by simp)), ok_bind, List.find?_cons,
      ih fun r hr => hc r (List.mem_cons_of_mem _ hr)]
    by_cases h : ∃ e ∈ exps, r ^ e % p = 1
    · rw [decide_eq_true h]; simp
    · rw [decide_eq_false h]; simp

theorem natCast_pow_eq_one_iff {p r e : Nat} (h1 : 1 < p) : ((r : ZMod p) ^ e = 1) ↔ r ^ e % p = 1 := by
  have : ((r : ZMod p) ^ e = 1) ↔ ((r ^ e : ℕ) : ZMod p) = ((1 : ℕ) : ZMod p) := by push_cast; rfl
  rw [this, ZMod.natCast_eq_natCast_iff', Nat.mod_eq_of_lt h1]

theorem natCast_ne_zero_of_lt {p r : Nat} (h0 : 0 < r) (h : r < p) : (r : ZMod p) ≠ 0 := by
  rw [Ne, ZMod.natCast_eq_zero_iff]
  exact Nat.not_dvd_of_pos_of_lt h0 h

/-- The rejection test is exact: a candidate passes when it generates the multiplicative group. -/
theorem passes_iff {p r : Nat} (hp : p.Prime) (h0 : 0 < r) (hr : r < p) {fs : List Nat}
    (hf : ∀ q, q ∈ fs ↔ q.Prime ∧ q ∣ p - 1) :
    (¬ ∃ e ∈ fs.map (fun f => (p - 1) / f), r ^ e % p = 1) ↔ orderOf (r : ZMod p) = p - 1 := by
  have : Fact p.Prime := ⟨hp⟩
  have h1 := hp.one_lt
  have hpow : (r : ZMod p) ^ (p - 1) = 1 := ZMod.pow_card_sub_one_eq_one (natCast_ne_zero_of_lt h0 hr)
  constructor
  · intro h
    refine orderOf_eq_of_pow_and_pow_div_prime (by omega) hpow fun q hq hqd hc => h ?_
    exact ⟨_, List.mem_map.2 ⟨q, (hf q).2 ⟨hq, hqd⟩, rfl⟩, (natCast_pow_eq_one_iff h1).1 hc⟩
  · rintro ho ⟨e, he, hpe⟩
    obtain ⟨q, hq, rfl⟩ := List.mem_map.1 he
    obtain ⟨hqp, hqd⟩ := (hf q).1 hq
    have h2 := orderOf_dvd_of_pow_eq_one ((natCast_pow_eq_one_iff h1).2 hpe)
    rw [ho] at h2
    have h3 : (p - 1) / q < p - 1 := Nat.div_lt_self (by omega) hqp.one_lt
    have h4 : 0 < (p - 1) / q := Nat.div_pos (Nat.le_of_dvd (by omega) hqd) hqp.pos
    exact absurd (Nat.le_of_dvd h4 h2) (by omega)

theorem exists_generator {p : Nat} (hp : p.Prime) : ∃ g, 0 < g ∧ g < p ∧ orderOf (g : ZMod p) = p - 1 := by
  have : Fact p.Prime := ⟨hp⟩
  obtain ⟨u, hu⟩ := IsCyclic.exists_generator (α := (ZMod p)ˣ)
  have ho : orderOf u = p - 1 := by
    rw [orderOf_eq_card_of_forall_mem_zpowers hu, Nat.card_eq_fintype_card, ZMod.card_units]
  refine ⟨(u : ZMod p).val, ?_, ZMod.val_lt _, ?_⟩
  · rw [Nat.pos_iff_ne_zero, Ne, ZMod.val_eq_zero]
    exact u.ne_zero
  · rw [ZMod.natCast_zmod_val, orderOf_units, ho]

/-- `primitive_root` on an odd prime below `2^32`: the least generator of the multiplicative group. -/
theorem primitiveRoot_ok {p : Nat} (hp : p.Prime) (h2 : p ≠ 2) (h32 : p < 2 ^ 32) :
    ∃ g, primitiveRoot p = .ok (some g) ∧ 1 < g ∧ g < p ∧ orderOf (g : ZMod p) = p - 1 ∧
      ∀ h, 0 < h → h < g → orderOf (h : ZMod p) ≠ p - 1 := by
  have hp2 := hp.two_le
  obtain ⟨fs, ef, hf, _⟩ := distinctPrimeFactors_ok (n := p - 1) (by omega) (by omega)
  have hone : ∀ g, 0 < g → g < p → orderOf (g : ZMod p) = p - 1 → 1 < g := by
    intro g h0 hlt ho
    by_contra hc
    have : g = 1 := by omega
    subst this
    rw [Nat.cast_one, orderOf_one] at ho
    omega
  unfold primitiveRoot
  rw [if_neg (by omega), ef, ok_bind]
  simp only
  rw [searchRoot_ok (by omega) (by omega) _ _ (by simp; omega)]
  have hpi : ∀ r, 0 < r → r < p → _ := fun r h0 hr => passes_iff (r := r) hp h0 hr hf
  generalize fs.map (fun f => (p - 1) / f) = exps at hpi ⊢
  obtain ⟨g0, hg0, hg0p, ho0⟩ := exists_generator hp
  have hg01 := hone g0 hg0 hg0p ho0
  have hpass : ∀ r, 0 < r → r < p →
      ((!decide (∃ e ∈ exps, r ^ e % p = 1)) = true ↔ orderOf (r : ZMod p) = p - 1) := by
    intro r hr0 hrp
    rw [← hpi r hr0 hrp]
    simp
  rcases hfind : (List.range' 2 (p - 2)).find? (fun r => !decide (∃ e ∈ exps, r ^ e % p = 1))
    with _ | g
  · exfalso
    rw [List.find?_eq_none] at hfind
    exact hfind g0 (by simp; omega) ((hpass g0 hg0 hg0p).2 ho0)
  · rw [List.find?_eq_some_iff_getElem] at hfind
    obtain ⟨hpg, i, hi, hgi, hmin⟩ := hfind
    simp only [List.length_range'] at hi
    simp only [List.getElem_range'] at hgi hmin
    have hgeq : g = 2 + i := by omega
    refine ⟨g, rfl, by omega, by omega, (hpass g (by omega) (by omega)).1 hpg, ?_⟩
    intro h h0 hlt ho
    have h1 := hone h h0 (by omega) ho
    have := hmin (h - 2) (by omega)
    rw [show 2 + 1 * (h - 2) = h by omega] at this
    have h3 := (hpass h h0 (by omega)).2 ho
    rw [h3] at this
    simp at this

theorem primitiveRoot_two : primitiveRoot 2 = .ok none := by
  unfold primitiveRoot
  rw [if_neg (by omega)]
  have : distinctPrimeFactors (2 - 1) = .ok [] := by
    rw [distinctPrimeFactors, if_neg (by omega), ok_bind]
    simp
  rw [this, ok_bind]
  rfl

/-! ## Primes above `2^32` overflow -/

theorem modularExponentLoop_overflow {m r e : Nat} (hm : 2 ^ 32 < m) (hr : 0 < r ∧ r < m) (he : 2 ^ 31 ≤ e) :
    ∃ k, modularExponentLoop m r 2 e = .error (.panic k) := by
  have key : ∀ j, j ≤ 5 → ∀ r e, 2 ^ (26 + j) ≤ e → ∃ k, modularExponentLoop m r (2 ^ (2 ^ (5 - j))) e = .error (.panic k) := by
    intro j
    induction j with
    | zero =>
      intro _ r e he
      rw [modularExponentLoop, if_pos (by omega)]
      have hov : ∀ r', ∃ k, (do
          let p ← mulU64 (2 ^ (2 ^ (5 - 0))) (2 ^ (2 ^ (5 - 0)))
          let base ← remU64 p m
          modularExponentLoop m r' base (e / 2)) = .error (.panic k) := by
        intro r'
        exact ⟨.overflow, rfl⟩
      by_cases ho : e % 2 = 1
      · rw [if_pos ho]
        unfold mulU64
        by_cases hlt : r * 2 ^ (2 ^ (5 - 0)) < 2 ^ 64
        · rw [if_pos hlt, ok_bind, remU64_ok (by omega), ok_bind]
          exact hov _
        · rw [if_neg hlt]
          exact ⟨.overflow, rfl⟩
      · rw [if_neg ho, ok_bind]
        exact hov _
    | succ j ih =>
      intro hj r e he
      have hpos : 0 < 2 ^ (26 + (j + 1)) := Nat.two_pow_pos _
      have hp2 : 2 ^ (26 + (j + 1)) = 2 * 2 ^ (26 + j) := by rw [← Nat.add_assoc, pow_succ]; ring
      rw [modularExponentLoop, if_pos (by omega)]
      have hsq : 2 ^ (2 ^ (5 - (j + 1))) * 2 ^ (2 ^ (5 - (j + 1))) = 2 ^ (2 ^ (5 - j)) := by
        rw [← pow_add, ← two_mul, ← pow_succ', show 5 - (j + 1) + 1 = 5 - j by omega]
      have hle : 2 ^ (2 ^ (5 - j)) ≤ 2 ^ 32 := Nat.pow_le_pow_right (by omega)
        (by calc 2 ^ (5 - j) ≤ 2 ^ 5 := Nat.pow_le_pow_right (by omega) (by omega)
              _ = 32 := by norm_num)
      have hov : ∀ r', ∃ k, (do
          let p ← mulU64 (2 ^ (2 ^ (5 - (j + 1)))) (2 ^ (2 ^ (5 - (j + 1))))
          let base ← remU64 p m
          modularExponentLoop m r' base (e / 2)) = .error (.panic k) := by
        intro r'
        rw [mulU64_ok (by rw [hsq]; omega), ok_bind, remU64_ok (by omega), ok_bind, hsq, Nat.mod_eq_of_lt (by omega)]
        exact ih (by omega) _ _ (by omega)
      by_cases ho : e % 2 = 1
      · rw [if_pos ho]
        unfold mulU64
        by_cases hlt : r * 2 ^ (2 ^ (5 - (j + 1))) < 2 ^ 64
        · rw [if_pos hlt, ok_bind, remU64_ok (by omega), ok_bind]
          exact hov _
        · rw [if_neg hlt]
          exact ⟨.overflow, rfl⟩
      · rw [if_neg ho, ok_bind]
        exact hov _
  exact key 5 (by omega) r e (by simpa using he)

theorem factorLoop_prefix {n d : Nat} (hd : 2 ≤ d) (hn : 0 < n) (limit : Nat) (res : List Nat) :
    ∃ n' l, factorLoop n d limit res = .ok (n', res ++ l) := by
  induction n using Nat.strongRecOn generalizing d res limit with
  | ind n ihn =>
  induction hk : limit - d using Nat.strongRecOn generalizing d with
  | ind k ihk =>
  rw [factorLoop]
  by_cases hlt : d < limit
  · rw [dif_pos hlt]
    by_cases hdvd : n % d = 0
    · rw [dif_pos hdvd]
      obtain ⟨k, m, e, hm1, hm2⟩ := stripFactor_ok (d := d) (n := n) hd hn
      have hm0 : 0 < m := Nat.pos_of_ne_zero (by rintro rfl; exact hm2 (dvd_zero _))
      have hmlt := stripFactor_lt _ _ _ e hdvd
      split
      · rename_i e' heq; rw [e] at heq; cases heq
      · rename_i m' heq
        rw [e] at heq
        cases heq
        obtain ⟨n', l, e2⟩ := ihn m hmlt (by omega : 2 ≤ d + 2) hm0 (factorLimit m) (res ++ [d])
        exact ⟨n', d :: l, by rw [e2]; simp⟩
    · rw [dif_neg hdvd]
      exact ihk (limit - (d + 2)) (by omega) (by omega) rfl
  · rw [dif_neg hlt]
    exact ⟨n, [], by simp⟩

theorem distinctPrimeFactors_even {n : Nat} (hn : 0 < n) (he : n % 2 = 0) :
    ∃ l, distinctPrimeFactors n = .ok (2 :: l) := by
  unfold distinctPrimeFactors
  obtain ⟨k, m, e, hm1, hm2⟩ := stripFactor_ok (le_refl 2) hn
  have hm0 : 0 < m := Nat.pos_of_ne_zero (by rintro rfl; exact hm2 (dvd_zero _))
  rw [if_pos he, e, ok_bind, ok_bind]
  simp only
  by_cases h1 : m > 1
  · rw [if_pos h1]
    obtain ⟨n', l, e2⟩ := factorLoop_prefix (d := 3) (by omega) hm0 (factorLimit m) [2]
    rw [e2, ok_bind]
    simp only
    by_cases h : n' > 1
    · rw [if_pos h]; exact ⟨l ++ [n'], rfl⟩
    · rw [if_neg h]; exact ⟨l, rfl⟩
  · rw [if_neg h1]; exact ⟨[], rfl⟩

/-- Above `2^32` the first test exponentiation already overflows `u64`. -/
theorem primitiveRoot_overflow {p : Nat} (hp : p.Prime) (h32 : 2 ^ 32 < p) :
    ∃ k, primitiveRoot p = .error (.panic k) := by
  have hodd : p % 2 = 1 := hp.eq_two_or_odd.resolve_left (by omega)
  obtain ⟨l, e⟩ := distinctPrimeFactors_even (n := p - 1) (by omega) (by omega)
  obtain ⟨k, ek⟩ := modularExponentLoop_overflow (m := p) (r := 1) (e := (p - 1) / 2) h32 ⟨by omega, by omega⟩ (by omega)
  refine ⟨k, ?_⟩
  unfold primitiveRoot
  rw [if_neg (by omega), e, ok_bind, show p - 2 = (p - 3) + 1 by omega, List.range'_succ]
  simp only [List.map_cons, searchRoot, rejectRoot, modularExponent]
  rw [ek]
  rfl

/-! ## The inverse of the root -/

/-- The loop invariant of the extended Euclidean algorithm. -/
structure EgcdInv (a b : Int) (r s : Int × Int) : Prop where
  r1 : 0 ≤ r.1
  r2 : r.1 < r.2
  gcd : Int.gcd r.1 r.2 = 1
  sign : s.1 * s.2 ≤ 0
  det : |s.1| * r.2 + |s.2| * r.1 = b
  c1 : b ∣ s.1 * a - r.1
  c2 : b ∣ s.2 * a - r.2
  bound : |s.2| < b

theorem abs_sub_mul_of_sign {x y q : Int} (hq : 0 ≤ q) (h : x * y ≤ 0) : |y - q * x| = |y| + q * |x| := by
  rcases le_total 0 x with hx | hx <;> rcases le_total 0 y with hy | hy
  · rcases eq_or_lt_of_le hx with rfl | hx'
    · simp
    · have : y = 0 := by nlinarith
      subst this
      rw [zero_sub, abs_neg, abs_mul, abs_of_nonneg hq, abs_zero, zero_add]
  · rw [abs_of_nonpos (by nlinarith), abs_of_nonpos hy, abs_of_nonneg hx]; ring
  · rw [abs_of_nonneg (by nlinarith), abs_of_nonneg hy, abs_of_nonpos hx]; ring
  · rcases eq_or_lt_of_le hx with rfl | hx'
    · simp
    · have : y = 0 := by nlinarith
      subst this
      rw [zero_sub, abs_neg, abs_mul, abs_of_nonneg hq, abs_zero, zero_add]

theorem EgcdInv.step {a b : Int} {r s : Int × Int} (h : EgcdInv a b r s) (h0 : r.1 ≠ 0) :
    EgcdInv a b (egcdStep (r.2.tdiv r.1) r) (egcdStep (r.2.tdiv r.1) s) := by
  obtain ⟨r1, r2⟩ := r
  obtain ⟨s1, s2⟩ := s
  obtain ⟨g1, g2, g3, g4, g5, g6, g7, g8⟩ := h
  simp only at *
  have hpos : 0 < r1 := lt_of_le_of_ne g1 (Ne.symm h0)
  have hq : r2.tdiv r1 = r2 / r1 := Int.tdiv_eq_ediv_of_nonneg (by omega)
  have hmod : r2 - r2 / r1 * r1 = r2 % r1 := by rw [Int.emod_def, mul_comm]
  have hq0 : 0 ≤ r2 / r1 := Int.ediv_nonneg (by omega) (by omega)
  simp only [egcdStep, hq]
  have habs := abs_sub_mul_of_sign hq0 g4
  refine ⟨?_, ?_, ?_, ?_, ?_, ?_, ?_, ?_⟩ <;> simp only
  · rw [hmod]; exact Int.emod_nonneg _ h0
  · rw [hmod]; exact Int.emod_lt_of_pos _ hpos
  · rw [hmod, Int.gcd_emod, Int.gcd_comm]; exact g3
  · have : 0 ≤ r2 / r1 * (s1 * s1) := mul_nonneg hq0 (mul_self_nonneg _)
    nlinarith
  · rw [habs]; linarith [mul_comm (r2 / r1) r1]
  · have : (s2 - r2 / r1 * s1) * a - (r2 - r2 / r1 * r1) = (s2 * a - r2) - r2 / r1 * (s1 * a - r1) := by ring
    rw [this]
    exact dvd_sub g7 (Dvd.dvd.mul_left g6 _)
  · exact g6
  · have h1 : 0 ≤ |s2| * r1 := mul_nonneg (abs_nonneg _) g1
    have h2 : 0 ≤ |s1| := abs_nonneg _
    by_contra hc
    have hb : b ≤ |s1| := not_lt.1 hc
    have : |s2| < b := g8
    have hb0 : 0 < b := lt_of_le_of_lt (abs_nonneg _) g8
    nlinarith

theorem egcdLoop_ok {a b : Int} {r s : Int × Int} (h : EgcdInv a b r s) :
    (egcdLoop r s).1.2 = 1 ∧ b ∣ (egcdLoop r s).2.2 * a - 1 ∧ |(egcdLoop r s).2.2| < b := by
  induction hk : r.1.natAbs using Nat.strongRecOn generalizing r s with
  | ind k ih =>
    rw [egcdLoop]
    by_cases h0 : r.1 = 0
    · rw [dif_pos h0]
      have h1 : r.2 = 1 := by
        have := h.gcd
        rw [h0, Int.gcd_zero_left] at this
        have := h.r1
        have := h.r2
        omega
      have := h.c2
      rw [h1] at this
      exact ⟨h1, this, h.bound⟩
    · rw [dif_neg h0]
      simp only
      have hs := h.step h0
      refine ih _ ?_ hs rfl
      have g1 := hs.r1
      have g2 := hs.r2
      have g3 := h.r1
      rw [← hk]
      have : (egcdStep (r.2.tdiv r.1) r).2 = r.1 := rfl
      omega

/-- The computed inverse: `1 ≤ inverse < p` and `root * inverse = 1 (mod p)`. -/
theorem rootInverse_ok {g p : Nat} (hp : p.Prime) (h0 : 0 < g) (hg : g < p) :
    0 < rootInverse g p ∧ rootInverse g p < p ∧ (g : ZMod p) * (rootInverse g p : ZMod p) = 1 := by
  have hp2 := hp.two_le
  have hinv : EgcdInv (g : Int) (p : Int) (g, p) (1, 0) := by
    refine ⟨by simp, by simpa using hg, ?_, by simp, by simp, by simp, by simp, by simp; omega⟩
    simp only [Int.gcd_natCast_natCast]
    exact Nat.Coprime.symm ((Nat.Prime.coprime_iff_not_dvd hp).2 (Nat.not_dvd_of_pos_of_lt h0 hg))
  obtain ⟨e1, e2, e3⟩ := egcdLoop_ok hinv
  have hfirst : egcdLoop ((p : Int), (g : Int)) (0, 1) = egcdLoop ((g : Int), (p : Int)) (1, 0) := by
    conv_lhs => rw [egcdLoop]
    rw [dif_neg (by simp; omega)]
    have : (g : Int).tdiv p = 0 := Int.tdiv_eq_zero_of_lt (by omega) (by omega)
    simp only [this, egcdStep, zero_mul, sub_zero]
  have hx : egcdX g p = (egcdLoop ((g : Int), (p : Int)) (1, 0)).2.2 := by
    unfold egcdX
    rw [hfirst]
    simp only
    rw [if_pos (by rw [e1]; norm_num)]
  rw [← hx] at e2 e3
  have hcast : ((rootInverse g p : ℕ) : ZMod p) = ((egcdX g p : ℤ) : ZMod p) := by
    unfold rootInverse
    simp only
    rw [abs_lt] at e3
    split
    · have : ((egcdX g p).toNat : ℤ) = egcdX g p := Int.toNat_of_nonneg (by omega)
      rw [← Int.cast_natCast, this]
    · have : ((egcdX g p + p).toNat : ℤ) = egcdX g p + p := Int.toNat_of_nonneg (by omega)
      rw [← Int.cast_natCast, this]
      simp
  have hmul : (g : ZMod p) * (rootInverse g p : ZMod p) = 1 := by
    rw [hcast]
    have := (ZMod.intCast_zmod_eq_zero_iff_dvd _ p).2 e2
    push_cast at this
    rw [mul_comm]
    exact sub_eq_zero.1 this
  refine ⟨?_, ?_, hmul⟩
  · rw [Nat.pos_iff_ne_zero]
    intro hz
    rw [hz, Nat.cast_zero, mul_zero] at hmul
    have : Fact p.Prime := ⟨hp⟩
    exact zero_ne_one hmul
  · unfold rootInverse
    simp only
    rw [abs_lt] at e3
    split <;> omega

end RustDHT
