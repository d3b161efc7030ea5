import Verif.Proofs.Basic
import Verif.Model.MathUtils
import Mathlib.Tactic.NormNum.Prime
import Mathlib.Data.Nat.Prime.Basic
import Mathlib.Data.Nat.Log
import Mathlib.Tactic.Linarith
import Mathlib.Tactic.Ring
import Mathlib.Tactic.IntervalCases
import Mathlib.Tactic.NormNum

/-! # `math_utils`: modular exponentiation, factorisation -/

namespace RustDHT

/-! ## `modular_exponent` -/

theorem mulU64_ok {a b : Nat} (h : a * b < 2 ^ 64) : mulU64 a b = .ok (a * b) := if_pos h

theorem remU64_ok {a b : Nat} (h : 0 < b) : remU64 a b = .ok (a % b) := if_neg (by omega)

theorem mul_lt_of_lt_two_pow {a b m : Nat} (hm : m ≤ 2 ^ 32) (ha : a < m) (hb : b < m) : a * b < 2 ^ 64 :=
  calc a * b < 2 ^ 32 * 2 ^ 32 := Nat.mul_lt_mul'' (by omega) (by omega)
    _ = 2 ^ 64 := by norm_num

theorem modularExponentLoop_ok {m : Nat} (hm : m ≤ 2 ^ 32) (e r b : Nat) (hr : r < m) (hb : b < m) :
    modularExponentLoop m r b e = .ok (r * b ^ e % m) := by
  induction e using Nat.strongRecOn generalizing r b with
  | ind e ih =>
    rw [modularExponentLoop]
    by_cases he : 0 < e
    · have hm0 : 0 < m := by omega
      have tail : ∀ r', r' < m → (do
          let p ← mulU64 b b
          let base ← remU64 p m
          modularExponentLoop m r' base (e / 2)) = .ok (r' * (b * b) ^ (e / 2) % m) := by
        intro r' hr'
        rw [mulU64_ok (mul_lt_of_lt_two_pow hm hb hb), ok_bind, remU64_ok hm0, ok_bind,
          ih (e / 2) (by omega) r' _ hr' (Nat.mod_lt _ hm0), Nat.mul_mod, ← Nat.pow_mod, ← Nat.mul_mod]
      rw [if_pos he]
      by_cases ho : e % 2 = 1
      · rw [if_pos ho, mulU64_ok (mul_lt_of_lt_two_pow hm hr hb), ok_bind, remU64_ok hm0, ok_bind]
        refine (tail _ (Nat.mod_lt _ hm0)).trans ?_
        congr 1
        have : e = 2 * (e / 2) + 1 := by omega
        conv_rhs => rw [this, pow_succ, pow_mul]
        rw [← sq b, Nat.mod_mul_mod, Nat.mul_assoc, Nat.mul_comm b]
      · rw [if_neg ho, ok_bind]
        refine (tail _ hr).trans ?_
        have : e = 2 * (e / 2) := by omega
        conv_rhs => rw [this, pow_mul]
        rw [← sq b]
    · rw [if_neg he, show e = 0 by omega, pow_zero, Nat.mul_one, Nat.mod_eq_of_lt hr]

theorem modularExponent_ok {b e m : Nat} (hm : m ≤ 2 ^ 32) (h1 : 1 < m) (hb : b < m) :
    modularExponent b e m = .ok (b ^ e % m) := by
  rw [modularExponent, modularExponentLoop_ok hm e 1 b h1 hb, Nat.one_mul]

/-! ## The rounded square root -/

theorem isqrt_spec (n : Nat) : isqrt n * isqrt n ≤ n ∧ n < (isqrt n + 1) * (isqrt n + 1) := by
  induction n using Nat.strongRecOn with
  | ind n ih =>
    rw [isqrt]
    split
    · subst_vars; simp
    · obtain ⟨h1, h2⟩ := ih (n / 4) (by omega)
      simp only
      generalize isqrt (n / 4) = a at h1 h2 ⊢
      have h3 : 4 * (n / 4) ≤ n := by omega
      have h4 : n < 4 * (n / 4) + 4 := by omega
      split
      · refine ⟨by assumption, ?_⟩
        nlinarith
      · refine ⟨by nlinarith, by omega⟩

theorem log2_bounds {n : Nat} (h : n ≠ 0) : 2 ^ n.log2 ≤ n ∧ n < 2 ^ (n.log2 + 1) :=
  (Nat.log2_eq_iff h).1 rfl

theorem roundToF32_bounds {n : Nat} (h : 2 ^ 24 ≤ n) :
    n ≤ roundToF32 n + 2 ^ (n.log2 - 24) ∧ 2 ^ n.log2 ≤ roundToF32 n ∧ roundToF32 n ≤ 2 ^ (n.log2 + 1) := by
  have hn0 : n ≠ 0 := by rintro rfl; norm_num at h
  obtain ⟨hl1, hl2⟩ := log2_bounds hn0
  have hL : 24 ≤ n.log2 := (Nat.le_log2 hn0).2 h
  generalize n.log2 = L at hl1 hl2 hL ⊢
  obtain ⟨t, rfl⟩ : ∃ t, L = t + 24 := ⟨L - 24, by omega⟩
  have hdef : roundToF32 n = (if n % 2 ^ (t + 1) > 2 ^ t ∨ (n % 2 ^ (t + 1) = 2 ^ t ∧ n / 2 ^ (t + 1) % 2 = 1)
      then (n / 2 ^ (t + 1) + 1) * 2 ^ (t + 1) else n / 2 ^ (t + 1) * 2 ^ (t + 1)) := by
    have hlog : n.log2 = t + 24 := (Nat.log2_eq_iff hn0).2 ⟨hl1, hl2⟩
    rw [roundToF32, if_neg (Nat.not_lt.2 h), hlog]
    simp only [show t + 24 - 23 = t + 1 by omega, Nat.add_sub_cancel]
  rw [hdef, show t + 24 - 24 = t by omega]
  have hpos : 0 < 2 ^ t := Nat.two_pow_pos t
  have hp1 : 2 ^ (t + 1) = 2 * 2 ^ t := by rw [pow_succ]; ring
  have hdm := Nat.div_add_mod n (2 ^ (t + 1))
  have hr : n % 2 ^ (t + 1) < 2 ^ (t + 1) := Nat.mod_lt _ (Nat.two_pow_pos _)
  have e1 : 2 ^ (t + 24) = 2 ^ 23 * 2 ^ (t + 1) := by rw [show t + 24 = 23 + (t + 1) by omega, Nat.pow_add]
  have e2 : 2 ^ (t + 24 + 1) = 2 ^ 24 * 2 ^ (t + 1) := by rw [show t + 24 + 1 = 24 + (t + 1) by omega, Nat.pow_add]
  have hq1 : 2 ^ 23 ≤ n / 2 ^ (t + 1) := (Nat.le_div_iff_mul_le (Nat.two_pow_pos _)).2 (e1 ▸ hl1)
  have hq2 : n / 2 ^ (t + 1) < 2 ^ 24 := (Nat.div_lt_iff_lt_mul (Nat.two_pow_pos _)).2 (e2 ▸ hl2)
  rw [e1, e2]
  generalize n / 2 ^ (t + 1) = q at *
  generalize n % 2 ^ (t + 1) = r at *
  generalize 2 ^ (t + 1) = P at *
  generalize 2 ^ t = H at *
  have g1 : 2 ^ 23 * P ≤ q * P := Nat.mul_le_mul_right _ hq1
  have g2 : (q + 1) * P ≤ 2 ^ 24 * P := Nat.mul_le_mul_right _ hq2
  have g3 : (q + 1) * P = P * q + P := by ring
  have g4 : q * P = P * q := Nat.mul_comm _ _
  split
  · refine ⟨?_, ?_, ?_⟩ <;> omega
  · refine ⟨?_, ?_, ?_⟩ <;> omega

theorem f32SqrtTrunc_ge {m s δ : Nat} (hm : m ≠ 0) (he : m.log2 / 2 ≤ 23) (h1 : s * s ≤ m + δ)
    (h2 : δ * 2 ^ (23 - m.log2 / 2) < s) : s ≤ f32SqrtTrunc m := by
  unfold f32SqrtTrunc
  rw [if_neg hm]
  simp only
  rw [if_pos he]
  generalize 23 - m.log2 / 2 = k at h2 ⊢
  have hk : 4 ^ k = 2 ^ k * 2 ^ k := by rw [← pow_add, ← two_mul, pow_mul]; norm_num
  have hpos : 0 < 2 ^ k := Nat.two_pow_pos k
  rw [hk, Nat.le_div_iff_mul_le hpos]
  generalize 2 ^ k = K at *
  obtain ⟨i1, i2⟩ := isqrt_spec (m * (K * K))
  generalize isqrt (m * (K * K)) = a at *
  have hkey : s * K * (s * K) < m * (K * K) + s * K := by
    have : s * s * (K * K) ≤ (m + δ) * (K * K) := Nat.mul_le_mul_right _ h1
    have h3 : δ * K * K < s * K := Nat.mul_lt_mul_of_pos_right h2 hpos
    nlinarith
  generalize s * K = S at *
  split
  · by_contra hc
    have : a + 2 ≤ S := by omega
    nlinarith
  · by_contra hc
    have : a + 1 ≤ S := by omega
    nlinarith

theorem f32SqrtTrunc_big {m : Nat} (h : 2 ^ 48 ≤ m) : 2 ^ 24 ≤ f32SqrtTrunc m := by
  have hm : m ≠ 0 := by rintro rfl; norm_num at h
  have hL : 48 ≤ m.log2 := (Nat.le_log2 hm).2 h
  have hl1 := (log2_bounds hm).1
  unfold f32SqrtTrunc
  rw [if_neg hm]
  simp only
  rw [if_neg (by omega)]
  obtain ⟨k, hk⟩ : ∃ k, m.log2 / 2 = k + 1 + 23 := ⟨m.log2 / 2 - 24, by omega⟩
  rw [hk, Nat.add_sub_cancel]
  have h4 : 2 ^ 46 ≤ m / 4 ^ (k + 1) := by
    rw [Nat.le_div_iff_mul_le (by positivity)]
    calc 2 ^ 46 * 4 ^ (k + 1) = 2 ^ (46 + 2 * (k + 1)) := by rw [pow_add 2 46, pow_mul 2 2 (k + 1)]; rfl
      _ ≤ 2 ^ m.log2 := Nat.pow_le_pow_right (by norm_num) (by omega)
      _ ≤ m := hl1
  have ha : 2 ^ 23 ≤ isqrt (m / 4 ^ (k + 1)) := by
    have := (isqrt_spec (m / 4 ^ (k + 1))).2
    by_contra hc
    have h5 : (isqrt (m / 4 ^ (k + 1)) + 1) * (isqrt (m / 4 ^ (k + 1)) + 1) ≤ 2 ^ 23 * 2 ^ 23 := Nat.mul_le_mul (by omega) (by omega)
    norm_num at h4 h5
    omega
  calc 2 ^ 24 = 2 ^ 23 * 2 := by norm_num
    _ ≤ _ := Nat.mul_le_mul (by split <;> omega) (by rw [pow_succ]; have := Nat.one_le_two_pow (n := k); omega)

/-- The rounded root finds every divisor up to `2^24`, however large `n` is. -/
theorem factorLimit_gt {n s : Nat} (hn : 0 < n) (h24 : s ≤ 2 ^ 24) (hs : s * s ≤ n) : s < factorLimit n := by
  rw [factorLimit, Nat.lt_succ_iff]
  by_cases h48 : 2 ^ 48 ≤ roundToF32 n
  · exact h24.trans (f32SqrtTrunc_big h48)
  have hn48 : n < 2 ^ 48 := by
    by_contra hc
    obtain ⟨-, b2, -⟩ := roundToF32_bounds (n := n) (by omega)
    exact h48 (le_trans (Nat.pow_le_pow_right (by omega) ((Nat.le_log2 (by omega)).2 (by omega))) b2)
  clear h24
  suffices h : ∀ s, s * s ≤ n → n < (s + 1) * (s + 1) → s ≤ f32SqrtTrunc (roundToF32 n) by
    obtain ⟨i1, i2⟩ := isqrt_spec n
    refine le_trans ?_ (h _ i1 i2)
    by_contra hc
    have : isqrt n + 1 ≤ s := by omega
    nlinarith
  clear hs s
  intro s hs1 hs2
  by_cases h24 : n < 2 ^ 24
  · have hr : roundToF32 n = n := if_pos h24
    rw [hr]
    have hlog : n.log2 < 24 := (Nat.log2_lt (by omega)).2 h24
    refine f32SqrtTrunc_ge (δ := 0) (by omega) (by omega) (by omega) ?_
    rw [Nat.zero_mul]
    by_contra hc
    have : s = 0 := by omega
    subst this
    omega
  · obtain ⟨b1, b2, b3⟩ := roundToF32_bounds (n := n) (by omega)
    have hn0 : n ≠ 0 := by omega
    obtain ⟨hl1, hl2⟩ := log2_bounds hn0
    have hL1 : 24 ≤ n.log2 := (Nat.le_log2 hn0).2 (by omega)
    have hL2 : n.log2 < 48 := (Nat.log2_lt hn0).2 hn48
    have hm0 : roundToF32 n ≠ 0 := by have := Nat.two_pow_pos n.log2; omega
    have hm1 : n.log2 ≤ (roundToF32 n).log2 := (Nat.le_log2 hm0).2 b2
    have hm2 : (roundToF32 n).log2 < 48 := (Nat.log2_lt hm0).2 (by omega)
    refine f32SqrtTrunc_ge (δ := 2 ^ (n.log2 - 24)) hm0 (by omega) (by omega) ?_
    have hle : 2 ^ (n.log2 - 24) * 2 ^ (23 - (roundToF32 n).log2 / 2) ≤ 2 ^ (n.log2 - 24) * 2 ^ (23 - n.log2 / 2) :=
      Nat.mul_le_mul_left _ (Nat.pow_le_pow_right (by omega) (by omega))
    refine lt_of_le_of_lt hle ?_
    have hsl : 2 ^ n.log2 < (s + 1) * (s + 1) := lt_of_le_of_lt hl1 hs2
    generalize n.log2 = L at hsl hL1 hL2
    by_contra hc
    rw [Nat.not_lt] at hc
    have hs3 : (s + 1) * (s + 1) ≤ (2 ^ (L - 24) * 2 ^ (23 - L / 2) + 1) * (2 ^ (L - 24) * 2 ^ (23 - L / 2) + 1) :=
      Nat.mul_le_mul (by omega) (by omega)
    have hs4 := lt_of_lt_of_le hsl hs3
    clear hs3 hc hsl hle hs1 hs2
    interval_cases L <;> norm_num at hs4

/-- There is no prime between `2^24` and 16777259. -/
theorem prime_gap {p : Nat} (hp : p.Prime) (h : p < 16777259) : p ≤ 2 ^ 24 := by
  by_contra hc
  have h1 : 16777216 < p := by omega
  interval_cases p <;> revert hp <;> norm_num

/-! ## `distinct_prime_factors` -/

theorem stripFactor_ok {d n : Nat} (hd : 2 ≤ d) (hn : 0 < n) :
    ∃ k m, stripFactor d n = .ok m ∧ n = d ^ k * m ∧ ¬ d ∣ m := by
  induction n using Nat.strongRecOn with
  | ind n ih =>
    rw [stripFactor, dif_neg (by omega)]
    by_cases h : n % d = 0
    · rw [if_pos h, dif_neg (by omega)]
      obtain ⟨c, hc⟩ := Nat.dvd_of_mod_eq_zero h
      have hc0 : 0 < c := by
        rcases Nat.eq_zero_or_pos c with rfl | h'
        · simp at hc; omega
        · exact h'
      have hdiv : n / d = c := by rw [hc, Nat.mul_div_cancel_left _ (by omega)]
      rw [hdiv]
      obtain ⟨k, m, e, h1, h2⟩ := ih c (by rw [hc]; nlinarith) hc0
      exact ⟨k + 1, m, e, by rw [hc, h1, pow_succ]; ring, h2⟩
    · rw [if_neg h]
      exact ⟨0, n, rfl, by simp, fun hdvd => h (Nat.mod_eq_zero_of_dvd hdvd)⟩

theorem prime_of_no_smaller {d n : Nat} (hd : 2 ≤ d) (hdn : d ∣ n)
    (hn : ∀ q, q.Prime → q ∣ n → d ≤ q) : d.Prime := by
  have h1 := Nat.minFac_prime (show d ≠ 1 by omega)
  have h2 := hn _ h1 ((Nat.minFac_dvd d).trans hdn)
  have h3 := Nat.minFac_le (show 0 < d by omega)
  rw [← le_antisymm h3 h2]; exact h1

theorem one_or_prime_of_no_smaller {n d : Nat} (hn : 0 < n) (hs : ∀ s, s.Prime → s * s ≤ n → s < d)
    (h : ∀ q, q.Prime → q ∣ n → d ≤ q) : n = 1 ∨ n.Prime := by
  by_contra hc
  push Not at hc
  obtain ⟨h1, h2⟩ := hc
  have hm := Nat.minFac_prime h1
  have := h _ hm (Nat.minFac_dvd n)
  have h3 := Nat.minFac_sq_le_self hn h2
  rw [sq] at h3
  have := hs _ hm h3
  omega

/-- What the trial division loop leaves: the primes it found, ascending, and a cofactor that is 1 or a larger prime. -/
structure Factored (n n' : Nat) (d : Nat) (l : List Nat) : Prop where
  pos : 0 < n'
  cofactor : n' = 1 ∨ n'.Prime
  primes : ∀ q, q.Prime → (q ∣ n ↔ q ∈ l ∨ q ∣ n')
  prime : ∀ q ∈ l, q.Prime
  sorted : l.Pairwise (· < ·)
  ge : ∀ q ∈ l, d ≤ q
  lt : ∀ q ∈ l, n' = 1 ∨ q < n'

theorem factorLoop_ok {n d : Nat} (hn : 0 < n) (hB : n < 16777259 ^ 2) (hd3 : 3 ≤ d) (hdo : d % 2 = 1)
    (hno : ∀ q, q.Prime → q ∣ n → d ≤ q) (res : List Nat) {limit : Nat} (hlim : limit = factorLimit n) :
    ∃ n' l, factorLoop n d limit res = .ok (n', res ++ l) ∧ Factored n n' d l ∧ ∀ q, q.Prime → q ∣ n' → d ≤ q := by
  induction n using Nat.strongRecOn generalizing d res limit with
  | ind n ihn =>
  induction hk : limit - d using Nat.strongRecOn generalizing d with
  | ind k ihk =>
  have hnext : ∀ n₂, (∀ q, q.Prime → q ∣ n₂ → d ≤ q) → ¬ d ∣ n₂ → ∀ q, q.Prime → q ∣ n₂ → d + 2 ≤ q := by
    intro n₂ h1 h2 q hq hqn
    have h3 := h1 q hq hqn
    have h4 : q ≠ d := by rintro rfl; exact h2 hqn
    have h5 : q ≠ d + 1 := by
      rintro rfl
      rcases hq.eq_two_or_odd with h | h <;> omega
    omega
  rw [factorLoop]
  by_cases hlt : d < limit
  · rw [dif_pos hlt]
    by_cases hdvd : n % d = 0
    · rw [dif_pos hdvd]
      have hdn := Nat.dvd_of_mod_eq_zero hdvd
      have hdp := prime_of_no_smaller (by omega) hdn hno
      obtain ⟨k, m, e, hm1, hm2⟩ := stripFactor_ok (d := d) (n := n) (by omega) hn
      have hm0 : 0 < m := Nat.pos_of_ne_zero (by rintro rfl; exact hm2 (dvd_zero _))
      have hmn : m ∣ n := ⟨d ^ k, by rw [hm1]; ring⟩
      have hmlt : m < n := by
        refine lt_of_le_of_ne (Nat.le_of_dvd hn hmn) ?_
        rintro rfl
        exact hm2 hdn
      have hkpos : k ≠ 0 := by rintro rfl; simp at hm1; omega
      split
      · rename_i e' heq; rw [e] at heq; cases heq
      · rename_i m' heq
        rw [e] at heq
        cases heq
        have hno' := hnext m (fun q hq hqm => hno q hq (hqm.trans hmn)) hm2
        obtain ⟨n', l, e2, hF, hge⟩ := ihn m hmlt hm0 (by omega) (by omega)
          (by omega) hno' (res ++ [d]) rfl
        refine ⟨n', d :: l, by rw [e2]; simp, ?_, fun q hq hqn => by have := hge q hq hqn; omega⟩
        refine ⟨hF.pos, hF.cofactor, ?_, ?_, ?_, ?_, ?_⟩
        · intro q hq
          rw [hm1, hq.dvd_mul, hF.primes q hq, List.mem_cons]
          have : q ∣ d ^ k ↔ q = d := by
            constructor
            · intro h
              exact (Nat.prime_dvd_prime_iff_eq hq hdp).1 (hq.dvd_of_dvd_pow h)
            · rintro rfl
              exact dvd_pow_self _ hkpos
          rw [this]
          tauto
        · intro q hq
          rcases List.mem_cons.1 hq with rfl | h
          · exact hdp
          · exact hF.prime q h
        · rw [List.pairwise_cons]
          exact ⟨fun q hq => by have := hF.ge q hq; omega, hF.sorted⟩
        · intro q hq
          rcases List.mem_cons.1 hq with rfl | h
          · exact le_rfl
          · have := hF.ge q h; omega
        · intro q hq
          rcases List.mem_cons.1 hq with rfl | h
          · rcases hF.cofactor with h | h
            · exact .inl h
            · have := hge _ h (dvd_refl _); right; omega
          · exact hF.lt q h
    · rw [dif_neg hdvd]
      have hno' := hnext n hno (fun h => hdvd (Nat.mod_eq_zero_of_dvd h))
      obtain ⟨n', l, e2, hF, hge⟩ := ihk (limit - (d + 2)) (by omega) (by omega)
        (by omega) hno' rfl
      exact ⟨n', l, e2, ⟨hF.pos, hF.cofactor, hF.primes, hF.prime, hF.sorted,
        fun q hq => by have := hF.ge q hq; omega, hF.lt⟩, fun q hq hqn => by have := hge q hq hqn; omega⟩
  · rw [dif_neg hlt]
    refine ⟨n, [], by simp, ⟨hn, ?_, by simp, by simp, by simp, by simp, by simp⟩, hno⟩
    refine one_or_prime_of_no_smaller hn (fun s hsp hs => ?_) hno
    have hlt : s < 16777259 := by nlinarith
    have := factorLimit_gt hn (prime_gap hsp hlt) hs
    omega

/-- `distinct_prime_factors` lists the prime factors in increasing order. -/
theorem distinctPrimeFactors_ok {n : Nat} (hn : 0 < n) (hB : n < 16777259 ^ 2) :
    ∃ l, distinctPrimeFactors n = .ok l ∧ (∀ q, q ∈ l ↔ q.Prime ∧ q ∣ n) ∧ l.Pairwise (· < ·) := by
  have tail : ∀ m res, 0 < m → m ≤ n → m % 2 = 1 → (∀ q ∈ res, q = 2) → res.length ≤ 1 →
      (∀ q, q.Prime → (q ∣ n ↔ q ∈ res ∨ q ∣ m)) →
      ∃ l, (if m > 1 then (do
        let (n, result) ← factorLoop m 3 (factorLimit m) res
        if n > 1 then .ok (result ++ [n]) else .ok result) else .ok res : Res (List Nat)) = .ok l ∧
        (∀ q, q ∈ l ↔ q.Prime ∧ q ∣ n) ∧ l.Pairwise (· < ·) := by
    intro m res hm0 hmn hmo hres hrl hq
    have hrs : res.Pairwise (· < ·) := by
      match res, hrl with
      | [], _ => simp
      | [a], _ => simp
    have hrp : ∀ q ∈ res, q.Prime := fun q hq => by rw [hres q hq]; exact Nat.prime_two
    have hodd : ∀ q, q.Prime → q ∣ m → 3 ≤ q := by
      intro q hq hqm
      have := hq.two_le
      have : q ≠ 2 := by
        rintro rfl
        have := Nat.mod_eq_zero_of_dvd hqm
        omega
      omega
    by_cases hm1 : m > 1
    · rw [if_pos hm1]
      obtain ⟨n', l, e, hF, hge⟩ := factorLoop_ok hm0 (by omega) (le_refl 3) (by norm_num) hodd res rfl
      rw [e, ok_bind]
      simp only
      have hsort : (res ++ l).Pairwise (· < ·) := by
        rw [List.pairwise_append]
        refine ⟨hrs, hF.sorted, fun a ha b hb => ?_⟩
        rw [hres a ha]
        have := hF.ge b hb
        omega
      by_cases hn1 : n' > 1
      · rw [if_pos hn1]
        have hp : n'.Prime := hF.cofactor.resolve_left (by omega)
        refine ⟨_, rfl, ?_, ?_⟩
        · intro q
          rw [List.mem_append, List.mem_append, List.mem_singleton]
          constructor
          · rintro ((h | h) | rfl)
            · exact ⟨hrp q h, (hq q (hrp q h)).2 (.inl h)⟩
            · exact ⟨hF.prime q h, (hq q (hF.prime q h)).2 (.inr ((hF.primes q (hF.prime q h)).2 (.inl h)))⟩
            · exact ⟨hp, (hq _ hp).2 (.inr ((hF.primes _ hp).2 (.inr (dvd_refl _))))⟩
          · rintro ⟨hqp, hqn⟩
            rcases (hq q hqp).1 hqn with h | h
            · exact .inl (.inl h)
            · rcases (hF.primes q hqp).1 h with h | h
              · exact .inl (.inr h)
              · exact .inr ((Nat.prime_dvd_prime_iff_eq hqp hp).1 h)
        · rw [List.pairwise_append]
          refine ⟨hsort, by simp, fun a ha b hb => ?_⟩
          rw [List.mem_singleton] at hb
          subst hb
          rcases List.mem_append.1 ha with h | h
          · rw [hres a h]
            have := hge _ hp (dvd_refl _)
            omega
          · rcases hF.lt a h with h | h
            · omega
            · exact h
      · rw [if_neg hn1]
        have hn1' : n' = 1 := by have := hF.pos; omega
        refine ⟨_, rfl, ?_, hsort⟩
        intro q
        rw [List.mem_append]
        constructor
        · rintro (h | h)
          · exact ⟨hrp q h, (hq q (hrp q h)).2 (.inl h)⟩
          · exact ⟨hF.prime q h, (hq q (hF.prime q h)).2 (.inr ((hF.primes q (hF.prime q h)).2 (.inl h)))⟩
        · rintro ⟨hqp, hqn⟩
          rcases (hq q hqp).1 hqn with h | h
          · exact .inl h
          · rcases (hF.primes q hqp).1 h with h | h
            · exact .inr h
            · rw [hn1'] at h
              exact absurd (Nat.dvd_one.1 h) hqp.one_lt.ne'
    · rw [if_neg hm1]
      have : m = 1 := by omega
      subst this
      refine ⟨_, rfl, fun q => ⟨fun h => ⟨hrp q h, (hq q (hrp q h)).2 (.inl h)⟩, ?_⟩, hrs⟩
      rintro ⟨hqp, hqn⟩
      rcases (hq q hqp).1 hqn with h | h
      · exact h
      · exact absurd (Nat.dvd_one.1 h) hqp.one_lt.ne'
  unfold distinctPrimeFactors
  by_cases h2 : n % 2 = 0
  · obtain ⟨k, m, e, hm1, hm2⟩ := stripFactor_ok (le_refl 2) hn
    have hm0 : 0 < m := Nat.pos_of_ne_zero (by rintro rfl; exact hm2 (dvd_zero _))
    have hkpos : k ≠ 0 := by rintro rfl; simp at hm1; omega
    rw [if_pos h2, e, ok_bind, ok_bind]
    refine tail m [2] hm0 (Nat.le_of_dvd hn ⟨2 ^ k, by rw [hm1]; ring⟩) (by omega) (by simp) (by simp) ?_
    intro q hq
    rw [hm1, hq.dvd_mul, List.mem_singleton]
    have : q ∣ 2 ^ k ↔ q = 2 := by
      constructor
      · intro h
        exact (Nat.prime_dvd_prime_iff_eq hq Nat.prime_two).1 (hq.dvd_of_dvd_pow h)
      · rintro rfl
        exact dvd_pow_self _ hkpos
    rw [this]
  · rw [if_neg h2, ok_bind]
    exact tail n [] hn le_rfl (by omega) (by simp) (by simp) (by simp)

theorem isqrt_eq {n a : Nat} (h1 : a * a ≤ n) (h2 : n < (a + 1) * (a + 1)) : isqrt n = a := by
  obtain ⟨i1, i2⟩ := isqrt_spec n
  apply le_antisymm
  · by_contra hc
    have : a + 1 ≤ isqrt n := by omega
    nlinarith
  · by_contra hc
    have : isqrt n + 1 ≤ a := by omega
    nlinarith

theorem prime_16777259 : Nat.Prime 16777259 := by norm_num

/-- The rounded root of the square of the first prime above `2^24` falls short of that prime. -/
theorem factorLimit_short : factorLimit (16777259 ^ 2) = 16777259 := by
  have hlog : Nat.log2 281476419553081 = 48 := (Nat.log2_eq_iff (by norm_num)).2 (by norm_num)
  have hr : roundToF32 281476419553081 = 281476419551232 := by
    unfold roundToF32
    rw [hlog]
    norm_num
  have hlog2 : Nat.log2 281476419551232 = 48 := (Nat.log2_eq_iff (by norm_num)).2 (by norm_num)
  have hi : isqrt (281476419551232 / 4 ^ 1) = 8388629 := isqrt_eq (by norm_num) (by norm_num)
  have e : (16777259 ^ 2 : ℕ) = 281476419553081 := by norm_num
  rw [e, factorLimit, hr]
  unfold f32SqrtTrunc
  rw [hlog2, if_neg (by norm_num)]
  norm_num at hi ⊢
  rw [hi]
  norm_num

/-- The trial division changes nothing when no odd number below the limit divides. -/
theorem factorLoop_none {n : Nat} (limit : Nat) (res : List Nat) (h : ∀ d, 3 ≤ d → d < limit → ¬ d ∣ n) :
    ∀ k d, limit ≤ d + k → 3 ≤ d → factorLoop n d limit res = .ok (n, res) := by
  intro k
  induction k with
  | zero => intro d hk _; rw [factorLoop, dif_neg (by omega)]
  | succ k ih =>
    intro d hk h3
    rw [factorLoop]
    by_cases hd : d < limit
    · rw [dif_pos hd, dif_neg (fun h0 => h d h3 hd (Nat.dvd_of_mod_eq_zero h0)), ih _ (by omega) (by omega)]
    · rw [dif_neg hd]

theorem distinctPrimeFactors_wrong : distinctPrimeFactors (16777259 ^ 2) = .ok [16777259 ^ 2] := by
  have hl : factorLoop (16777259 ^ 2) 3 (factorLimit (16777259 ^ 2)) [] = .ok (16777259 ^ 2, []) := by
    rw [factorLimit_short]
    refine factorLoop_none _ _ (fun d h3 hd hdvd => ?_) 16777259 3 (by omega) (le_refl 3)
    obtain ⟨i, hi, rfl⟩ := (Nat.dvd_prime_pow prime_16777259).1 hdvd
    interval_cases i <;> omega
  unfold distinctPrimeFactors
  rw [if_neg (by norm_num), ok_bind]
  simp only
  rw [if_pos (by norm_num), hl, ok_bind]
  simp only
  rw [if_pos (by norm_num), List.nil_append]
end RustDHT
