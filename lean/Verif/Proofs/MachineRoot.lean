import Verif.Proofs.MachineRaders

/-! # `primitive_root` above `2^32` in a release build

The test for the candidate 2 squares `2^32`, which wraps to 0. -/

namespace RustDHT.Machine

theorem mul_release (a b : Nat) : Mode.mul .release a b = .ok (a * b % 2 ^ 64) := by
  unfold Mode.mul
  rw [show Mode.bits .release = 64 from rfl]
  split
  · rename_i h; rw [Nat.mod_eq_of_lt h]
  · rfl

theorem cap_release : Mode.cap .release = 2 ^ 60 := rfl

theorem u64_release : Mode.u64 .release = .release := rfl

theorem modularExponentLoop_release {p e : Nat} (hp : 0 < p) (he : 0 < e) (r b : Nat) :
    modularExponentLoop .release p r b e =
      modularExponentLoop .release p (if e % 2 = 1 then r * b % 2 ^ 64 % p else r) (b * b % 2 ^ 64 % p) (e / 2) := by
  conv_lhs => rw [modularExponentLoop]
  rw [if_pos he]
  simp only [u64_release, mul_release, ok_bind, remU64_ok hp]
  split <;> rfl

theorem modularExponentLoop_end {p r b : Nat} (m : Mode) : modularExponentLoop m p r b 0 = .ok r := by
  rw [modularExponentLoop, if_neg (by omega)]

theorem modularExponentLoop_zero_zero {p : Nat} (hp : 0 < p) (e : Nat) :
    modularExponentLoop .release p 0 0 e = .ok 0 := by
  induction e using Nat.strong_induction_on with
  | _ e ih =>
    rcases Nat.eq_zero_or_pos e with rfl | he
    · exact modularExponentLoop_end _
    · rw [modularExponentLoop_release hp he]
      simpa using ih (e / 2) (by omega)

theorem modularExponentLoop_zero_base {p e : Nat} (hp : 0 < p) (he : 0 < e) (r : Nat) :
    modularExponentLoop .release p r 0 e = .ok 0 := by
  induction e using Nat.strong_induction_on generalizing r with
  | _ e ih =>
    rw [modularExponentLoop_release hp he]
    by_cases ho : e % 2 = 1
    · rw [if_pos ho]
      simpa using modularExponentLoop_zero_zero hp (e / 2)
    · rw [if_neg ho]
      simpa using ih (e / 2) (by omega) (by omega) r

theorem modularExponentLoop_zero_result {p : Nat} (hp : 0 < p) (e b : Nat) :
    modularExponentLoop .release p 0 b e = .ok 0 := by
  induction e using Nat.strong_induction_on generalizing b with
  | _ e ih =>
    rcases Nat.eq_zero_or_pos e with rfl | he
    · exact modularExponentLoop_end _
    · rw [modularExponentLoop_release hp he]
      simpa using ih (e / 2) (by omega) _

theorem modularExponentLoop_square {p e b b' : Nat} (hp : 0 < p) (he : 0 < e) (h : b * b % 2 ^ 64 % p = b') (r : Nat) :
    ∃ r', modularExponentLoop .release p r b e = modularExponentLoop .release p r' b' (e / 2) :=
  ⟨_, by rw [modularExponentLoop_release hp he, h]⟩

/-- Six squarings of 2 wrap to 0. -/
theorem modularExponent_wraps {p e : Nat} (hp : 2 ^ 32 < p) (he : 64 ≤ e) : modularExponent .release 2 e p = .ok 0 := by
  have h0 : 0 < p := by omega
  have small : ∀ b, b * b < 2 ^ 33 → b * b ≤ 2 ^ 32 → b * b % 2 ^ 64 % p = b * b := fun b h1 h2 => by
    rw [Nat.mod_eq_of_lt (by omega), Nat.mod_eq_of_lt (by omega)]
  obtain ⟨r1, e1⟩ := modularExponentLoop_square h0 (show 0 < e by omega) (small 2 (by norm_num) (by norm_num)) 1
  obtain ⟨r2, e2⟩ := modularExponentLoop_square h0 (show 0 < e / 2 by omega) (small 4 (by norm_num) (by norm_num)) r1
  obtain ⟨r3, e3⟩ := modularExponentLoop_square h0 (show 0 < e / 2 / 2 by omega) (small 16 (by norm_num) (by norm_num)) r2
  obtain ⟨r4, e4⟩ := modularExponentLoop_square h0 (show 0 < e / 2 / 2 / 2 by omega) (small 256 (by norm_num) (by norm_num)) r3
  obtain ⟨r5, e5⟩ := modularExponentLoop_square h0 (show 0 < e / 2 / 2 / 2 / 2 by omega)
    (small 65536 (by norm_num) (by norm_num)) r4
  obtain ⟨r6, e6⟩ := modularExponentLoop_square h0 (show 0 < e / 2 / 2 / 2 / 2 / 2 by omega)
    (show 4294967296 * 4294967296 % 2 ^ 64 % p = 0 by norm_num) r5
  rw [modularExponent, e1, e2, e3, e4, e5, e6]
  exact modularExponentLoop_zero_base h0 (by omega) _

/-- Without an overflow the result is the power. -/
theorem modularExponentLoop_exact {p : Nat} (hp : 0 < p) (e : Nat) {r b : Nat} (hr : r < p) (h : r * b ^ e < 2 ^ 64) :
    modularExponentLoop .release p r b e = .ok (r * b ^ e % p) := by
  induction e using Nat.strong_induction_on generalizing r b with
  | _ e ih =>
    rcases Nat.eq_zero_or_pos e with rfl | he
    · rw [modularExponentLoop_end, pow_zero, Nat.mul_one, Nat.mod_eq_of_lt hr]
    rcases Nat.eq_zero_or_pos r with rfl | hr0
    · rw [modularExponentLoop_zero_result hp, Nat.zero_mul, Nat.zero_mod]
    rcases Nat.eq_zero_or_pos b with rfl | hb0
    · rw [modularExponentLoop_zero_base hp he, zero_pow (by omega), Nat.mul_zero, Nat.zero_mod]
    rw [modularExponentLoop_release hp he]
    have hrb : r * b ≤ r * b ^ e := Nat.mul_le_mul_left _ (Nat.le_self_pow (by omega) b)
    rw [Nat.mod_eq_of_lt (show r * b < 2 ^ 64 by omega)]
    have hstep : ∀ r', (r' < p) → r' * (b * b) ^ (e / 2) ≤ r * b ^ e → r' * (b * b) ^ (e / 2) % p = r * b ^ e % p →
        modularExponentLoop .release p r' (b * b % 2 ^ 64 % p) (e / 2) = .ok (r * b ^ e % p) := by
      intro r' h1 h2 h3
      rcases Nat.eq_zero_or_pos (e / 2) with h20 | h20
      · rw [h20] at h3 ⊢
        rw [modularExponentLoop_end, ← h3, pow_zero, Nat.mul_one, Nat.mod_eq_of_lt h1]
      · have hbb : b * b ≤ r * b ^ e := by
          calc b * b = b ^ 2 := (sq b).symm
            _ ≤ b ^ e := Nat.pow_le_pow_right hb0 (by omega)
            _ ≤ r * b ^ e := Nat.le_mul_of_pos_left _ hr0
        rw [Nat.mod_eq_of_lt (show b * b < 2 ^ 64 by omega), ih (e / 2) (by omega) h1, Nat.mul_mod, ← Nat.pow_mod,
          ← Nat.mul_mod, h3]
        exact lt_of_le_of_lt (Nat.mul_le_mul_left _ (Nat.pow_le_pow_left (Nat.mod_le _ _) _)) (by omega)
    split
    · rename_i ho
      have he' : b ^ e = b * (b * b) ^ (e / 2) := by
        conv_lhs => rw [show e = 2 * (e / 2) + 1 by omega, pow_succ, pow_mul, sq, Nat.mul_comm]
      refine hstep _ (Nat.mod_lt _ hp) ?_ ?_
      · rw [he', ← Nat.mul_assoc]
        exact Nat.mul_le_mul_right _ (Nat.mod_le _ _)
      · rw [he', ← Nat.mul_assoc, Nat.mod_mul_mod]
    · rename_i ho
      have he' : b ^ e = (b * b) ^ (e / 2) := by
        conv_lhs => rw [show e = 2 * (e / 2) by omega, pow_mul, sq]
      exact hstep _ hr (by rw [he']) (by rw [he'])

theorem factorLoop_le (n d limit : Nat) (result : List Nat) {N : Nat} (hn : n ≤ N) (h : ∀ q ∈ result, q ≤ N) :
    ∀ n' l, RustDHT.factorLoop n d limit result = .ok (n', l) → n' ≤ N ∧ ∀ q ∈ l, q ≤ N := by
  fun_induction RustDHT.factorLoop n d limit result with
  | case1 n d limit result hl h0 e he => intro n' l e; cases e
  | case2 n d limit result hl h0 n1 he ih =>
    have hn0 : n ≠ 0 := by
      rintro rfl
      rw [stripFactor] at he
      split at he
      · cases he
      · rw [dif_pos (Or.inr rfl)] at he
        cases he
    refine ih (le_trans (stripFactor_le _ _ _ he) hn) fun q hq => ?_
    rcases List.mem_append.1 hq with hq | hq
    · exact h q hq
    · rw [List.mem_singleton.1 hq]
      exact le_trans (Nat.le_of_dvd (by omega) (Nat.dvd_of_mod_eq_zero h0)) hn
  | case3 n d limit result hl h0 ih => exact ih hn h
  | case4 n d limit result hl => intro n' l e; cases e; exact ⟨hn, h⟩

theorem distinctPrimeFactors_le {n : Nat} (hn : 2 ≤ n) {l : List Nat} (h : RustDHT.distinctPrimeFactors n = .ok l) :
    ∀ q ∈ l, q ≤ n := by
  unfold RustDHT.distinctPrimeFactors at h
  obtain ⟨⟨n1, res⟩, e1, h⟩ := bind_eq_ok h
  have hres : n1 ≤ n ∧ ∀ q ∈ res, q ≤ n := by
    split at e1
    · obtain ⟨n2, e2, e1⟩ := bind_eq_ok e1
      cases e1
      exact ⟨stripFactor_le _ _ _ e2, by simpa using hn⟩
    · cases e1
      simp
  simp only at h
  split at h
  · obtain ⟨⟨n2, res2⟩, e2, h⟩ := bind_eq_ok h
    have h2 := factorLoop_le _ _ _ _ hres.1 hres.2 _ _ e2
    simp only at h
    split at h
    · cases h
      intro q hq
      rcases List.mem_append.1 hq with hq | hq
      · exact h2.2 q hq
      · rw [List.mem_singleton.1 hq]; exact h2.1
    · cases h
      exact h2.2
  · cases h
    exact hres.2

/-- In a release build `primitive_root` of a prime above `2^32` is 2, unless the powers of 2 return to 1 in fewer than 64 steps. -/
theorem primitiveRoot_release {p : Nat} (hp : p.Prime) (h32 : 2 ^ 32 < p) (h61 : p < 2 ^ 61) (ho : 64 ≤ orderOf (2 : ZMod p)) :
    primitiveRoot .release p = .ok (some 2) := by
  have hodd : p % 2 = 1 := hp.eq_two_or_odd.resolve_left (by omega)
  obtain ⟨l, e⟩ := distinctPrimeFactors_even (n := p - 1) (by omega) (by omega)
  have hne := distinctPrimeFactors_ne_zero e
  have hle := distinctPrimeFactors_le (by omega) e
  generalize 2 :: l = fs at e hne hle
  unfold primitiveRoot
  rw [sub_eq _ (by omega), ok_bind, distinctPrimeFactors_eq _ (by omega), e, ok_bind,
    mapM_ok_map (g := fun factor => (p - 1) / factor) fun q hq => by rw [if_neg (hne q hq), ok_bind], ok_bind,
    show p - 2 = (p - 3) + 1 by omega, List.range'_succ, searchRoot]
  have hrej : ∀ es : List Nat, (∀ e ∈ es, 0 < e) → rejectRoot .release p 2 es = .ok false := by
    intro es
    induction es with
    | nil => intro _; rfl
    | cons x es ih =>
      intro hx
      have hx0 := hx x List.mem_cons_self
      rw [rejectRoot]
      have : ∃ v, modularExponent .release 2 x p = .ok v ∧ v ≠ 1 := by
        rcases Nat.lt_or_ge x 64 with hlt | hge
        · refine ⟨2 ^ x % p, ?_, fun h1 => ?_⟩
          · rw [modularExponent, modularExponentLoop_exact hp.pos x hp.one_lt, Nat.one_mul]
            rw [Nat.one_mul]
            exact Nat.pow_lt_pow_right (by norm_num) hlt
          · have := (natCast_pow_eq_one_iff (r := 2) hp.one_lt).2 h1
            have := orderOf_le_of_pow_eq_one (x := (2 : ZMod p)) hx0 (by exact_mod_cast this)
            omega
        · exact ⟨0, modularExponent_wraps h32 hge, by omega⟩
      obtain ⟨v, ev, hv⟩ := this
      rw [ev, ok_bind, if_neg hv]
      exact ih fun e he => hx e (List.mem_cons_of_mem _ he)
  rw [hrej, ok_bind]
  · rfl
  · intro x hx
    obtain ⟨q, hq, rfl⟩ := List.mem_map.1 hx
    exact Nat.div_pos (hle q hq) (Nat.pos_of_ne_zero (hne q hq))

end RustDHT.Machine
