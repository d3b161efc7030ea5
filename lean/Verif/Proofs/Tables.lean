import Verif.Spec.Tables
import Verif.Proofs.Length
import Mathlib.Tactic.FieldSimp
import Mathlib.Tactic.Linarith
import Mathlib.Data.Nat.Cast.Order.Field
import Mathlib.Algebra.Order.Ring.Rat

/-! # The sizes of the tables -/

set_option linter.unusedSectionVars false

namespace RustDHT

variable {T : Type} [Zero T] [Add T] [Sub T] [Mul T] [Neg T] [FftNum T]

theorem length_mrTwiddles (w h : ℕ) : (mrTwiddles T w h).length = (w / 2) * (h / 2) := by
  simp [mrTwiddles, List.length_flatMap]

theorem length_mr2Twiddles (h : ℕ) : (mr2Twiddles T h).length = h / 2 := by simp [mr2Twiddles]

theorem length_mr3Twiddles (h : ℕ) : (mr3Twiddles T h).length = h / 2 := by simp [mr3Twiddles]

theorem length_mr4Twiddles (h : ℕ) : (mr4Twiddles T h).length = 2 * (h / 2) := by
  simp [mr4Twiddles, List.length_flatMap, Nat.mul_comm]

theorem length_mr5Twiddles (h : ℕ) : (mr5Twiddles T h).length = 2 * (h / 2) := by
  simp [mr5Twiddles, List.length_flatMap, Nat.mul_comm]

theorem length_mr6Twiddles (h : ℕ) : (mr6Twiddles T h).length = 3 * (h / 2) := by
  simp [mr6Twiddles, List.length_flatMap, Nat.mul_comm]

theorem length_srTwiddles (n : ℕ) : (srTwiddles T n).length = 2 * (n / 8 + 1) := by
  simp [srTwiddles, List.length_flatMap, Nat.mul_comm]

theorem length_radix4Twiddles_step (n s : ℕ) (hs : 0 < s) :
    (radix4Twiddles T n s).length = 2 * (n / (s * 4) - 1) + (radix4Twiddles T n (s / 4)).length := by
  rw [radix4Twiddles, dif_pos hs]
  simp [List.length_flatMap, Nat.mul_comm]

theorem length_radix4Twiddles_le (n s : ℕ) (hs : 0 < s) :
    ((radix4Twiddles T n s).length : ℚ) ≤ 2 / 3 * n * (1 - 1 / (4 * s)) := by
  induction s using Nat.strongRecOn with
  | ind s ih =>
    rw [length_radix4Twiddles_step n s hs]
    have hs' : (0 : ℚ) < s := by exact_mod_cast hs
    have hn : (0 : ℚ) ≤ n := Nat.cast_nonneg n
    have h1 : ((2 * (n / (s * 4) - 1) : ℕ) : ℚ) ≤ n / (2 * s) := by
      have h2 : ((n / (s * 4) : ℕ) : ℚ) ≤ n / ((s * 4 : ℕ) : ℚ) := Nat.cast_div_le
      have h3 : ((2 * (n / (s * 4) - 1) : ℕ) : ℚ) ≤ 2 * ((n / (s * 4) : ℕ) : ℚ) := by
        exact_mod_cast (by omega : 2 * (n / (s * 4) - 1) ≤ 2 * (n / (s * 4)))
      refine h3.trans ((mul_le_mul_of_nonneg_left h2 (by norm_num)).trans (le_of_eq ?_))
      push_cast
      field_simp
      ring
    rw [Nat.cast_add]
    rcases Nat.eq_zero_or_pos (s / 4) with h0 | h0
    · rw [h0]
      have e : radix4Twiddles T n 0 = [] := by rw [radix4Twiddles, dif_neg (by omega)]
      rw [e]
      have hs3 : (s : ℚ) ≥ 1 := by exact_mod_cast hs
      refine (add_le_add_left h1 _).trans ?_
      have : (2 : ℚ) / 3 * n * (1 - 1 / (4 * s)) - n / (2 * s) = n / s * (2 / 3 * (s - 1)) := by field_simp; ring
      have h4 : (0 : ℚ) ≤ n / s * (2 / 3 * (s - 1)) := by
        have : (0 : ℚ) ≤ s - 1 := by linarith
        positivity
      simp only [List.length_nil, Nat.cast_zero, add_zero]
      linarith
    · have h5 := ih (s / 4) (by omega) h0
      have ht : (0 : ℚ) < (s / 4 : ℕ) := by exact_mod_cast h0
      have h6 : (4 : ℚ) * (s / 4 : ℕ) ≤ s := by exact_mod_cast (by omega : 4 * (s / 4) ≤ s)
      set t : ℚ := ((s / 4 : ℕ) : ℚ) with htd
      have h7 : (1 : ℚ) / s ≤ 1 / (4 * t) := one_div_le_one_div_of_le (by linarith) h6
      have h8 := mul_le_mul_of_nonneg_left h7 hn
      have e1 : (n : ℚ) / (2 * s) = n * (1 / s) * (1 / 2) := by field_simp
      have e2 : (1 : ℚ) / (4 * s) = 1 / s * (1 / 4) := by field_simp
      rw [e1] at h1
      rw [e2]
      nlinarith

theorem length_radix4Twiddles (n s : ℕ) : 3 * (radix4Twiddles T n s).length ≤ 2 * n := by
  rcases Nat.eq_zero_or_pos s with rfl | hs
  · have e : radix4Twiddles T n 0 = [] := by rw [radix4Twiddles, dif_neg (by omega)]
    simp [e]
  · have h := length_radix4Twiddles_le (T := T) n s hs
    have hs' : (0 : ℚ) < s := by exact_mod_cast hs
    have h1 : (0 : ℚ) ≤ 2 / 3 * n * (1 / (4 * s)) := by positivity
    have h2 : (3 : ℚ) * (radix4Twiddles T n s).length ≤ 2 * n := by nlinarith
    exact_mod_cast h2

theorem atLeastTwo_len {p : Plan} (h : p.AtLeastTwo) : 2 ≤ p.expectedLen := by
  induction p with
  | naive n => exact h
  | b1 => exact h.elim
  | b2 | b3 | b4 | b5 | b6 | b8 | b9 | b16 => simp [Plan.expectedLen]
  | mixedRadix w hh iw ih =>
    have h1 := iw h.1
    have h2 := ih h.2
    simp only [Plan.expectedLen]
    nlinarith
  | mr2 hh ih | mr3 hh ih | mr4 hh ih | mr5 hh ih | mr6 hh ih =>
    have := ih h
    simp only [Plan.expectedLen]; omega
  | radix4 n => exact h
  | splitRadix q hh iq ih =>
    have := iq h.1
    simp only [Plan.expectedLen]; omega
  | raders i ih =>
    have := ih h
    simp only [Plan.expectedLen]; omega

theorem memory_le (p : Plan) {d : Dht T} (hb : p.build T = .ok d) (h : p.AtLeastTwo) :
    p.memory T + 4 ≤ 4 * p.expectedLen ∨ (p.expectedLen % 2 = 1 ∧ p.memory T + 6 ≤ 5 * p.expectedLen) := by
  induction p generalizing d with
  | naive n =>
    have h2 : 2 ≤ n := h
    left
    simp only [Plan.memory, Plan.expectedLen, length_naiveTwiddles]; omega
  | b1 => exact h.elim
  | b2 | b3 | b4 | b5 | b6 | b8 | b9 | b16 => left; simp [Plan.memory, Plan.expectedLen]
  | mixedRadix w hh iw ih =>
    obtain ⟨wd, ew, hb⟩ := bind_eq_ok hb
    obtain ⟨hd, eh, hb⟩ := bind_eq_ok hb
    have h1 := iw ew h.1
    have h2 := ih eh h.2
    have hw := atLeastTwo_len h.1
    have hh2 := atLeastTwo_len h.2
    left
    simp only [Plan.memory, Plan.expectedLen, length_mrTwiddles]
    have a1 : w.memory T + 6 ≤ 5 * w.expectedLen := by omega
    have a2 : hh.memory T + 6 ≤ 5 * hh.expectedLen := by omega
    have a3 : 2 * (w.expectedLen / 2) ≤ w.expectedLen := by omega
    have a4 : 2 * (hh.expectedLen / 2) ≤ hh.expectedLen := by omega
    have a5 := Nat.mul_le_mul a3 a4
    have a6 : 2 * (w.expectedLen / 2) * (2 * (hh.expectedLen / 2)) = 4 * (w.expectedLen / 2 * (hh.expectedLen / 2)) := by ring
    generalize w.expectedLen / 2 * (hh.expectedLen / 2) = x at *
    generalize w.expectedLen = a at *
    generalize hh.expectedLen = b at *
    obtain ⟨c, rfl⟩ : ∃ c, a = c + 2 := ⟨a - 2, by omega⟩
    obtain ⟨e, rfl⟩ : ∃ e, b = e + 2 := ⟨b - 2, by omega⟩
    nlinarith
  | mr2 hh ih | mr3 hh ih | mr4 hh ih | mr5 hh ih | mr6 hh ih =>
    obtain ⟨hd, eh, hb⟩ := bind_eq_ok hb
    have h1 := ih eh h
    have h2 := atLeastTwo_len (p := hh) h
    left
    simp only [Plan.memory, Plan.expectedLen, length_mr2Twiddles, length_mr3Twiddles, length_mr4Twiddles, length_mr5Twiddles,
      length_mr6Twiddles]
    omega
  | radix4 n =>
    have h2 : 2 ≤ n := h
    left
    have := length_radix4Twiddles (T := T) n (n / ((radix4Base T n).1 * 4))
    simp only [Plan.memory, Plan.expectedLen]
    omega
  | splitRadix q hh iq ih =>
    obtain ⟨qd, eq, hb⟩ := bind_eq_ok hb
    obtain ⟨hd, eh, hb⟩ := bind_eq_ok hb
    have e1 := (splitRadix_eq hb).1
    rw [plan_len q qd eq, plan_len hh hd eh] at e1
    have h1 := iq eq h.1
    have h2 := ih eh h.2
    have hq := atLeastTwo_len h.1
    left
    simp only [Plan.memory, Plan.expectedLen, length_srTwiddles]
    omega
  | raders i ih =>
    obtain ⟨id, ei, hb⟩ := bind_eq_ok hb
    have e1 := raders_new_only hb
    rw [plan_len i id ei] at e1
    have h1 := ih ei h
    have h2 := atLeastTwo_len (p := i) h
    have h3 := e1.1.eq_two_or_odd
    right
    simp only [Plan.memory, Plan.expectedLen]
    omega

end RustDHT
