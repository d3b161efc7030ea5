import Verif.Proofs.CheckRadix4
import Verif.Proofs.Pairs
import Verif.Props.IeeeTest
import Verif.Spec.Sample

/-! # C83: what a passed unit test says in `f32` and `f64`

C49 says that the checker raises no false alarm.  This is the other direction. -/

namespace RustDHT

open Finset

private theorem small64 : (2⁻¹ : ℝ) ^ 1075 * 2 ^ 40 ≤ 2⁻¹ ^ 53 := by
  rw [show 1075 = 53 + 1022 from rfl, pow_add, mul_assoc]
  refine mul_le_of_le_one_right (by positivity) ?_
  rw [show 1022 = 40 + 982 from rfl, pow_add, mul_right_comm, ← mul_pow, inv_mul_cancel₀ two_ne_zero, one_pow, one_mul]
  exact pow_le_one₀ (by norm_num) (by norm_num)

private theorem large64 : (2 : ℝ) ^ 60 ≤ 2 ^ 1023 * (2⁻¹ ^ 53) ^ 2 := by
  rw [← pow_mul, show 1023 = 60 + (857 + 106) from rfl, pow_add, pow_add, mul_assoc, mul_assoc, ← mul_pow,
    mul_inv_cancel₀ two_ne_zero, one_pow, mul_one]
  exact le_mul_of_one_le_right (by positivity) (one_le_pow₀ (by norm_num))

variable [MathLib]

/-- Whatever the object is, if `check_dht_algorithm::<f32>` accepts it then all its outputs for the signal are finite and differ from the
DHT in exact arithmetic by little more than 0.1 on average. -/
theorem C83_passed_f32 (hl : MathLib.Accurate) (d : Dht (Flt binary32)) (n : ℕ) (hn : 0 < n) (hc : 20 * n * (n + 5) ≤ 1500000)
    (signal : List (Flt binary32)) (hs : signal.length = n) (hx : ∀ a ∈ signal, a.fin ∧ |a.val| ≤ 10)
    (h : checkDhtAlgorithm signal d n = .ok ()) :
    ∃ X Y s i output Z s', d.process signal = .ok X ∧
      d.processWithScratch signal (List.replicate d.inplaceScratchLen 0) = .ok (Y, s) ∧
      d.processOop signal output (List.replicate d.oopScratchLen 0) = .ok (i, Z, s') ∧ output.length = n ∧
      (0 < s.length → ∃ r, d.processWithScratch signal (List.replicate s.length TestNum.dirty) = .ok r) ∧
      (0 < s'.length → ∃ r, d.processOop signal Z (List.replicate s'.length TestNum.dirty) = .ok r) ∧
      ∀ y, (y = X ∨ y = Y ∨ y = Z ∨
        (0 < s.length ∧ ∃ r, d.processWithScratch signal (List.replicate s.length TestNum.dirty) = .ok (y, r)) ∨
        (0 < s'.length ∧ ∃ j r, d.processOop signal Z (List.replicate s'.length TestNum.dirty) = .ok (j, y, r))) → y.length = n ∧ (∀ a ∈ y, a.fin) ∧
        absError (y.map Flt.val) (dht (signal.map Flt.val)) / n ≤ 0.1006 + 0.0000012 * (n * (n + 5)) := by
  have hnr : (0 : ℝ) < n := by exact_mod_cast hn
  obtain ⟨X, Y, s, i, o, Z, s', h1, h2, h3, h4, r1, r2, h5⟩ := check_detects (C48_f32 hl) rfl (by norm_num) (by norm_num) (by norm_num) (by norm_num)
    d hn (by
      have : ((20 * n * (n + 2 + 3) : ℕ) : ℝ) ≤ 1500000 := by exact_mod_cast hc
      refine (mul_le_mul_of_nonneg_right this (by positivity)).trans (by norm_num)) signal hs hx h
  refine ⟨X, Y, s, i, o, Z, s', h1, h2, h3, h4, r1, r2, fun y hy => ?_⟩
  obtain ⟨k1, k2, k3⟩ := h5 y hy
  refine ⟨k1, k2, ?_⟩
  rw [div_le_iff₀ hnr]
  refine k3.trans (mul_le_mul_of_nonneg_right ?_ hnr.le)
  have e : (((n + 2 + 3 : ℕ) : ℝ)) = n + 5 := by push_cast; ring
  rw [e]
  have : 0 ≤ (n : ℝ) * (n + 5) := by positivity
  norm_num
  linarith

/-- The same for `f64`. -/
theorem C83_passed_f64 (hl : MathLib.Accurate) (d : Dht (Flt binary64)) (n : ℕ) (hn : 0 < n) (hc : 20 * n * (n + 72) ≤ 800000000000000)
    (signal : List (Flt binary64)) (hs : signal.length = n) (hx : ∀ a ∈ signal, a.fin ∧ |a.val| ≤ 10)
    (h : checkDhtAlgorithm signal d n = .ok ()) :
    ∃ X Y s i output Z s', d.process signal = .ok X ∧
      d.processWithScratch signal (List.replicate d.inplaceScratchLen 0) = .ok (Y, s) ∧
      d.processOop signal output (List.replicate d.oopScratchLen 0) = .ok (i, Z, s') ∧ output.length = n ∧
      (0 < s.length → ∃ r, d.processWithScratch signal (List.replicate s.length TestNum.dirty) = .ok r) ∧
      (0 < s'.length → ∃ r, d.processOop signal Z (List.replicate s'.length TestNum.dirty) = .ok r) ∧
      ∀ y, (y = X ∨ y = Y ∨ y = Z ∨
        (0 < s.length ∧ ∃ r, d.processWithScratch signal (List.replicate s.length TestNum.dirty) = .ok (y, r)) ∨
        (0 < s'.length ∧ ∃ j r, d.processOop signal Z (List.replicate s'.length TestNum.dirty) = .ok (j, y, r))) → y.length = n ∧ (∀ a ∈ y, a.fin) ∧
        absError (y.map Flt.val) (dht (signal.map Flt.val)) / n ≤ 0.1006 + 1 / 10 ^ 14 * (n * (n + 72)) := by
  have hnr : (0 : ℝ) < n := by exact_mod_cast hn
  obtain ⟨X, Y, s, i, o, Z, s', h1, h2, h3, h4, r1, r2, h5⟩ := check_detects (C48_f64 hl) rfl le_rfl (by norm_num) small64 large64
    d hn (by
      have : ((20 * n * (n + 69 + 3) : ℕ) : ℝ) ≤ 800000000000000 := by exact_mod_cast hc
      refine (mul_le_mul_of_nonneg_right this (by positivity)).trans (by norm_num)) signal hs hx h
  refine ⟨X, Y, s, i, o, Z, s', h1, h2, h3, h4, r1, r2, fun y hy => ?_⟩
  obtain ⟨k1, k2, k3⟩ := h5 y hy
  refine ⟨k1, k2, ?_⟩
  rw [div_le_iff₀ hnr]
  refine k3.trans (mul_le_mul_of_nonneg_right ?_ hnr.le)
  have e : (((n + 69 + 3 : ℕ) : ℝ)) = n + 72 := by push_cast; ring
  rw [e]
  have : 0 ≤ (n : ℝ) * (n + 72) := by positivity
  norm_num
  linarith

/-- So an object that gives a wrong result for a signal with an average error of more than a quarter is caught with that signal. -/
theorem C83_caught_f32 (hl : MathLib.Accurate) (d : Dht (Flt binary32)) (n : ℕ) (hn : 0 < n) (hc : n ≤ 250)
    (signal : List (Flt binary32)) (hs : signal.length = n) (hx : ∀ a ∈ signal, a.fin ∧ |a.val| ≤ 10) (X : List (Flt binary32))
    (hX : d.process signal = .ok X) (h : 1 / 4 < absError (X.map Flt.val) (dht (signal.map Flt.val)) / n) :
    checkDhtAlgorithm signal d n ≠ .ok () := by
  intro hp
  obtain ⟨X', _, _, _, _, _, _, h1, _, _, _, _, _, h5⟩ := C83_passed_f32 hl d n hn (by nlinarith) signal hs hx hp
  rw [hX] at h1
  cases h1
  have h6 := (h5 X (.inl rfl)).2.2
  have h7 : (n : ℝ) * (n + 5) ≤ 250 * 255 := by
    have : (n : ℝ) ≤ 250 := by exact_mod_cast hc
    exact mul_le_mul this (by linarith) (by positivity) (by norm_num)
  norm_num at h6 h
  linarith

/-- A `Radix4` of any length, under the conditions of C49: if its test passes, the rearrangement `σ` of C78 changes the signal by very
little. -/
theorem C83_radix4_f32 (hl : MathLib.Accurate) (m : ℕ) : ∃ σ : Equiv.Perm (Fin (2 ^ m)),
    (∀ i, σ i = i ↔ ∀ j < (m - 5) / 2, (i : ℕ) / 4 ^ j % 4 ≠ 3) ∧
    ∃ d, radix4 (Flt binary32) (2 ^ m) = .ok d ∧ ∀ C,
      C = 20 * 2 ^ m * (2 ^ m + 5) + 10 * (Nat.sqrt (2 ^ m) + 1) * ((Plan.radix4 (2 ^ m)).stability 2 2).depth → C ≤ 1500000 →
      ∀ x : Fin (2 ^ m) → Flt binary32, (∀ i, (x i).fin ∧ |(x i).val| ≤ 10) → checkDhtAlgorithm (List.ofFn x) d (2 ^ m) = .ok () →
        ∑ i, ((x (σ i)).val - (x i).val) ^ 2 ≤ 2 ^ m * (0.1007 + 1.005 * (C * 2⁻¹ ^ 24)) ^ 2 :=
  ⟨r4SigmaPerm m, r4SigmaPerm_fixed m, _, radix4_eq m, fun C hC hc x hx h =>
    radix4_detects_fin (C48_f32 hl) rfl (by norm_num) (by norm_num) (by norm_num) (by norm_num) m _ (radix4_eq m) hC (by
      have : (C : ℝ) ≤ 1500000 := by exact_mod_cast hc
      refine (mul_le_mul_of_nonneg_right this (by positivity)).trans (by norm_num)) x hx h⟩

theorem C83_radix4_f64 (hl : MathLib.Accurate) (m : ℕ) : ∃ σ : Equiv.Perm (Fin (2 ^ m)),
    (∀ i, σ i = i ↔ ∀ j < (m - 5) / 2, (i : ℕ) / 4 ^ j % 4 ≠ 3) ∧
    ∃ d, radix4 (Flt binary64) (2 ^ m) = .ok d ∧ ∀ C,
      C = 20 * 2 ^ m * (2 ^ m + 72) + 10 * (Nat.sqrt (2 ^ m) + 1) * ((Plan.radix4 (2 ^ m)).stability 69 (2 ^ 29)).depth →
      C ≤ 800000000000000 →
      ∀ x : Fin (2 ^ m) → Flt binary64, (∀ i, (x i).fin ∧ |(x i).val| ≤ 10) → checkDhtAlgorithm (List.ofFn x) d (2 ^ m) = .ok () →
        ∑ i, ((x (σ i)).val - (x i).val) ^ 2 ≤ 2 ^ m * (0.1007 + 1.005 * (C * 2⁻¹ ^ 53)) ^ 2 :=
  ⟨r4SigmaPerm m, r4SigmaPerm_fixed m, _, radix4_eq m, fun C hC hc x hx h =>
    radix4_detects_fin (C48_f64 hl) rfl le_rfl (by norm_num) small64 large64 m _ (radix4_eq m) hC (by
      have : (C : ℝ) ≤ 800000000000000 := by exact_mod_cast hc
      refine (mul_le_mul_of_nonneg_right this (by positivity)).trans (by norm_num)) x hx h⟩

/-- The test of `Radix4` stops at length 64, where it is still right (src/scalar/radix4.rs:466-480).  Length 128: let the entries of the
signal be drawn independently, all outcomes in `ι` equally likely, such that at most one in five is close to any given one.  Then the
test fails but for at most a share of `(1/5)^16` of the signals. -/
theorem C83_next_length (hl : MathLib.Accurate) (ι : Type) [Fintype ι] (v : ι → Flt binary32) (hv : ∀ a, (v a).fin ∧ |(v a).val| ≤ 10)
    (far : ∀ c, 5 * {a | |(v a).val - (v c).val| < 0.99}.ncard ≤ Fintype.card ι) :
    ∃ d, radix4 (Flt binary32) 128 = .ok d ∧
      5 ^ 16 * {x : Fin 128 → ι | checkDhtAlgorithm (List.ofFn fun i => v (x i)) d 128 = .ok ()}.ncard ≤ Fintype.card ι ^ 128 := by
  refine ⟨_, radix4_eq 7, close128 (v := fun a => (v a).val) (D := 0.99) (B := 1.95) (by norm_num) (by norm_num) far fun x hx => ?_⟩
  have h := radix4_detects_fin (C48_f32 hl) rfl (by norm_num) (by norm_num) (by norm_num) (by norm_num) 7 _ (radix4_eq 7)
    (C := 370720) (by decide +kernel) (by norm_num) (fun i => v (x i)) (fun i => hv _) hx
  refine h.trans ?_
  norm_num

omit [MathLib] in
private theorem sample32_val (k : Fin (2 ^ 23)) : (sample32 k).fin ∧ |(sample32 k).val - 10 * k / 2 ^ 23| ≤ 0.000001 ∧
    |(sample32 k).val| ≤ 10 := by
  have hk : ((k : ℕ) : ℝ) ≤ 8388607 := by
    have : (k : ℕ) ≤ 8388607 := Nat.le_of_lt_succ k.2
    exact_mod_cast this
  have hk0 : (0 : ℝ) ≤ (k : ℕ) := Nat.cast_nonneg _
  have e : ((10 * k / 2 ^ 23 : ℚ) : ℝ) = 10 * k / 2 ^ 23 := by push_cast; rfl
  have h0 : (0 : ℝ) ≤ 10 * k / 2 ^ 23 := by positivity
  have h1 : (10 : ℝ) * k / 2 ^ 23 ≤ 10 - 0.000001 := by
    rw [div_le_iff₀ (by positivity)]
    norm_num
    linarith
  obtain ⟨f, b, -⟩ := Flt.round_rat (F := binary32) (by decide) false (10 * k / 2 ^ 23 : ℚ) (by
    rw [e, abs_of_nonneg h0]
    refine h1.trans (le_trans (by norm_num : (10 : ℝ) - 0.000001 ≤ 2 ^ (4 : ℤ)) (zpow_le_zpow_right₀ (by norm_num) (by decide))))
  rw [e, abs_of_nonneg h0] at b
  change |(sample32 k).val - 10 * k / 2 ^ 23| ≤ 2⁻¹ ^ 24 * (10 * k / 2 ^ 23) + (2 : ℝ) ^ (-150 : ℤ) at b
  have b2 : |(sample32 k).val - 10 * k / 2 ^ 23| ≤ 0.000001 := by
    refine b.trans ?_
    norm_num at h1 ⊢
    linarith
  refine ⟨f, b2, ?_⟩
  rw [abs_le] at b2 ⊢
  norm_num at h1 h0 b2 ⊢
  constructor <;> linarith

/-- For these at most one in 150 thousand million signals would pass. -/
theorem C83_next_length_random (hl : MathLib.Accurate) : ∃ d, radix4 (Flt binary32) 128 = .ok d ∧
    150000000000 * {x : Fin 128 → Fin (2 ^ 23) | checkDhtAlgorithm (List.ofFn fun i => sample32 (x i)) d 128 = .ok ()}.ncard
      ≤ (2 ^ 23) ^ 128 := by
  obtain ⟨d, hd, h⟩ := C83_next_length hl (Fin (2 ^ 23)) sample32 (fun a => ⟨(sample32_val a).1, (sample32_val a).2.2⟩) (fun c => by
    have sub : {a : Fin (2 ^ 23) | |(sample32 a).val - (sample32 c).val| < 0.99}.ncard
        ≤ (Icc ((c : ℤ) - 831309) (c + 831309)).card := by
      rw [← Set.ncard_coe_finset]
      refine Set.ncard_le_ncard_of_injOn (fun a : Fin (2 ^ 23) => ((a : ℕ) : ℤ)) (fun a ha => ?_) (fun a _ b _ e => ?_) (Set.toFinite _)
      · have ha : |(sample32 a).val - (sample32 c).val| < 0.99 := ha
        have h1 := (sample32_val a).2.1
        have h2 := (sample32_val c).2.1
        rw [abs_lt] at ha
        rw [abs_le] at h1 h2
        norm_num at ha h1 h2
        have h3 : ((a : ℕ) : ℝ) < c + 831310 := by linarith
        have h4 : ((c : ℕ) : ℝ) < a + 831310 := by linarith
        have h3 : (a : ℕ) < c + 831310 := by exact_mod_cast h3
        have h4 : (c : ℕ) < a + 831310 := by exact_mod_cast h4
        rw [coe_Icc, Set.mem_Icc]
        constructor
        · show (c : ℤ) - 831309 ≤ ((a : ℕ) : ℤ)
          omega
        · show ((a : ℕ) : ℤ) ≤ c + 831309
          omega
      · exact Fin.ext (Int.ofNat.inj e)
    rw [Int.card_Icc] at sub
    rw [Fintype.card_fin]
    omega)
  rw [Fintype.card_fin] at h
  exact ⟨d, hd, le_trans (Nat.mul_le_mul_right _ (by norm_num)) h⟩

/-- In a smaller example, with entries 0, 1, …, 9, two different ones are never close. -/
example (hl : MathLib.Accurate) : ∃ d, radix4 (Flt binary32) 128 = .ok d ∧
    5 ^ 16 * {x : Fin 128 → Fin 10 | checkDhtAlgorithm (List.ofFn fun i => Flt.ofNat binary32 (x i)) d 128 = .ok ()}.ncard ≤ 10 ^ 128 := by
  have key : ∀ k : Fin 10, (Flt.ofNat binary32 k).fin ∧ |(Flt.ofNat binary32 k).val - k| ≤ 0.001 := fun k => by
    have hk : ((k : ℕ) : ℝ) ≤ 10 := by exact_mod_cast k.2.le
    obtain ⟨h1, h2⟩ := Flt.ofNat_spec (F := binary32) (by decide) (by decide) k
      (hk.trans (le_trans (by norm_num : (10 : ℝ) ≤ 2 ^ (4 : ℤ)) (zpow_le_zpow_right₀ (by norm_num) (by decide))))
    change _ ≤ (2⁻¹ : ℝ) ^ 24 * _ at h2
    refine ⟨h1, h2.trans ?_⟩
    norm_num
    linarith
  have h := C83_next_length hl (Fin 10) (fun k => Flt.ofNat binary32 k) (fun k => ⟨(key k).1, by
    have hk : ((k : ℕ) : ℝ) + 1 ≤ 10 := by exact_mod_cast k.2
    have hk0 : (0 : ℝ) ≤ (k : ℕ) := Nat.cast_nonneg _
    have := abs_le.1 (key k).2
    rw [abs_le]
    norm_num at this ⊢
    constructor <;> linarith [this.1, this.2]⟩) (fun c => by
    have : {a : Fin 10 | |(Flt.ofNat binary32 a).val - (Flt.ofNat binary32 c).val| < 0.99} ⊆ {c} := by
      intro a ha
      have ha : |(Flt.ofNat binary32 a).val - (Flt.ofNat binary32 c).val| < 0.99 := ha
      have h1 := abs_le.1 (key a).2
      have h2 := abs_le.1 (key c).2
      rw [abs_lt] at ha
      norm_num at ha h1 h2
      have h3 : ((a : ℕ) : ℝ) < c + 1 := by linarith
      have h4 : ((c : ℕ) : ℝ) < a + 1 := by linarith
      have h3 : (a : ℕ) < c + 1 := by exact_mod_cast h3
      have h4 : (c : ℕ) < a + 1 := by exact_mod_cast h4
      exact Fin.ext (by omega)
    have := Set.ncard_le_ncard this
    rw [Set.ncard_singleton] at this
    rw [Fintype.card_fin]
    omega)
  rwa [Fintype.card_fin] at h

/-- An object that passes, so that the conclusion of `C83_passed_f32` holds. -/
example (hl : MathLib.Accurate) : ∃ d X, Plan.b16.build (Flt binary32) = .ok d ∧ d.process (List.replicate 16 (Flt.ofNat binary32 7)) = .ok X ∧
    absError (X.map Flt.val) (dht ((List.replicate 16 (Flt.ofNat binary32 7)).map Flt.val)) / (16 : ℕ) ≤ 0.102 := by
  obtain ⟨d, hd, h⟩ := C49_unit_tests_f32 hl (.b16, 16) (by simp [unitTests32])
  have h7 : ∀ a ∈ List.replicate 16 (Flt.ofNat binary32 7), a.fin ∧ |a.val| ≤ 10 := by
    intro a ha
    rw [List.eq_of_mem_replicate ha]
    obtain ⟨h1, h2⟩ := Flt.ofNat_spec (F := binary32) (by decide) (by decide) 7 (by show _ ≤ (2 : ℝ) ^ (127 : ℤ); norm_num)
    refine ⟨h1, ?_⟩
    have h3 : (2⁻¹ : ℝ) ^ binary32.prec * (7 : ℕ) ≤ 1 := by show (2⁻¹ : ℝ) ^ 24 * (7 : ℕ) ≤ 1; norm_num
    have := abs_le.1 (h2.trans h3)
    push_cast at this
    exact abs_le.2 ⟨by linarith [this.1], by linarith [this.2]⟩
  obtain ⟨X, _, _, _, _, _, _, h1, _, _, _, _, _, h5⟩ := C83_passed_f32 hl d 16 (by norm_num) (by norm_num) _ (by simp) h7 (h _ (by simp) h7)
  refine ⟨d, X, hd, h1, ((h5 X (.inl rfl)).2.2).trans ?_⟩
  norm_num

/-- The value with which the checker fills the scratch space before the calls that it repeats. -/
example : (TestNum.dirty : Flt binary32).value = 100 ∧ (TestNum.dirty : Flt binary64).value = 100 := by
  decide +kernel

/-- A `Radix4` of length 256 satisfies the condition of `C83_radix4_f32`. -/
example : 20 * 2 ^ 8 * (2 ^ 8 + 5) + 10 * (Nat.sqrt (2 ^ 8) + 1) * ((Plan.radix4 (2 ^ 8)).stability 2 2).depth ≤ 1500000 := by
  decide +kernel

/-- One of length `2 ^ 20` that of `C83_radix4_f64`. -/
example : 20 * 2 ^ 20 * (2 ^ 20 + 72) + 10 * (Nat.sqrt (2 ^ 20) + 1) * ((Plan.radix4 (2 ^ 20)).stability 69 (2 ^ 29)).depth
    ≤ 800000000000000 := by
  decide +kernel

end RustDHT
